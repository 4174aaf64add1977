import Verif.QueueLoadsOver
import Verif.QueueProps
import Verif.QueueSoloProps

/-!
# C62: the wait queue does not rely on up-to-date loads

`LExec c tr l`: the queue was used by any number of senders, `notify` calls and one `close` call, in any interleaving, and did
`tr`. Every plain load of the code yielded any value that the memory model of the language allows, not necessarily the newest
one (see `QueueLoads`). The guarantees of `QueueProps` hold here, too, except that two `notify` calls now disturb each other not
only if they overlap, but also if the thread that makes the second one does not know that the first one has ended
(`C62_false_lost_without_overlap`).
-/

namespace Thingbuf.Queue

variable {W : Type} {c : Config W} {tr : Trace W} {l : LState W}

/-! ## Concrete executions -/

/-- Take these steps. -/
def lrun (c : Config W) : LState W → List (LAct W) → Option (LState W × Trace W)
  | l, [] => some (l, [])
  | l, a :: as => do
    let (l1, e1) ← lstep c l a
    let (l2, e2) ← lrun c l1 as
    pure (l2, e1 ++ e2)

theorem LExec.of_lrun {l' : LState W} {acts : List (LAct W)} {evs : Trace W} (h : LExec c tr l)
    (hr : lrun c l acts = some (l', evs)) : LExec c (tr ++ evs) l' := by
  induction acts generalizing tr l evs with
  | nil =>
    simp only [lrun, Option.some.injEq, Prod.mk.injEq] at hr
    obtain ⟨rfl, rfl⟩ := hr
    simpa using h
  | cons a as ih =>
    simp only [lrun, Option.bind_eq_bind, Option.bind_eq_some_iff, Option.pure_def,
      Option.some.injEq, Prod.exists, Prod.mk.injEq] at hr
    obtain ⟨s1, e1, h1, s2, e2, h2, rfl, rfl⟩ := hr
    have := ih (h.step h1) h2
    simpa using this

/-- An execution from its trace, with what the `notify` calls below `k` knew. -/
theorem LExec.of_trace {acts : List (LAct W)} {k : Nat} {bs : List (List Tid)}
    (h : (lrun c LState.init acts).map (fun r => (r.2, (List.range k).map r.1.before)) = some (tr, bs)) :
    ∃ l, LExec c tr l ∧ (List.range k).map l.before = bs := by
  simp only [Option.map_eq_some_iff, Prod.exists, Prod.mk.injEq] at h
  obtain ⟨l, tr', h1, rfl, h2⟩ := h
  exact ⟨l, by simpa using LExec.init.of_lrun h1, h2⟩

def aOne (n k : Nat) : List (Act Nat) := List.replicate k (.node n false)

/-- Steps whose loads, if any, yield message `i`. -/
def lActs (i : Nat) (as : List (Act Nat)) : List (LAct Nat) := as.map (.act · i)

/-- Sender 1 waits. `notify` 0 wakes it and returns. Sender 1 polls; its load is out of date ("waiting"), so that it looks again with
the lock. Sender 2 waits. `notify` 1 is made by a thread that knows that 0 has ended; its load is out of date ("empty", from
before sender 2 waited), but it does wake sender 2. Sender 3 waits and polls. The receiver is dropped. Sender 3 polls; its load is out of
date, but it finds out. So does sender 4. -/
def lDemoActs : List (LAct Nat) :=
  lActs 0 (aStart 1 10 6) ++ [.notify 0 []] ++ lActs 1 (aOp 0 7) ++ lActs 1 (aCont 1 10 2) ++ lActs 2 (aOne 1 1) ++
  lActs 2 (aStart 2 20 6) ++ [.notify 1 [.op 0]] ++ lActs 2 (aOp 1 8) ++ lActs 4 (aStart 3 30 6) ++ lActs 1 (aCont 3 31 4) ++
  lActs 0 (aClose 9 5) ++ lActs 1 (aCont 3 32 2) ++ lActs 2 (aOne 3 1) ++ lActs 0 (aStart 4 40 1)

def lDemoTr : Trace Nat :=
  [.callStart 1 10, .touch (.node 1) 1, .enq 1 10, .retStart 1 .wait, .callNotify 0, .touch (.op 0) 1, .deq 0 1, .wake 0 1 10,
   .retNotify 0 true, .callCont 1 10, .retCont 1 .notified, .callStart 2 20, .touch (.node 2) 2, .enq 2 20, .retStart 2 .wait,
   .callNotify 1, .touch (.op 1) 2, .deq 1 2, .wake 1 2 20, .retNotify 1 true, .callStart 3 30, .touch (.node 3) 3, .enq 3 30,
   .retStart 3 .wait, .callCont 3 31, .upd 3 31, .retCont 3 .wait, .callClose 9, .closing 9, .touch (.op 9) 3, .deq 9 3,
   .wake 9 3 31, .retClose 9, .callCont 3 32, .retCont 3 .closed, .callStart 4 40, .retStart 4 .closed]

theorem lDemo_exec : ∃ l, LExec (demoC true) lDemoTr l ∧ (List.range 2).map l.before = [[], [.op 0]] :=
  LExec.of_trace (acts := lDemoActs) (by decide +kernel)

/-- The loads that the comment above says are out of date are: sender 1 cannot tell without the lock, `notify` 1 sees "empty". -/
example : ((lrun (demoC true) LState.init (lDemoActs.take 17)).map fun r => (match r.1.q.pc (.node 1) with | .contLock _ => true | _ => false,
      (r.1.q.list.node 1).state)) = some (true, .waking) ∧
    ((lrun (demoC true) LState.init (lDemoActs.take 28)).map fun r => (match r.1.q.pc (.op 1) with | .nLoop .empty => true | _ => false,
      r.1.q.st)) = some (true, .waiting) := by
  decide +kernel

/-- `notify` 0 is stored. Sender 1 consumes it. `notify` 1, which knows of 0 only, is stored although its load yields what 0 stored.
Sender 1 consumes that, too, and then waits. -/
def lDemoTr2 : Trace Nat :=
  [.callNotify 0, .store 0, .retNotify 0 false, .callStart 1 10, .consume 1, .retStart 1 .notified, .callNotify 1, .store 1,
   .retNotify 1 false, .callStart 1 11, .consume 1, .retStart 1 .notified, .callStart 1 12, .touch (.node 1) 1, .enq 1 12,
   .retStart 1 .wait]

theorem lDemo_exec2 : ∃ l, LExec (demoC true) lDemoTr2 l ∧ (List.range 2).map l.before = [[], [.op 0]] :=
  LExec.of_trace (acts := [.notify 0 []] ++ lActs 0 (aOp 0 2) ++ lActs 0 (aStart 1 10 1) ++ [.notify 1 [.op 0]] ++ lActs 1 (aOp 1 3) ++
    lActs 0 (aStart 1 11 1) ++ lActs 4 (aStart 1 12 6)) (by decide +kernel)

theorem before_of_range {l : LState W} {o : Nat} {k : Nat} {bs : List (List Tid)} (h : (List.range k).map l.before = bs) (ho : o < k) :
    some (l.before o) = bs[o]? := by
  rw [← h]; simp [ho]

/-! ## The list -/

/-- **C62** (compare C25). The pointers of the list spell out the waiting nodes, in both directions, without duplicates. -/
theorem C62_list_is_queue (h : LExec c tr l) (k : Nat) (hk : (queueOf tr).length ≤ k) :
    walkNext l.q.list.node k l.q.list.head = queueOf tr ∧
      walkPrev l.q.list.node k l.q.list.tail = (queueOf tr).reverse ∧ (queueOf tr).Nodup ∧
      ∀ n ∈ queueOf tr, .giveUp n ∉ tr → .free n ∉ tr :=
  C25_list_is_queue h.exec k hk

/-- What `queueOf` is (compare `waiting_iff`). -/
theorem C62_waiting_iff (h : LExec c tr l) {n : Nat} :
    n ∈ queueOf tr ↔ ∃ a v b, tr = a ++ .enq n v :: b ∧ (∀ o, .deq o n ∉ b) ∧ .rem n ∉ b :=
  waiting_iff h.exec

example : ∃ l, LExec (demoC true) (lDemoTr.take 24) l ∧ queueOf (lDemoTr.take 24) = [3] := by
  obtain ⟨l, hl, _⟩ := LExec.of_trace (c := demoC true) (acts := lDemoActs.take 42) (k := 0) (tr := lDemoTr.take 24) (bs := [])
    (by decide +kernel)
  exact ⟨l, hl, by decide⟩

/-! ## Order -/

/-- **C62** (compare C24). A node is taken out of the list only when it is the longest waiting one. -/
theorem C62_fifo (h : LExec c tr l) {pre post : Trace W} {o n : Nat} (htr : tr = pre ++ .deq o n :: post) :
    n ∈ queueOf pre ∧ ∀ m ∈ queueOf pre, m ≠ n →
      ∃ a u b v d, pre = a ++ .enq n u :: (b ++ .enq m v :: d) ∧
        (∀ o', .deq o' n ∉ b ++ .enq m v :: d) ∧ .rem n ∉ b ++ .enq m v :: d ∧
        (∀ o', .deq o' m ∉ d) ∧ .rem m ∉ d :=
  C24_fifo h.exec htr

/-- **C62** (compare C24). If `start_wait` of `m` had returned `Wait` before `n` called it, then `n` is not taken before `m`, unless `m`
cancelled. -/
theorem C62_no_overtaking (h : LExec c tr l) {p1 p2 p3 p4 : Trace W} {o m n : Nat} {v : W} (hmn : m ≠ n)
    (htr : tr = p1 ++ .retStart m .wait :: (p2 ++ .callStart n v :: (p3 ++ .deq o n :: p4))) :
    (∃ o', .deq o' m ∈ p2 ++ p3) ∨ .rem m ∈ p2 ++ p3 :=
  C24_no_overtaking h.exec hmn htr

example : ∃ l p1 p2 p3 p4, LExec (demoC true) lDemoTr l ∧
    lDemoTr = p1 ++ .retStart 1 .wait :: (p2 ++ .callStart 2 20 :: (p3 ++ .deq 1 2 :: p4)) := by
  obtain ⟨l, hl, _⟩ := lDemo_exec
  exact ⟨l, lDemoTr.take 3, (lDemoTr.drop 4).take 7, (lDemoTr.drop 12).take 5, lDemoTr.drop 18, hl, by decide⟩

/-- **C62** (compare C24). If the later sender `n` has been taken, then no `continue_wait` of the earlier sender `m` says `Wait` any more: its
first load may be out of date, but not the one it makes with the lock. -/
theorem C62_earlier_sees_it (h : LExec c tr l) {p1 p2 p3 p4 p5 : Trace W} {o m n : Nat} {v : W} (hmn : m ≠ n)
    (htr : tr = p1 ++ .retStart m .wait ::
      (p2 ++ .callStart n v :: (p3 ++ .deq o n :: (p4 ++ .retCont m .wait :: p5)))) :
    ∃ u, .callStart m u ∈ p2 ++ p3 ++ p4 :=
  C24_earlier_sees_it h.exec hmn htr

/-! ## Notifications -/

/-- **C62** (compare C26). A `notify` that reports that it woke somebody took exactly one waiting node, woke the waiter it found there, and did
nothing else. -/
theorem C62_one_wake (h : LExec c tr l) {o : Nat} (hr : .retNotify o true ∈ tr) :
    ∃ n v, opEvs tr o = [.callNotify o, .deq o n, .wake o n v, .retNotify o true] :=
  C26_one_wake h.exec hr

/-- **C62** (compare C26), for a `notify` during which no call takes nodes out of the list, and no call has taken nodes that its thread
does not know to have ended: it wakes exactly one waiting sender, or it stores exactly one notification. -/
theorem C62_notify_alone (h : LExec c tr l) {o : Nat} {b : Bool} (hr : .retNotify o b ∈ tr) (hno : ¬ Unordered l tr o) :
    (b = true ∧ ∃ n v, opEvs tr o = [.callNotify o, .deq o n, .wake o n v, .retNotify o true]) ∨
    (b = false ∧ opEvs tr o = [.callNotify o, .store o, .retNotify o false]) := by
  rcases h.exec.retNotify_cases hr with h1 | h1 | ⟨rfl, h1, h2⟩
  · exact .inr h1
  · exact .inl h1
  · exfalso
    obtain ⟨pre, post, htr⟩ := List.append_of_mem hr
    rcases h.nEvOk pre _ post htr with h3 | ⟨_, h3⟩
    · have : Event.store o ∈ opEvs tr o := by rw [mem_opEvs rfl, htr]; simp [h3]
      simp [h2] at this
    · exact hno (by rw [htr]; exact h3.append)

/-- **C62** (compare C26). A receiver that drops its `RecvRef`s one after the other, no cancellation, any interleaving with the senders, loads out of
date: a `notify` wakes exactly one waiting sender, or it stores exactly one notification. -/
theorem C62_notify (h : LExec c tr l) (h1 : OneAfterTheOther l tr) {o : Nat} {b : Bool} (hr : .retNotify o b ∈ tr) :
    (b = true ∧ ∃ n v, opEvs tr o = [.callNotify o, .deq o n, .wake o n v, .retNotify o true]) ∨
    (b = false ∧ opEvs tr o = [.callNotify o, .store o, .retNotify o false]) :=
  C62_notify_alone h hr (h.not_unordered h1 o)

/-- **C62** (compare C30). The only assertion that can fail is the one of a `notify` that finds nobody in the list, in a debug build, and only if
another call that its thread does not know to have ended took a node. -/
theorem C62_assertions (h : LExec c tr l) {pre post : Trace W} {t : Tid} (htr : tr = pre ++ .assertFailed t :: post) :
    ∃ o, t = .op o ∧ c.debug = true ∧ Unordered l pre o :=
  h.nEvOk pre _ post htr

/-- **C62** (compare C30). With a receiver that drops its `RecvRef`s one after the other and without cancellation no assertion fails. -/
theorem C62_no_assertion (h : LExec c tr l) (h1 : OneAfterTheOther l tr) (t : Tid) : .assertFailed t ∉ tr := by
  intro hm
  obtain ⟨pre, post, htr⟩ := List.append_of_mem hm
  obtain ⟨o, _, _, h2⟩ := C62_assertions h htr
  exact h.not_unordered h1 o (by rw [htr]; exact h2.append)

theorem lDemo_ordered {l : LState Nat} (h : (List.range 2).map l.before = [[], [.op 0]]) : OneAfterTheOther l lDemoTr := by
  refine ⟨?_, by intro n hn; simp [lDemoTr] at hn⟩
  intro pre o post o' h1 h2
  have h3 : lDemoTr.filter (fun e => match e with | .callNotify _ => true | _ => false) =
      [.callNotify 0, .callNotify 1] := by decide
  rw [h1, List.filter_append, List.filter_cons] at h3
  have h4 : Event.callNotify o' ∈ pre.filter (fun e => match e with | .callNotify _ => true | _ => false) := by simp [h2]
  cases hf : pre.filter (fun e => match e with | .callNotify _ => true | _ => false) with
  | nil => rw [hf] at h4; cases h4
  | cons x xs =>
    rw [hf] at h3 h4
    cases xs with
    | nil =>
      simp at h3 h4
      obtain ⟨rfl, rfl, _⟩ := h3
      have := before_of_range h (o := 1) (by omega)
      simp at this h4
      subst h4
      simp [this]
    | cons y ys => simp at h3

example : ∃ l, LExec (demoC true) lDemoTr l ∧ OneAfterTheOther l lDemoTr ∧ Event.retNotify 1 true ∈ lDemoTr := by
  obtain ⟨l, hl, hb⟩ := lDemo_exec
  exact ⟨l, hl, lDemo_ordered hb, by decide⟩

/-- The trace of a `notify` that is made when another one has returned, by a thread that does not know of it. Its load yields the old value
"waiting". -/
def lLostTr (debug : Bool) : Trace Nat :=
  [.callStart 1 10, .touch (.node 1) 1, .enq 1 10, .retStart 1 .wait, .callNotify 0, .touch (.op 0) 1, .deq 0 1, .wake 0 1 10,
   .retNotify 0 true, .callNotify 1] ++
  if debug then [.assertFailed (.op 1)]
  else [.retNotify 1 false, .callStart 2 20, .touch (.node 2) 2, .enq 2 20, .retStart 2 .wait]

theorem lLost_exec : ∃ l, LExec (demoC false) (lLostTr false) l ∧ (List.range 2).map l.before = [[], []] :=
  LExec.of_trace (acts := lActs 0 (aStart 1 10 6) ++ [.notify 0 []] ++ lActs 1 (aOp 0 7) ++ [.notify 1 []] ++ lActs 1 (aOp 1 6) ++
    lActs 2 (aStart 2 20 6)) (by decide +kernel)

theorem lFail_exec : ∃ l, LExec (demoC true) (lLostTr true) l ∧ (List.range 2).map l.before = [[], []] :=
  LExec.of_trace (acts := lActs 0 (aStart 1 10 6) ++ [.notify 0 []] ++ lActs 1 (aOp 0 7) ++ [.notify 1 []] ++ lActs 1 (aOp 1 4))
    (by decide +kernel)

/-- Without that knowledge a notification can be lost in a release build although the two `notify` calls do not overlap and nobody cancels: the
second one is called when the first one has returned, nobody waits, it stores nothing, and a sender that comes later goes to sleep. With
sequential consistency it would have been stored (`C26_notify`). -/
theorem C62_false_lost_without_overlap : ∃ l tr1 tr2 tr3, LExec (demoC false) (tr1 ++ .callNotify 1 :: (tr2 ++ .callStart 2 20 :: tr3)) l ∧
    OneAtATime (tr1 ++ .callNotify 1 :: (tr2 ++ .callStart 2 20 :: tr3)) ∧
    .retNotify 0 true ∈ tr1 ∧ queueOf tr1 = [] ∧ .retNotify 1 false ∈ tr2 ∧
    (∀ o, .store o ∉ tr1 ++ .callNotify 1 :: (tr2 ++ .callStart 2 20 :: tr3)) ∧ .retStart 2 .wait ∈ tr3 := by
  obtain ⟨l, hl, _⟩ := lLost_exec
  refine ⟨l, (lLostTr false).take 9, [.retNotify 1 false], (lLostTr false).drop 12, hl, ⟨?_, ?_⟩, by decide, by decide, by decide, ?_,
    by decide⟩
  · intro pre o post o' h ho
    have h3 : (lLostTr false).filter (fun e => match e with | .callNotify _ | .retNotify _ _ => true | _ => false) =
      [.callNotify 0, .retNotify 0 true, .callNotify 1, .retNotify 1 false] := by decide
    replace h : lLostTr false = _ := h
    rw [h, List.filter_append, List.filter_cons] at h3
    have h4 : Event.callNotify o' ∈ pre.filter (fun e => match e with | .callNotify _ | .retNotify _ _ => true | _ => false) := by
      simp [ho]
    have h5 : ∀ b, Event.retNotify o' b ∈ pre.filter (fun e => match e with | .callNotify _ | .retNotify _ _ => true | _ => false) →
      Event.retNotify o' b ∈ pre := fun b h => by simpa using h
    generalize pre.filter (fun e => match e with | .callNotify _ | .retNotify _ _ => true | _ => false) = f at h3 h4 h5
    match f with
    | [] => cases h4
    | [x] => simp at h3
    | [x, y] =>
      simp at h3
      obtain ⟨rfl, rfl, _⟩ := h3
      simp at h4
      subst h4
      exact ⟨true, h5 true (by simp)⟩
    | [x, y, z] => simp at h3
    | x :: y :: z :: u :: v => simp at h3
  · intro n hn; simp [lLostTr] at hn
  · intro o hm; simp [lLostTr] at hm

/-- The same in a debug build: the assertion of the second `notify` fails although the first one has returned. -/
theorem C62_false_assertion_without_overlap : ∃ l tr1 tr2, LExec (demoC true) (tr1 ++ .callNotify 1 :: (tr2 ++ [.assertFailed (.op 1)])) l ∧
    .retNotify 0 true ∈ tr1 ∧ queueOf tr1 = [] ∧ (∀ n, .callDrop n ∉ tr1 ∧ .giveUp n ∉ tr1) ∧ tr2 = [] := by
  obtain ⟨l, hl, _⟩ := lFail_exec
  exact ⟨l, (lLostTr true).take 9, [], hl, by decide, by decide, by simp [lLostTr], rfl⟩

/-- The hypothesis of `C62_notify_alone` is met although another `notify` call took a node before. -/
example : ∃ l, LExec (demoC true) lDemoTr l ∧ ¬ Unordered l lDemoTr 1 ∧ Took lDemoTr (.op 0) := by
  obtain ⟨l, hl, hb⟩ := lDemo_exec
  exact ⟨l, hl, hl.not_unordered (lDemo_ordered hb) 1, ⟨by decide, 1, by decide⟩⟩

/-- **C62** (compare C26). A notification is stored only when nobody is waiting, and never in a closed queue. -/
theorem C62_store_if_none_waits (h : LExec c tr l) {pre post : Trace W} {o : Nat} (htr : tr = pre ++ .store o :: post) :
    queueOf pre = [] ∧ ∀ o', .closing o' ∉ pre :=
  C26_store_if_none_waits h.exec htr

/-- **C62** (compare C26). A stored notification is consumed at most once. -/
theorem C62_consumed_once (h : LExec c tr l) {pre post : Trace W} {n : Nat} (htr : tr = pre ++ .consume n :: post) :
    ∃ a o b, pre = a ++ .store o :: b ∧ ∀ m, .consume m ∉ b :=
  C26_consumed_once h.exec htr

/-- **C62** (compare C26). `start_wait` says "notified" exactly when it consumed the stored notification. -/
theorem C62_start_notified (h : LExec c tr l) {pre post : Trace W} {n : Nat} (htr : tr = pre ++ .retStart n .notified :: post) :
    ∃ p, pre = p ++ [.consume n] :=
  C26_start_notified h.exec htr

example : ∃ l pre post, LExec (demoC true) lDemoTr2 l ∧ lDemoTr2 = pre ++ .store 1 :: post ∧ Event.consume 1 ∈ pre ∧
    Event.consume 1 ∈ post ∧ Event.retStart 1 .notified ∈ post := by
  obtain ⟨l, hl, _⟩ := lDemo_exec2
  exact ⟨l, lDemoTr2.take 7, lDemoTr2.drop 8, hl, by decide, by decide, by decide, by decide⟩

/-- **C62** (compare C26). `continue_wait` says "notified" only if a `notify` took the node since it was enqueued. -/
theorem C62_cont_notified (h : LExec c tr l) {pre post : Trace W} {n : Nat} (htr : tr = pre ++ .retCont n .notified :: post) :
    ∃ a o b, pre = a ++ .deq o n :: b ∧ (∀ v, .enq n v ∉ b) ∧ .callNotify o ∈ pre :=
  C26_cont_notified h.exec htr

/-- **C62** (compare C26). Nobody starts to wait while there is a stored notification, unless the queue was closed, or, in a release build, a `notify`
was disturbed by a call that its thread does not know to have ended. -/
theorem C62_stored_not_lost (h : LExec c tr l) {pre a b post : Trace W} {n o : Nat} {v : W}
    (htr : tr = pre ++ .enq n v :: post) (hpre : pre = a ++ .store o :: b)
    (hcl : ∀ o', .closing o' ∉ pre) (hno : c.debug = true ∨ ∀ o', ¬ Unordered l tr o') :
    ∃ m, .consume m ∈ b := by
  rcases Classical.em (∃ m, Event.consume m ∈ b) with h1 | h1
  · exact h1
  · exfalso
    rcases h.nEvOk pre _ post htr ((stored_iff pre).2 ⟨a, o, b, hpre, fun m hm => h1 ⟨m, hm⟩⟩) with ⟨o', h2⟩ | ⟨h2, o', h3⟩
    · exact hcl o' h2
    · rcases hno with h4 | h4
      · rw [h2] at h4; cases h4
      · exact h4 o' (by rw [htr]; exact h3.append)

example : ∃ l pre a b post, LExec (demoC true) lDemoTr2 l ∧ lDemoTr2 = pre ++ .enq 1 12 :: post ∧
    pre = a ++ .store 1 :: b ∧ ∀ o, .closing o ∉ pre := by
  obtain ⟨l, hl, _⟩ := lDemo_exec2
  exact ⟨l, lDemoTr2.take 14, lDemoTr2.take 7, (lDemoTr2.drop 8).take 6, lDemoTr2.drop 15, hl, by decide, by decide,
    by simp [lDemoTr2]⟩

/-- **C62** (compare C26). A sender that is told to wait is in the list at that moment. -/
theorem C62_wait_is_queued (h : LExec c tr l) {pre post : Trace W} {n : Nat}
    (htr : tr = pre ++ .retStart n .wait :: post ∨ tr = pre ++ .retCont n .wait :: post) : n ∈ queueOf pre :=
  C26_wait_is_queued h.exec htr

/-! ## Closing -/

/-- **C62** (compare C27). When the receiver has been dropped, every sender that ever waited has been taken and woken since, or has removed its node
itself. -/
theorem C62_all_woken (h : LExec c tr l) {pre post : Trace W} {o : Nat} (htr : tr = pre ++ .retClose o :: post) {a b : Trace W}
    {n : Nat} {v : W} (hpre : pre = a ++ .enq n v :: b) :
    .rem n ∈ b ∨ ∃ o' b1 b2 w, b = b1 ++ .deq o' n :: b2 ∧ .wake o' n w ∈ b2 :=
  C27_all_woken h.exec htr hpre

/-- **C62** (compare C27). After the receiver has been dropped nobody starts to wait, and no call says `Wait`. -/
theorem C62_no_wait_after (h : LExec c tr l) {pre post : Trace W} {o : Nat} (htr : tr = pre ++ .retClose o :: post) (n : Nat) :
    (∀ v, .enq n v ∉ post) ∧ .retStart n .wait ∉ post ∧ .retCont n .wait ∉ post :=
  C27_no_wait_after h.exec htr n

/-- **C62** (compare C27). A `start_wait` called after the receiver's drop closed the queue returns `Closed`. -/
theorem C62_start_closed (h : LExec c tr l) {p1 p2 p3 p4 : Trace W} {o n : Nat} {v : W} {r : Res3}
    (htr : tr = p1 ++ .closing o :: (p2 ++ .callStart n v :: (p3 ++ .retStart n r :: p4))) : r = .closed :=
  C27_start_closed h.exec htr

/-- **C62** (compare C27). A sender that was waiting when the receiver's drop closed the queue is not told that it was notified; once the drop has
finished, it is told `Closed`. -/
theorem C62_cont_closed (h : LExec c tr l) {p1 p2 p3 : Trace W} {o n : Nat} {r : Res3}
    (htr : tr = p1 ++ .closing o :: (p2 ++ .retCont n r :: p3)) (hn : n ∈ queueOf p1) :
    r ≠ .notified ∧ (.retClose o ∈ p2 → r = .closed) :=
  C27_cont_closed h.exec htr hn

/-- **C62** (compare C33). `Closed` is only said after the receiver's drop closed the queue, and to a sender that waited only if that drop took its
node. -/
theorem C62_closed_truthful (h : LExec c tr l) {pre post : Trace W} {n : Nat} :
    (tr = pre ++ .retStart n .closed :: post → ∃ o, .closing o ∈ pre) ∧
    (tr = pre ++ .retCont n .closed :: post → ∃ o a b, pre = a ++ .deq o n :: b ∧
      (∀ v, .enq n v ∉ b) ∧ .callClose o ∈ pre) :=
  C33_closed_truthful h.exec

example : ∃ l pre p2 p3 p4 a b, LExec (demoC true) lDemoTr l ∧
    lDemoTr = pre ++ .retClose 9 :: (p2 ++ .retCont 3 .closed :: (p3 ++ .callStart 4 40 :: (p4 ++ [.retStart 4 .closed]))) ∧
    pre = a ++ .enq 3 30 :: b ∧ Event.closing 9 ∈ b := by
  obtain ⟨l, hl, _⟩ := lDemo_exec
  exact ⟨l, lDemoTr.take 32, [.callCont 3 32], [], [], lDemoTr.take 22, (lDemoTr.drop 23).take 9, hl, by decide, by decide, by decide⟩

/-! ## Which waker is woken -/

/-- **C62** (compare C47). The waiter that is woken is the one recorded for the node when it was taken. -/
theorem C62_woken_is_recorded (h : LExec c tr l) {pre post : Trace W} {o n : Nat} {v : W} (htr : tr = pre ++ .wake o n v :: post) :
    ∃ p1 p2, pre = p1 ++ .deq o n :: p2 ∧ given p1 n = some v :=
  C47_woken_is_recorded h.exec htr

/-- **C62** (compare C47). What is recorded when a sender starts to wait is the waiter it passed in. -/
theorem C62_start_records (h : LExec c tr l) {pre post : Trace W} {n : Nat} {v : W} (htr : tr = pre ++ .enq n v :: post) :
    ∃ a b, pre = a ++ .callStart n v :: b ∧ (∀ u, .callStart n u ∉ b) ∧ ∀ r, .retStart n r ∉ b :=
  C47_start_records h.exec htr

/-- **C62** (compare C47). A sender that polls again and is told to wait has recorded the waiter it passed in, or one that wakes the same task. -/
theorem C62_cont_records (h : LExec c tr l) (hrefl : ∀ v, c.same v v = true) {pre post : Trace W} {n : Nat}
    (htr : tr = pre ++ .retCont n .wait :: post) :
    ∃ a v b w, pre = a ++ .callCont n v :: b ∧ (∀ u, .callCont n u ∉ b) ∧
      (∀ r, .retCont n r ∉ b) ∧ given pre n = some w ∧ c.same w v = true :=
  C47_cont_records h.exec hrefl htr

example : ∃ l pre post, LExec (demoC true) lDemoTr l ∧ lDemoTr = pre ++ .retCont 3 .wait :: post ∧
    given pre 3 = some 31 ∧ Event.wake 9 3 31 ∈ post ∧ ∀ v, (demoC true).same v v = true := by
  obtain ⟨l, hl, _⟩ := lDemo_exec
  exact ⟨l, lDemoTr.take 26, lDemoTr.drop 27, hl, by decide, by decide, by decide, by simp [demoC]⟩

/-! ## No deadlock -/

/-- A load may yield the newest value, so that the steps that sequential consistency allows can be taken here. -/
theorem LExec.follow (h : LExec c tr l) {t : Tid} {s' : State W} {evs : Trace W} (hs : Queue.step c l.q t.act = some (s', evs)) :
    ∃ i l', lstep c l (.act t.act i) = some (l', evs) ∧ l'.q = s' := by
  obtain ⟨hx, hl⟩ := h.sim
  have hact : ∀ i, lstep c l (.act t.act i) = (match (l.q.pc (Tid.act (W := W) t).tid).plain (Tid.act (W := W) t).tid with
      | some x =>
        if l.view (Tid.act (W := W) t).tid x ≤ i ∧ i ≤ (l.word x).top then
          (Queue.step c (l.q.see ((l.word x).msg i) x) t.act).map fun r => (l.loaded (Tid.act (W := W) t).tid x i r.1, r.2)
        else none
      | none => (Queue.step c l.q t.act).map fun r => (l.synced (Tid.act (W := W) t).tid r.1, r.2)) := by
    intro i; cases t <;> rfl
  cases hp : (l.q.pc (Tid.act (W := W) t).tid).plain (Tid.act (W := W) t).tid with
  | none => exact ⟨0, l.synced (Tid.act (W := W) t).tid s', by rw [hact, hp]; simp only [hs, Option.map_some], rfl⟩
  | some x =>
    have hsee : l.q.see ((l.word x).msg (l.word x).top) x = l.q := by rw [hl.cur]; exact State.see_self _ _
    refine ⟨(l.word x).top, l.loaded (Tid.act (W := W) t).tid x (l.word x).top s', ?_, ?_⟩
    · rw [hact, hp]
      simp only
      rw [if_pos ⟨hl.vTop _ _, Nat.le_refl _⟩, hsee, hs]
      rfl
    · show ({ s' with st := l.q.st, list := l.q.list } : State W) = s'
      obtain ⟨p, st, lk, li, b, rx, rfl, ht⟩ := step_tr' hs
      have : st = l.q.st ∧ li = l.q.list := by
        generalize (Tid.act (W := W) t).tid = u at *
        cases ht <;> (try exact ⟨rfl, rfl⟩) <;> simp_all [PC.plain]
      simp [State.after, this.1, this.2]

/-- **C62** (compare C50). At every moment, every call in progress can be brought to its end by steps of only one other call in progress, the one
that holds the lock, followed by steps of its own. -/
theorem C62_no_deadlock (h : LExec c tr l) {t : Tid} (ht : inCall tr t = true) :
    ∃ u m n is l' evs, inCall tr u = true ∧ m + n ≤ 4 * (queueOf tr).length + 20 ∧ is.length = m + n ∧
      lrun c l (List.zipWith LAct.act (List.replicate m u.act ++ List.replicate n t.act) is) = some (l', evs) ∧
      inCall (tr ++ evs) t = false := by
  obtain ⟨u, m, n, s', evs, h1, h2, h3, h4⟩ := C50_no_deadlock h.exec ht
  have key : ∀ (us : List Tid) {tr : Trace W} {l : LState W} {s' : State W} {evs : Trace W}, LExec c tr l →
      runActs c l.q (us.map Tid.act) = some (s', evs) →
      ∃ is l', is.length = us.length ∧ lrun c l (List.zipWith LAct.act (us.map Tid.act) is) = some (l', evs) := by
    intro us
    induction us with
    | nil =>
      intro tr l s' evs h hr
      simp only [List.map_nil, runActs, Option.some.injEq, Prod.mk.injEq] at hr
      exact ⟨[], l, rfl, by simp [lrun, hr.2]⟩
    | cons v us ih =>
      intro tr l s' evs h hr
      simp only [List.map_cons, runActs, Option.bind_eq_bind, Option.bind_eq_some_iff, Option.pure_def,
        Option.some.injEq, Prod.exists, Prod.mk.injEq] at hr
      obtain ⟨s1, e1, h1, s2, e2, h2, rfl, rfl⟩ := hr
      obtain ⟨i, l1, h3, rfl⟩ := h.follow h1
      obtain ⟨is, l2, h4, h5⟩ := ih (h.step h3) h2
      exact ⟨i :: is, l2, by simp [h4], by simp [lrun, h3, h5]⟩
  obtain ⟨is, l', h5, h6⟩ := key (List.replicate m u ++ List.replicate n t) h (by simpa using h3)
  exact ⟨u, m, n, is, l', evs, h1, h2, by simpa using h5, by simpa using h6, h4⟩

example : ∃ l, LExec (demoC true) (lDemoTr.take 10) l ∧ inCall (lDemoTr.take 10) (.node 1) = true := by
  obtain ⟨l, hl, _⟩ := LExec.of_trace (c := demoC true) (acts := lDemoActs.take 17) (k := 0) (tr := lDemoTr.take 10) (bs := [])
    (by decide +kernel)
  exact ⟨l, hl, by decide⟩

end Thingbuf.Queue
