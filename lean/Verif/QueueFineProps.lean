import Verif.QueueFineRun
import Verif.QueueSoloProps

/-!
# Properties of the wait queue with the two-step dequeue (C24 - C30, C47)

`FExec c tr f`: as `Exec` of `QueueProps`, but `List::dequeue` first publishes the new state of
the node and only then reads and unhooks it, as in the code, and the other threads can run in
between.

What the calls return, whom they wake and in which order is the same as with the one-step
dequeue: `fine_refines`. What changes is which memory is accessed when: the claim that nothing
accesses the node of a send that has ended (C28) is false.

Memory of freed nodes keeps its contents in the model. After an access to a freed node the
real program may do anything; the theorems speak of what it does if that memory has not been
reused.
-/

namespace Thingbuf.Queue

variable {W : Type} {c : Config W} {tr : Trace W} {f : FState W}

/-- An execution from its trace. -/
theorem FExec.of_trace {acts : List (Act W)} {tr : Trace W}
    (h : (frunActs c FState.init acts).map Prod.snd = some tr) : ∃ f, FExec c tr f := by
  simp only [Option.map_eq_some_iff, Prod.exists] at h
  obtain ⟨s, tr', h1, rfl⟩ := h
  exact ⟨s, by simpa using FExec.init.of_frunActs h1⟩

/-! ## Concrete executions -/

/-- The actions of `demoActs`, with twice as many steps of `notify` and `close`. -/
def fdemoActs : List (Act Nat) :=
  aStart 1 10 6 ++ aStart 2 20 6 ++ aStart 3 30 6 ++ aNotify 0 8 ++ aCont 1 10 1 ++ aCont 2 21 4
    ++ aStart 4 40 6 ++ aDrop 3 5 ++ aClose 9 9 ++ aCont 2 22 1 ++ aStart 5 50 1

def fdemoTr : Trace Nat :=
  [.callStart 1 10, .touch (.node 1) 1, .enq 1 10, .retStart 1 .wait, .callStart 2 20,
   .touch (.node 2) 2, .touch (.node 2) 1, .enq 2 20, .retStart 2 .wait, .callStart 3 30,
   .touch (.node 3) 3, .touch (.node 3) 2, .enq 3 30, .retStart 3 .wait, .callNotify 0,
   .touch (.op 0) 1, .deq 0 1, .touch (.op 0) 1, .touch (.op 0) 2, .wake 0 1 10, .retNotify 0 true,
   .callCont 1 10, .retCont 1 .notified, .callCont 2 21, .upd 2 21, .retCont 2 .wait,
   .callStart 4 40, .touch (.node 4) 4, .touch (.node 4) 3, .enq 4 40, .retStart 4 .wait,
   .callDrop 3, .touch (.node 3) 3, .touch (.node 3) 4, .touch (.node 3) 2, .rem 3, .free 3,
   .callClose 9, .closing 9, .touch (.op 9) 2, .deq 9 2, .touch (.op 9) 2, .touch (.op 9) 4,
   .wake 9 2 21, .touch (.op 9) 4, .deq 9 4, .touch (.op 9) 4, .wake 9 4 40, .retClose 9,
   .callCont 2 22, .retCont 2 .closed, .callStart 5 50, .retStart 5 .closed]

/-- Two notifications are sent while nobody waits; a sender finds one, and then waits. -/
def fdemoTr2 : Trace Nat := demoTr2

theorem fdemo_exec2 : ∃ f, FExec (demoC true) fdemoTr2 f :=
  FExec.of_trace (acts := aNotify 0 2 ++ aNotify 1 2 ++ aStart 1 10 1 ++ aStart 1 11 6)
    (by decide +kernel)

theorem fdemo_exec : ∃ f, FExec (demoC true) fdemoTr f :=
  FExec.of_trace (acts := fdemoActs) (by decide +kernel)

/-- A waiting send is cancelled while a `notify` is in the middle of dequeuing its node. -/
def cancelGapTr : Trace Nat :=
  [.callStart 1 10, .touch (.node 1) 1, .enq 1 10, .retStart 1 .wait, .callNotify 0,
   .touch (.op 0) 1, .deq 0 1, .callDrop 1, .free 1, .touch (.op 0) 1, .wake 0 1 10,
   .retNotify 0 true]

theorem cancelGap_exec : ∃ f, FExec (demoC true) cancelGapTr f :=
  FExec.of_trace (acts := aStart 1 10 6 ++ aNotify 0 4 ++ aDrop 1 1 ++ aOp 0 4) (by decide +kernel)

/-- A waiting send polls again while a `notify` is in the middle of dequeuing its node, is told
that it was notified, and ends. -/
def pollGapTr : Trace Nat :=
  [.callStart 1 10, .touch (.node 1) 1, .enq 1 10, .retStart 1 .wait, .callNotify 0,
   .touch (.op 0) 1, .deq 0 1, .callCont 1 10, .retCont 1 .notified, .callDrop 1, .free 1,
   .touch (.op 0) 1, .wake 0 1 10, .retNotify 0 true]

theorem pollGap_exec : ∃ f, FExec (demoC true) pollGapTr f :=
  FExec.of_trace (acts := aStart 1 10 6 ++ aNotify 0 4 ++ aCont 1 10 1 ++ aDrop 1 0 ++ aOp 0 4)
    (by decide +kernel)

/-- A waiting send polls again while the drop of the receiver is in the middle of dequeuing its
node, is told that the channel is closed, and ends. -/
def closeGapTr : Trace Nat :=
  [.callStart 1 10, .touch (.node 1) 1, .enq 1 10, .retStart 1 .wait, .callClose 0, .closing 0,
   .touch (.op 0) 1, .deq 0 1, .callCont 1 10, .retCont 1 .closed, .callDrop 1, .free 1,
   .touch (.op 0) 1, .wake 0 1 10, .retClose 0]

theorem closeGap_exec : ∃ f, FExec (demoC true) closeGapTr f :=
  FExec.of_trace (acts := aStart 1 10 6 ++ aClose 0 3 ++ aCont 1 10 1 ++ aDrop 1 0 ++ aOp 0 3)
    (by decide +kernel)

/-! ## Refinement -/

/-- Every execution with the two-step dequeue does, apart from accesses to memory, exactly what
some execution with the one-step dequeue does. -/
theorem fine_refines (h : FExec c tr f) : ∃ tr' s', Exec c tr' s' ∧ quiet tr' = quiet tr := by
  obtain ⟨tr', h1⟩ := h.sim
  exact ⟨tr', _, h1.exec, h1.eq⟩

/-- And the other way round: whatever happens with the one-step dequeue happens, up to accesses to
memory, with the two-step dequeue. So the counterexamples of `QueueProps` (`C24_wakes_swapped`,
`C26_notification_lost`, `C26_notification_lost_by_cancel`, `C26_stored_overwritten`,
`C30_two_notifies`, `C30_cancel`) are behaviours of this model too. -/
theorem fine_complete {tr : Trace W} {s : State W} (h : Exec c tr s) :
    ∃ tr', FExec c tr' ⟨s, none⟩ ∧ quiet tr' = quiet tr := by
  induction h with
  | init => exact ⟨[], .init, rfl⟩
  | @step tr s s' act evs h hs ih =>
    obtain ⟨tr', hf, hq⟩ := ih
    obtain ⟨k, evs', _, h1, h2⟩ := hf.expand hs
    exact ⟨_, hf.of_frunActs h1, by rw [quiet_append, quiet_append, hq, h2]⟩
  | stale hb => cases hb

/-! ## Memory -/

/-- **C25.** In every reachable state the pointers of the list spell out, in both directions and
without duplicates, the waiting nodes, followed by the node that some call is in the middle of
dequeuing, if any. In that case the call holds the lock. -/
theorem C25_list_is_queue_fine (h : FExec c tr f) (k : Nat) (hk : (queueOf tr).length < k) :
    walkNext f.q.list.node k f.q.list.head = queueOf tr ++ (f.half.map Prod.snd).toList ∧
      walkPrev f.q.list.node k f.q.list.tail =
        (queueOf tr ++ (f.half.map Prod.snd).toList).reverse ∧
      (queueOf tr ++ (f.half.map Prod.snd).toList).Nodup ∧
      ∀ o t, f.half = some (o, t) → f.q.lock = some (.op o) := by
  obtain ⟨tr', hs⟩ := h.sim
  have hrep : Rep f.q.list (queueOf tr ++ (f.half.map Prod.snd).toList) := by
    cases hh : f.half with
    | none =>
      have he : f.abs = f.q := by unfold FState.abs; rw [hh]
      have := hs.exec.inv.rep
      rw [he, queueOf_congr hs.eq] at this
      simpa using this
    | some p =>
      obtain ⟨o, t⟩ := p
      have := hs.rep o t hh
      rw [queueOf_congr hs.eq] at this
      simpa using this
  have hlen : (queueOf tr ++ (f.half.map Prod.snd).toList).length ≤ k := by
    cases f.half <;> simp <;> omega
  exact ⟨(C25_traversal hrep k hlen).1, (C25_traversal hrep k hlen).2, hrep.nodup,
    fun o t hh => (hs.gap o t hh).lock⟩

/-- **C25**, the claim that the nodes are live, as far as it is true: all waiting nodes are live,
unless their owner was a blocking send that timed out. (Missing: timed-out sends, and the node
that some call is in the middle of dequeuing. For those it is false: `C29_dangling` and the
example below.) -/
theorem C25_live_partial (h : FExec c tr f) {n : Nat} (hn : n ∈ queueOf tr) (hg : .giveUp n ∉ tr) :
    .free n ∉ tr := by
  intro hf
  obtain ⟨tr', hs⟩ := h.sim
  refine hg ((mem_of_quiet hs.eq rfl).1 (hs.exec.freed_waiting ?_ ((mem_of_quiet hs.eq rfl).2 hf)))
  rw [queueOf_congr hs.eq]
  exact hn

example : ∃ f, FExec (demoC true) (cancelGapTr.take 9) f ∧ f.half = some (0, 1) ∧
    .free 1 ∈ cancelGapTr.take 9 := by
  have h : ((frunActs (demoC true) FState.init (aStart 1 10 6 ++ aNotify 0 4 ++ aDrop 1 1)).map
      fun r => (r.1.half, r.2)) = some (some (0, 1), cancelGapTr.take 9) := by decide +kernel
  simp only [Option.map_eq_some_iff, Prod.exists, Prod.mk.injEq] at h
  obtain ⟨f, tr, h1, h2, h3⟩ := h
  exact ⟨f, h3 ▸ by simpa using FExec.init.of_frunActs h1, h2, by decide⟩

/-- **C28**, as far as it is true. If memory of a send that has ended is accessed through the list
(and the send did not time out), then by a call that took the node out of the list before the
send ended, and that has not yet woken the sender or done anything else since. So a send that
ends only after the call that took its node has woken it is never accessed afterwards.
(Missing: sends that end between the moment the call marks the node and the moment it has
finished with it. For those the claim is false: `C28_false_cancel`, `C28_false_poll`,
`C28_false_close`.) -/
theorem C28_no_access_after_free_partial (h : FExec c tr f) {pre post : Trace W} {t : Tid} {n : Nat}
    (htr : tr = pre ++ .touch t n :: post) (hg : .giveUp n ∉ pre) (hf : .free n ∈ pre) :
    ∃ o a b, t = .op o ∧ pre = a ++ .deq o n :: b ∧ .free n ∈ b ∧ opEvs b o = [] := by
  rcases h.touchOk htr with ⟨_, h1⟩ | ⟨_, h1⟩ | ⟨o, h1, a, b, h2, h3, h4⟩
  · exact absurd (h1 hf) hg
  · exact absurd hf h1
  · refine ⟨o, a, b, h1, h2, ?_, h4⟩
    rw [h2] at hf hg
    simp only [List.mem_append, List.mem_cons, reduceCtorEq, false_or] at hf
    rcases hf with hf | hf
    · exact absurd (by simp [h3 hf]) hg
    · exact hf

example : ∃ f pre post, FExec (demoC true) cancelGapTr f ∧
    cancelGapTr = pre ++ .touch (.op 0) 1 :: post ∧ Event.giveUp 1 ∉ pre ∧ Event.free 1 ∈ pre := by
  obtain ⟨f, hf⟩ := cancelGap_exec
  exact ⟨f, cancelGapTr.take 9, cancelGapTr.drop 10, hf, by decide, by decide, by decide⟩

/-- **C28**, what the caller can do: if every call that took the node of the send had woken the
sender before the send ended, then its memory is not accessed afterwards. In particular a
future that is polled only when it was woken, and dropped only when it has completed or has
not been notified, is safe. -/
theorem C28_safe_if_woken_first_partial (h : FExec c tr f) {p1 p2 : Trace W} {n : Nat}
    (htr : tr = p1 ++ .free n :: p2) (hg : .giveUp n ∉ tr)
    (hw : ∀ a o b, p1 = a ++ .deq o n :: b → ∃ v, .wake o n v ∈ b) (t : Tid) : .touch t n ∉ p2 := by
  intro ht
  obtain ⟨x, y, rfl⟩ := List.append_of_mem ht
  obtain ⟨o, a, b, h1, h2, h3, h4⟩ := C28_no_access_after_free_partial h
    (pre := p1 ++ .free n :: x) (post := y) (t := t) (n := n) (by rw [htr]; simp)
    (fun hc => hg (by
      rw [htr]
      simp only [List.mem_append, List.mem_cons] at hc ⊢
      rcases hc with hc | hc | hc <;> simp [hc])) (by simp)
  -- the node is freed once
  obtain ⟨tr', s', hx, hq⟩ := fine_refines h
  rw [htr] at hq
  obtain ⟨p1', p2', h5, h6, h7⟩ := quiet_split (e := .free n) rfl hq
  have h8 : Event.free n ∉ p1 := fun hc =>
    hx.evOk p1' _ p2' h5 ((mem_of_quiet h6 rfl).2 hc)
  have h9 : Event.free n ∉ x := by
    intro hc
    have : Event.free n ∈ p2' := (mem_of_quiet h7 rfl).2 (by simp [hc])
    obtain ⟨y1, y2, rfl⟩ := List.append_of_mem this
    exact hx.evOk (p1' ++ .free n :: y1) (.free n) y2 (by rw [h5]; simp) (by simp)
  rcases append_split h2 with ⟨post', h10, h11⟩ | ⟨e1, h10, h11⟩
  · obtain ⟨v, hv⟩ := hw a o post' h11
    have : Event.wake o n v ∈ opEvs b o := by
      rw [mem_opEvs rfl, h10]; simp [hv]
    rw [h4] at this
    cases this
  · cases e1 with
    | nil => simp at h10
    | cons z e1 =>
      simp only [List.cons_append, List.cons.injEq] at h10
      exact h9 (by rw [h10.2]; simp [h3])

example : ∃ f p1 p2, FExec (demoC true) (fdemoTr.take 23 ++ [.callDrop 1, .free 1]) f ∧
    fdemoTr.take 23 ++ [.callDrop 1, .free 1] = p1 ++ .free 1 :: p2 ∧
    ∃ a b, p1 = a ++ .deq 0 1 :: b ∧ .wake 0 1 10 ∈ b := by
  obtain ⟨f, hf⟩ := FExec.of_trace (c := demoC true) (acts := aStart 1 10 6 ++ aStart 2 20 6 ++
    aStart 3 30 6 ++ aNotify 0 8 ++ aCont 1 10 1 ++ aDrop 1 0)
    (tr := fdemoTr.take 23 ++ [.callDrop 1, .free 1]) (by decide +kernel)
  exact ⟨f, fdemoTr.take 23 ++ [.callDrop 1], [], hf, by decide, fdemoTr.take 16,
    (fdemoTr.drop 17).take 6 ++ [.callDrop 1], by decide, by decide⟩

/-- **C28 is false.** A future that waits to send is dropped while a `RecvRef` is being dropped
in another thread: the `notify` accesses the node of the future after the future is gone. -/
theorem C28_false_cancel : ∃ f p1 p2 p3, FExec (demoC true) (p1 ++ .callDrop 1 :: .free 1 ::
    (p2 ++ .touch (.op 0) 1 :: p3)) f ∧ ∀ n, .giveUp n ∉ p1 ++ p2 ++ p3 := by
  obtain ⟨f, hf⟩ := cancelGap_exec
  exact ⟨f, cancelGapTr.take 7, [], cancelGapTr.drop 10, hf, by simp [cancelGapTr]⟩

/-- **C28 is false.** A future that waits to send is polled for another reason than its waker (or
a blocking send wakes up spuriously) while a `RecvRef` is being dropped in another thread: it is
told that it was notified, ends, and then the `notify` accesses its node. -/
theorem C28_false_poll : ∃ f p1 p2 p3, FExec (demoC true) (p1 ++ .retCont 1 .notified ::
    .callDrop 1 :: .free 1 :: (p2 ++ .touch (.op 0) 1 :: p3)) f ∧
    ∀ n, .giveUp n ∉ p1 ++ p2 ++ p3 := by
  obtain ⟨f, hf⟩ := pollGap_exec
  exact ⟨f, pollGapTr.take 8, [], pollGapTr.drop 12, hf, by simp [pollGapTr]⟩

/-- **C28 is false**, also when the receiver is dropped. -/
theorem C28_false_close : ∃ f p1 p2 p3, FExec (demoC true) (p1 ++ .retCont 1 .closed ::
    .callDrop 1 :: .free 1 :: (p2 ++ .touch (.op 0) 1 :: p3)) f ∧
    ∀ n, .giveUp n ∉ p1 ++ p2 ++ p3 := by
  obtain ⟨f, hf⟩ := closeGap_exec
  exact ⟨f, closeGapTr.take 9, [], closeGapTr.drop 13, hf, by simp [closeGapTr]⟩

/-- **C28.** Once a send has ended, no pointer of the list, neither its ends nor a link of any
node, points to its node, unless some call is in the middle of dequeuing that node (or the send
timed out). -/
theorem C28_no_pointer_partial (h : FExec c tr f) {n : Nat} (hf : .free n ∈ tr)
    (hg : .giveUp n ∉ tr) (hd : ∀ o, f.half ≠ some (o, n)) :
    n ∉ queueOf tr ∧ f.q.list.head ≠ some n ∧ f.q.list.tail ≠ some n ∧
      ∀ m, (f.q.list.node m).next ≠ some n ∧ (f.q.list.node m).prev ≠ some n := by
  obtain ⟨tr', hs⟩ := h.sim
  have hn : n ∉ queueOf tr := by
    rw [← queueOf_congr hs.eq]
    intro hn
    exact hg ((mem_of_quiet hs.eq rfl).1 (hs.exec.freed_waiting hn ((mem_of_quiet hs.eq rfl).2 hf)))
  obtain ⟨q, hr, hnq⟩ : ∃ q, Rep f.q.list q ∧ n ∉ q := by
    cases hh : f.half with
    | none =>
      have he : f.abs = f.q := by unfold FState.abs; rw [hh]
      have := hs.exec.inv.rep
      rw [he, queueOf_congr hs.eq] at this
      exact ⟨_, this, hn⟩
    | some p =>
      obtain ⟨o, t⟩ := p
      have := hs.rep o t hh
      rw [queueOf_congr hs.eq] at this
      refine ⟨_, this, ?_⟩
      simp only [List.mem_append, List.mem_singleton, not_or]
      exact ⟨hn, fun he => hd o (by rw [hh, he])⟩
  refine ⟨hn, ?_, ?_, ?_⟩
  · rw [hr.head]
    intro he
    exact hnq (List.mem_of_head? he)
  · rw [hr.tail]
    intro he
    exact hnq (List.mem_of_getLast? he)
  · intro m
    by_cases hm : m ∈ q
    · obtain ⟨l1, l2, h1⟩ := List.append_of_mem hm
      obtain ⟨h2, h3⟩ := hr.links l1 m l2 h1
      rw [h2, h3]
      constructor
      · intro he
        exact hnq (by rw [h1]; simp [List.mem_of_head? he])
      · intro he
        exact hnq (by rw [h1]; simp [List.mem_of_getLast? he])
    · obtain ⟨h2, h3⟩ := hr.off m hm
      rw [h2, h3]
      simp

example : ∃ f, FExec (demoC true) cancelGapTr f ∧ .free 1 ∈ cancelGapTr ∧
    Event.giveUp 1 ∉ cancelGapTr ∧ f.half = none := by
  have h : ((frunActs (demoC true) FState.init (aStart 1 10 6 ++ aNotify 0 4 ++ aDrop 1 1 ++
      aOp 0 4)).map fun r => (r.1.half, r.2)) = some (none, cancelGapTr) := by decide +kernel
  simp only [Option.map_eq_some_iff, Prod.exists, Prod.mk.injEq] at h
  obtain ⟨f, tr, h1, h2, h3⟩ := h
  exact ⟨f, h3 ▸ by simpa using FExec.init.of_frunActs h1, by decide, by decide, h2⟩

/-- **C29**, as far as it is true: the frame of a blocking send that timed out is accessed
afterwards only if its node was still in the list when it gave up, or some call was in the
middle of dequeuing it. (Missing: those two cases, in which the claim is false: `C29_dangling`,
`C29_use_after_free`, `C29_false_gap`.) -/
theorem C29_timeout_fine_partial (h : FExec c tr f) {p1 p2 p3 : Trace W} {t : Tid} {n : Nat}
    (htr : tr = p1 ++ .giveUp n :: (p2 ++ .touch t n :: p3)) :
    n ∈ queueOf p1 ∨ ∃ o a b, t = .op o ∧ p1 = a ++ .deq o n :: b ∧ opEvs b o = [] := by
  rcases h.touchOk (pre := p1 ++ .giveUp n :: p2) (t := t) (n := n) (post := p3)
    (by rw [htr]; simp) with ⟨h1, _⟩ | ⟨_, h1⟩ | ⟨o, h1, a, b, h2, _, h4⟩
  · exact .inl (h.giveUp_queue htr h1)
  · exfalso
    obtain ⟨p, hp⟩ := h.giveUp_free htr
    cases p2 with
    | nil => simp at hp
    | cons x p2 =>
      simp only [List.cons_append, List.cons.injEq] at hp
      exact h1 (by rw [hp.1]; simp)
  · rcases append_split h2 with ⟨post', h10, h11⟩ | ⟨e1, h10, h11⟩
    · refine .inr ⟨o, a, post', h1, h11, ?_⟩
      rw [h10] at h4
      unfold opEvs at h4 ⊢
      rw [List.filter_append] at h4
      exact (List.append_eq_nil_iff.1 h4).1
    · cases e1 with
      | nil => simp at h10
      | cons z e1 =>
        simp only [List.cons_append, List.cons.injEq] at h10
        obtain ⟨rfl, rfl⟩ := h10
        refine .inl (h.giveUp_queue (p2 := e1) (p3 := .deq o n :: (b ++ .touch t n :: p3))
          (by rw [htr]; simp) ?_)
        obtain ⟨tr', s', hx, hq⟩ := fine_refines h
        have e2 : tr = (p1 ++ .giveUp n :: e1) ++ .deq o n :: (b ++ .touch t n :: p3) := by
          rw [htr]; simp
        rw [e2] at hq
        obtain ⟨a', b', h5, h6, _⟩ := quiet_split (e := .deq o n) rfl hq
        obtain ⟨⟨q', h7⟩, _⟩ := hx.evOk a' _ b' h5
        rw [← queueOf_congr h6, h7]
        simp

/-- A blocking send times out while a `notify` is in the middle of dequeuing its node. -/
def timeoutGapTr : Trace Nat :=
  [.callStart 1 10, .touch (.node 1) 1, .enq 1 10, .retStart 1 .wait, .callNotify 0,
   .touch (.op 0) 1, .deq 0 1, .giveUp 1, .free 1, .touch (.op 0) 1, .wake 0 1 10,
   .retNotify 0 true]

/-- **C29 is false** even if the node is not in the list any more when the send gives up. -/
theorem C29_false_gap : ∃ f p1 p2 p3, FExec (demoC true) (p1 ++ .giveUp 1 :: (p2 ++
    .touch (.op 0) 1 :: p3)) f ∧ 1 ∉ queueOf p1 := by
  obtain ⟨f, hf⟩ := FExec.of_trace (c := demoC true) (tr := timeoutGapTr)
    (acts := aStart 1 10 6 ++ aNotify 0 4 ++ [.giveUp 1] ++ aOp 0 4) (by decide +kernel)
  exact ⟨f, timeoutGapTr.take 7, [.free 1], timeoutGapTr.drop 10, hf, by decide⟩

/-! ## Order -/

/-- **C24**, as `C24_fifo`. -/
theorem C24_fifo_fine (h : FExec c tr f) {pre post : Trace W} {o n : Nat}
    (htr : tr = pre ++ .deq o n :: post) :
    n ∈ queueOf pre ∧ ∀ m ∈ queueOf pre, m ≠ n →
      ∃ a u b v d, pre = a ++ .enq n u :: (b ++ .enq m v :: d) ∧
        (∀ o', .deq o' n ∉ b ++ .enq m v :: d) ∧ .rem n ∉ b ++ .enq m v :: d ∧
        (∀ o', .deq o' m ∉ d) ∧ .rem m ∉ d := by
  obtain ⟨tr', s', hx, hq⟩ := fine_refines h
  rw [htr] at hq
  obtain ⟨p', q', h1, h2, _⟩ := quiet_split (e := .deq o n) rfl hq
  obtain ⟨h3, h4⟩ := C24_fifo hx h1
  rw [queueOf_congr h2] at h3 h4
  refine ⟨h3, fun m hm hmn => ?_⟩
  obtain ⟨a, u, b, v, d, h5, h6, h7, h8, h9⟩ := h4 m hm hmn
  rw [h5] at h2
  obtain ⟨a', x', rfl, _, h10⟩ := quiet_split (e := .enq n u) rfl h2.symm
  obtain ⟨b', d', rfl, h11, h12⟩ := quiet_split (e := .enq m v) rfl h10
  refine ⟨a', u, b', v, d', rfl, fun o' hc => h6 o' ((mem_of_quiet h10 rfl).1 hc),
    fun hc => h7 ((mem_of_quiet h10 rfl).1 hc), fun o' hc => h8 o' ((mem_of_quiet h12 rfl).1 hc),
    fun hc => h9 ((mem_of_quiet h12 rfl).1 hc)⟩

example : ∃ f pre post, FExec (demoC true) fdemoTr f ∧ fdemoTr = pre ++ .deq 0 1 :: post ∧
    queueOf pre = [3, 2, 1] := by
  obtain ⟨f, hf⟩ := fdemo_exec
  exact ⟨f, fdemoTr.take 16, fdemoTr.drop 17, hf, by decide, by decide⟩

/-- **C24**, as `C24_no_overtaking`. -/
theorem C24_no_overtaking_fine (h : FExec c tr f) {p1 p2 p3 p4 : Trace W} {o m n : Nat} {v : W}
    (hmn : m ≠ n)
    (htr : tr = p1 ++ .retStart m .wait :: (p2 ++ .callStart n v :: (p3 ++ .deq o n :: p4))) :
    (∃ o', .deq o' m ∈ p2 ++ p3) ∨ .rem m ∈ p2 ++ p3 := by
  obtain ⟨tr', s', hx, hq⟩ := fine_refines h
  rw [htr] at hq
  obtain ⟨p1', x', h1, _, h3⟩ := quiet_split (e := .retStart m .wait) rfl hq
  obtain ⟨p2', y', rfl, h4, h5⟩ := quiet_split (e := .callStart n v) rfl h3
  obtain ⟨p3', p4', rfl, h6, _⟩ := quiet_split (e := .deq o n) rfl h5
  have h7 : quiet (p2' ++ p3') = quiet (p2 ++ p3) := by rw [quiet_append, quiet_append, h4, h6]
  rcases C24_no_overtaking hx hmn h1 with ⟨o', h8⟩ | h8
  · exact .inl ⟨o', (mem_of_quiet h7 rfl).1 h8⟩
  · exact .inr ((mem_of_quiet h7 rfl).1 h8)

example : ∃ f p1 p2 p3 p4, FExec (demoC true) fdemoTr f ∧
    fdemoTr = p1 ++ .retStart 1 .wait :: (p2 ++ .callStart 2 20 :: (p3 ++ .deq 9 2 :: p4)) := by
  obtain ⟨f, hf⟩ := fdemo_exec
  exact ⟨f, fdemoTr.take 3, [], (fdemoTr.drop 5).take 35, fdemoTr.drop 41, hf, by decide⟩

/-- **C24**, as `C24_earlier_sees_it`. -/
theorem C24_earlier_sees_it_fine (h : FExec c tr f) {p1 p2 p3 p4 p5 : Trace W} {o m n : Nat} {v : W}
    (hmn : m ≠ n)
    (htr : tr = p1 ++ .retStart m .wait ::
      (p2 ++ .callStart n v :: (p3 ++ .deq o n :: (p4 ++ .retCont m .wait :: p5)))) :
    ∃ u, .callStart m u ∈ p2 ++ p3 ++ p4 := by
  obtain ⟨tr', s', hx, hq⟩ := fine_refines h
  rw [htr] at hq
  obtain ⟨p1', x', h1, _, h3⟩ := quiet_split (e := .retStart m .wait) rfl hq
  obtain ⟨p2', y', rfl, h4, h5⟩ := quiet_split (e := .callStart n v) rfl h3
  obtain ⟨p3', z', rfl, h6, h7⟩ := quiet_split (e := .deq o n) rfl h5
  obtain ⟨p4', p5', rfl, h8, _⟩ := quiet_split (e := .retCont m .wait) rfl h7
  obtain ⟨u, hu⟩ := C24_earlier_sees_it hx hmn h1
  refine ⟨u, (mem_of_quiet (tr' := p2' ++ p3' ++ p4') ?_ rfl).1 hu⟩
  simp only [quiet_append, h4, h6, h8]

example : ∃ f p1 p2 p3 p4, FExec (demoC true) fdemoTr f ∧
    fdemoTr = p1 ++ .retStart 1 .wait :: (p2 ++ .callStart 2 20 :: (p3 ++ .deq 9 2 :: p4)) ∧
    Event.retCont 1 .notified ∈ p3 ++ p4 := by
  obtain ⟨f, hf⟩ := fdemo_exec
  exact ⟨f, fdemoTr.take 3, [], (fdemoTr.drop 5).take 35, fdemoTr.drop 41, hf, by decide, by decide⟩

/-- **C24**, as `C24_wakes_in_order_partial`. (Missing: overlapping `notify` calls, see
`C24_wakes_swapped`.) -/
theorem C24_wakes_in_order_fine_partial (h : FExec c tr f) (hser : SerialNotify tr)
    {pre post a b d e : Trace W} {o m n : Nat} {u v w : W} (hmn : n ≠ m)
    (htr : tr = pre ++ .wake o m v :: post)
    (hpre : pre = a ++ .enq n u :: (b ++ .enq m w :: (d ++ .deq o m :: e))) :
    .rem n ∈ b ++ d ∨ ∃ o' w', .wake o' n w' ∈ b ++ d ++ e := by
  obtain ⟨tr', s', hx, hq⟩ := fine_refines h
  have hser' : SerialNotify tr' := hser.congr hq
  rw [htr] at hq
  obtain ⟨pre', post', h1, h2, _⟩ := quiet_split (e := .wake o m v) rfl hq
  rw [hpre] at h2
  obtain ⟨a', x', rfl, _, h3⟩ := quiet_split (e := .enq n u) rfl h2
  obtain ⟨b', y', rfl, h4, h5⟩ := quiet_split (e := .enq m w) rfl h3
  obtain ⟨d', e', rfl, h6, h7⟩ := quiet_split (e := .deq o m) rfl h5
  rcases C24_wakes_in_order_partial hx hser' hmn h1 rfl with h8 | ⟨o', w', h8⟩
  · refine .inl ((mem_of_quiet (tr' := b' ++ d') ?_ rfl).1 h8)
    simp only [quiet_append, h4, h6]
  · refine .inr ⟨o', w', (mem_of_quiet (tr' := b' ++ d' ++ e') ?_ rfl).1 h8⟩
    simp only [quiet_append, h4, h6, h7]

example : ∃ f pre post a b d e, FExec (demoC true) fdemoTr f ∧
    fdemoTr = pre ++ .wake 9 4 40 :: post ∧
    pre = a ++ .enq 2 20 :: (b ++ .enq 4 40 :: (d ++ .deq 9 4 :: e)) := by
  obtain ⟨f, hf⟩ := fdemo_exec
  exact ⟨f, fdemoTr.take 47, fdemoTr.drop 48, fdemoTr.take 7, (fdemoTr.drop 8).take 21,
    (fdemoTr.drop 30).take 15, [.touch (.op 9) 4], hf, by decide, by decide⟩

/-! ## Notifications -/

/-- **C26**, as `C26_one_wake`. -/
theorem C26_one_wake_fine (h : FExec c tr f) {o : Nat} (hr : .retNotify o true ∈ tr) :
    ∃ n v, opEvs tr o = [.callNotify o, .deq o n, .wake o n v, .retNotify o true] := by
  obtain ⟨tr', s', hx, hq⟩ := fine_refines h
  rw [← opEvs_congr hq]
  exact C26_one_wake hx ((mem_of_quiet hq rfl).2 hr)

example : ∃ f, FExec (demoC true) fdemoTr f ∧ Event.retNotify 0 true ∈ fdemoTr := by
  obtain ⟨f, hf⟩ := fdemo_exec
  exact ⟨f, hf, by decide⟩

/-- **C26**, as `C26_notify_alone`. -/
theorem C26_notify_alone_fine (h : FExec c tr f) {o : Nat} {b : Bool} (hr : .retNotify o b ∈ tr)
    (hno : ¬ Overlapped tr o) :
    (b = true ∧ ∃ n v, opEvs tr o = [.callNotify o, .deq o n, .wake o n v, .retNotify o true]) ∨
    (b = false ∧ opEvs tr o = [.callNotify o, .store o, .retNotify o false]) := by
  obtain ⟨tr', s', hx, hq⟩ := fine_refines h
  rw [← opEvs_congr hq]
  exact C26_notify_alone hx ((mem_of_quiet hq rfl).2 hr) (fun ho => hno (ho.congr hq))

/-- **C26**, as `C26_notify`. -/
theorem C26_notify_fine (h : FExec c tr f) (h1 : OneAtATime tr) {o : Nat} {b : Bool}
    (hr : .retNotify o b ∈ tr) :
    (b = true ∧ ∃ n v, opEvs tr o = [.callNotify o, .deq o n, .wake o n v, .retNotify o true]) ∨
    (b = false ∧ opEvs tr o = [.callNotify o, .store o, .retNotify o false]) := by
  obtain ⟨tr', s', hx, hq⟩ := fine_refines h
  rw [← opEvs_congr hq]
  exact C26_notify hx (h1.congr hq) ((mem_of_quiet hq rfl).2 hr)

theorem fdemo_one : OneAtATime (fdemoTr.take 21) := by
  refine OneAtATime.congr (tr := demoTr.take 20) (by decide +kernel) ⟨?_, ?_⟩
  · intro pre o post o' h
    exact demo_serial pre o (post ++ demoTr.drop 20) o' (by
      have := (List.take_append_drop 20 demoTr).symm
      rw [h] at this
      simpa using this)
  · intro n hn; simp [demoTr] at hn

example : ∃ f, FExec (demoC true) (fdemoTr.take 21) f ∧ OneAtATime (fdemoTr.take 21) ∧
    Event.retNotify 0 true ∈ fdemoTr.take 21 ∧ ¬ Overlapped (fdemoTr.take 21) 0 := by
  obtain ⟨f, hf⟩ := FExec.of_trace (c := demoC true) (acts := aStart 1 10 6 ++ aStart 2 20 6 ++
    aStart 3 30 6 ++ aNotify 0 8) (tr := fdemoTr.take 21) (by decide +kernel)
  refine ⟨f, hf, fdemo_one, by decide, ?_⟩
  obtain ⟨tr', s', hx, hq⟩ := fine_refines hf
  exact fun ho => (fdemo_one.congr hq).not_overlapped hx 0 (ho.congr hq.symm)

/-- **C26**, as `C26_store_if_none_waits`. -/
theorem C26_store_if_none_waits_fine (h : FExec c tr f) {pre post : Trace W} {o : Nat}
    (htr : tr = pre ++ .store o :: post) : queueOf pre = [] ∧ ∀ o', .closing o' ∉ pre := by
  obtain ⟨tr', s', hx, hq⟩ := fine_refines h
  rw [htr] at hq
  obtain ⟨pre', post', h1, h2, _⟩ := quiet_split (e := .store o) rfl hq
  obtain ⟨h3, h4⟩ := C26_store_if_none_waits hx h1
  exact ⟨queueOf_congr h2 ▸ h3, fun o' hc => h4 o' ((mem_of_quiet h2 rfl).2 hc)⟩

example : ∃ f pre post, FExec (demoC true) fdemoTr2 f ∧ fdemoTr2 = pre ++ .store 1 :: post := by
  obtain ⟨f, hf⟩ := fdemo_exec2
  exact ⟨f, fdemoTr2.take 4, fdemoTr2.drop 5, hf, by decide⟩

/-- **C26**, as `C26_consumed_once`. -/
theorem C26_consumed_once_fine (h : FExec c tr f) {pre post : Trace W} {n : Nat}
    (htr : tr = pre ++ .consume n :: post) :
    ∃ a o b, pre = a ++ .store o :: b ∧ ∀ m, .consume m ∉ b := by
  obtain ⟨tr', s', hx, hq⟩ := fine_refines h
  rw [htr] at hq
  obtain ⟨pre', post', h1, h2, _⟩ := quiet_split (e := .consume n) rfl hq
  obtain ⟨a, o, b, rfl, h4⟩ := C26_consumed_once hx h1
  obtain ⟨a', b', h5, _, h6⟩ := quiet_split (e := .store o) rfl h2.symm
  exact ⟨a', o, b', h5, fun m hm => h4 m ((mem_of_quiet h6 rfl).1 hm)⟩

/-- **C26**, as `C26_start_notified`. -/
theorem C26_start_notified_fine (h : FExec c tr f) {pre post : Trace W} {n : Nat}
    (htr : tr = pre ++ .retStart n .notified :: post) : ∃ a b, pre = a ++ .consume n :: b ∧ quiet b = [] := by
  obtain ⟨tr', s', hx, hq⟩ := fine_refines h
  rw [htr] at hq
  obtain ⟨pre', post', h1, h2, _⟩ := quiet_split (e := .retStart n .notified) rfl hq
  obtain ⟨p, rfl⟩ := C26_start_notified hx h1
  obtain ⟨a, b, h3, _, h4⟩ := quiet_split (e := .consume n) (post := []) rfl h2.symm
  exact ⟨a, b, h3, h4⟩

example : ∃ f pre post, FExec (demoC true) fdemoTr2 f ∧ fdemoTr2 = pre ++ .consume 1 :: post ∧
    Event.retStart 1 .notified ∈ post := by
  obtain ⟨f, hf⟩ := fdemo_exec2
  exact ⟨f, fdemoTr2.take 7, fdemoTr2.drop 8, hf, by decide, by decide⟩

/-- **C26**, as `C26_cont_notified`. -/
theorem C26_cont_notified_fine (h : FExec c tr f) {pre post : Trace W} {n : Nat}
    (htr : tr = pre ++ .retCont n .notified :: post) :
    ∃ a o b, pre = a ++ .deq o n :: b ∧ (∀ v, .enq n v ∉ b) ∧ .callNotify o ∈ pre := by
  obtain ⟨tr', s', hx, hq⟩ := fine_refines h
  rw [htr] at hq
  obtain ⟨pre', post', h1, h2, _⟩ := quiet_split (e := .retCont n .notified) rfl hq
  obtain ⟨a, o, b, h3, h4, h7⟩ := C26_cont_notified hx h1
  have h8 := (mem_of_quiet h2 rfl).1 h7
  rw [h3] at h2
  obtain ⟨a', b', h5, _, h6⟩ := quiet_split (e := .deq o n) rfl h2.symm
  exact ⟨a', o, b', h5, fun m hm => h4 m ((mem_of_quiet h6 rfl).1 hm), h8⟩

example : ∃ f pre post, FExec (demoC true) fdemoTr f ∧ fdemoTr = pre ++ .retCont 1 .notified :: post := by
  obtain ⟨f, hf⟩ := fdemo_exec
  exact ⟨f, fdemoTr.take 22, fdemoTr.drop 23, hf, by decide⟩

/-- **C26**, as `C26_stored_not_lost`. -/
theorem C26_stored_not_lost_fine (h : FExec c tr f) {pre a b post : Trace W} {n o : Nat} {v : W}
    (htr : tr = pre ++ .enq n v :: post) (hpre : pre = a ++ .store o :: b)
    (hcl : ∀ o', .closing o' ∉ pre) (hno : c.debug = true ∨ ∀ o', ¬ Overlapped tr o') :
    ∃ m, .consume m ∈ b := by
  obtain ⟨tr', s', hx, hq⟩ := fine_refines h
  have hno' : c.debug = true ∨ ∀ o', ¬ Overlapped tr' o' :=
    hno.imp id fun h1 o' h2 => h1 o' (h2.congr hq)
  rw [htr] at hq
  obtain ⟨pre', post', h1, h2, _⟩ := quiet_split (e := .enq n v) rfl hq
  have hcl' : ∀ o', .closing o' ∉ pre' := fun o' hc => hcl o' ((mem_of_quiet h2 rfl).1 hc)
  rw [hpre] at h2
  obtain ⟨a', b', h3, _, h4⟩ := quiet_split (e := .store o) rfl h2
  obtain ⟨m, hm⟩ := C26_stored_not_lost hx h1 h3 hcl' hno'
  exact ⟨m, (mem_of_quiet h4 rfl).1 hm⟩

example : ∃ f pre a b post, FExec (demoC true) fdemoTr2 f ∧ fdemoTr2 = pre ++ .enq 1 11 :: post ∧
    pre = a ++ .store 1 :: b ∧ ∀ o, .closing o ∉ pre := by
  obtain ⟨f, hf⟩ := fdemo_exec2
  exact ⟨f, fdemoTr2.take 11, fdemoTr2.take 4, (fdemoTr2.drop 5).take 6, fdemoTr2.drop 12, hf,
    by decide, by decide, by simp [fdemoTr2, demoTr2]⟩

/-- **C26**, as `C26_wait_is_queued`. -/
theorem C26_wait_is_queued_fine (h : FExec c tr f) {pre post : Trace W} {n : Nat}
    (htr : tr = pre ++ .retStart n .wait :: post ∨ tr = pre ++ .retCont n .wait :: post) :
    n ∈ queueOf pre := by
  obtain ⟨tr', s', hx, hq⟩ := fine_refines h
  rcases htr with htr | htr <;> rw [htr] at hq
  · obtain ⟨pre', post', h1, h2, _⟩ := quiet_split (e := .retStart n .wait) rfl hq
    rw [← queueOf_congr h2]
    exact C26_wait_is_queued hx (.inl h1)
  · obtain ⟨pre', post', h1, h2, _⟩ := quiet_split (e := .retCont n .wait) rfl hq
    rw [← queueOf_congr h2]
    exact C26_wait_is_queued hx (.inr h1)

example : ∃ f pre post, FExec (demoC true) fdemoTr f ∧ fdemoTr = pre ++ .retStart 3 .wait :: post := by
  obtain ⟨f, hf⟩ := fdemo_exec
  exact ⟨f, fdemoTr.take 13, fdemoTr.drop 14, hf, by decide⟩

/-! ## Closing -/

/-- **C27**, as `C27_all_woken`. -/
theorem C27_all_woken_fine (h : FExec c tr f) {pre post : Trace W} {o : Nat}
    (htr : tr = pre ++ .retClose o :: post) {a b : Trace W} {n : Nat} {v : W}
    (hpre : pre = a ++ .enq n v :: b) :
    .rem n ∈ b ∨ ∃ o' b1 b2 w, b = b1 ++ .deq o' n :: b2 ∧ .wake o' n w ∈ b2 := by
  obtain ⟨tr', s', hx, hq⟩ := fine_refines h
  rw [htr] at hq
  obtain ⟨pre', post', h1, h2, _⟩ := quiet_split (e := .retClose o) rfl hq
  rw [hpre] at h2
  obtain ⟨a', b', h3, _, h4⟩ := quiet_split (e := .enq n v) rfl h2
  rcases C27_all_woken hx h1 h3 with h5 | ⟨o', b1, b2, w, h5, h6⟩
  · exact .inl ((mem_of_quiet h4 rfl).1 h5)
  · rw [h5] at h4
    obtain ⟨c1, c2, h7, _, h8⟩ := quiet_split (e := .deq o' n) rfl h4.symm
    exact .inr ⟨o', c1, c2, w, h7, (mem_of_quiet h8 rfl).2 h6⟩

example : ∃ f pre post a b, FExec (demoC true) fdemoTr f ∧ fdemoTr = pre ++ .retClose 9 :: post ∧
    pre = a ++ .enq 2 20 :: b := by
  obtain ⟨f, hf⟩ := fdemo_exec
  exact ⟨f, fdemoTr.take 48, fdemoTr.drop 49, fdemoTr.take 7, (fdemoTr.drop 8).take 40, hf,
    by decide, by decide⟩

/-- **C27**, as `C27_no_wait_after`. -/
theorem C27_no_wait_after_fine (h : FExec c tr f) {pre post : Trace W} {o : Nat}
    (htr : tr = pre ++ .retClose o :: post) (n : Nat) :
    (∀ v, .enq n v ∉ post) ∧ .retStart n .wait ∉ post ∧ .retCont n .wait ∉ post := by
  obtain ⟨tr', s', hx, hq⟩ := fine_refines h
  rw [htr] at hq
  obtain ⟨pre', post', h1, _, h2⟩ := quiet_split (e := .retClose o) rfl hq
  obtain ⟨h3, h4, h5⟩ := C27_no_wait_after hx h1 n
  exact ⟨fun v hc => h3 v ((mem_of_quiet h2 rfl).2 hc), fun hc => h4 ((mem_of_quiet h2 rfl).2 hc),
    fun hc => h5 ((mem_of_quiet h2 rfl).2 hc)⟩

/-- **C27**, as `C27_start_closed`. -/
theorem C27_start_closed_fine (h : FExec c tr f) {p1 p2 p3 p4 : Trace W} {o n : Nat} {v : W} {r : Res3}
    (htr : tr = p1 ++ .closing o :: (p2 ++ .callStart n v :: (p3 ++ .retStart n r :: p4))) :
    r = .closed := by
  obtain ⟨tr', s', hx, hq⟩ := fine_refines h
  rw [htr] at hq
  obtain ⟨p1', x', h1, _, h3⟩ := quiet_split (e := .closing o) rfl hq
  obtain ⟨p2', y', rfl, h4, h5⟩ := quiet_split (e := .callStart n v) rfl h3
  obtain ⟨p3', p4', rfl, h6, _⟩ := quiet_split (e := .retStart n r) rfl h5
  exact C27_start_closed hx h1

example : ∃ f p1 p2 p3 p4, FExec (demoC true) fdemoTr f ∧
    fdemoTr = p1 ++ .closing 9 :: (p2 ++ .callStart 5 50 :: (p3 ++ .retStart 5 .closed :: p4)) := by
  obtain ⟨f, hf⟩ := fdemo_exec
  exact ⟨f, fdemoTr.take 38, (fdemoTr.drop 39).take 12, [], [], hf, by decide⟩

/-- **C27**, as `C27_cont_closed`. -/
theorem C27_cont_closed_fine (h : FExec c tr f) {p1 p2 p3 : Trace W} {o n : Nat} {r : Res3}
    (htr : tr = p1 ++ .closing o :: (p2 ++ .retCont n r :: p3)) (hn : n ∈ queueOf p1) :
    r ≠ .notified ∧ (.retClose o ∈ p2 → r = .closed) := by
  obtain ⟨tr', s', hx, hq⟩ := fine_refines h
  rw [htr] at hq
  obtain ⟨p1', x', h1, h2, h3⟩ := quiet_split (e := .closing o) rfl hq
  obtain ⟨p2', y', rfl, h4, _⟩ := quiet_split (e := .retCont n r) rfl h3
  obtain ⟨h5, h6⟩ := C27_cont_closed hx h1 (by rw [queueOf_congr h2]; exact hn)
  exact ⟨h5, fun hc => h6 ((mem_of_quiet h4 rfl).2 hc)⟩

example : ∃ f p1 p2 p3, FExec (demoC true) fdemoTr f ∧
    fdemoTr = p1 ++ .closing 9 :: (p2 ++ .retCont 2 .closed :: p3) ∧ 2 ∈ queueOf p1 ∧
    Event.retClose 9 ∈ p2 := by
  obtain ⟨f, hf⟩ := fdemo_exec
  exact ⟨f, fdemoTr.take 38, (fdemoTr.drop 39).take 11, fdemoTr.drop 51, hf, by decide, by decide,
    by decide⟩

/-- **C33** for the wait queue, as `C33_closed_truthful`. -/
theorem C33_closed_truthful_fine (h : FExec c tr f) {pre post : Trace W} {n : Nat} :
    (tr = pre ++ .retStart n .closed :: post → ∃ o, .closing o ∈ pre) ∧
    (tr = pre ++ .retCont n .closed :: post → ∃ o a b, pre = a ++ .deq o n :: b ∧
      (∀ v, .enq n v ∉ b) ∧ .callClose o ∈ pre) := by
  obtain ⟨tr', s', hx, hq⟩ := fine_refines h
  constructor <;> intro htr <;> rw [htr] at hq
  · obtain ⟨pre', post', h1, h2, _⟩ := quiet_split (e := .retStart n .closed) rfl hq
    obtain ⟨o, ho⟩ := (C33_closed_truthful hx).1 h1
    exact ⟨o, (mem_of_quiet h2 rfl).1 ho⟩
  · obtain ⟨pre', post', h1, h2, _⟩ := quiet_split (e := .retCont n .closed) rfl hq
    obtain ⟨o, a, b, h3, h4, h5⟩ := (C33_closed_truthful hx).2 h1
    have h6 := (mem_of_quiet h2 rfl).1 h5
    rw [h3] at h2
    obtain ⟨a', b', h7, _, h8⟩ := quiet_split (e := .deq o n) rfl h2.symm
    exact ⟨o, a', b', h7, fun v hc => h4 v ((mem_of_quiet h8 rfl).1 hc), h6⟩

example : ∃ f pre post, FExec (demoC true) closeGapTr f ∧
    closeGapTr = pre ++ .retCont 1 .closed :: post := by
  obtain ⟨f, hf⟩ := closeGap_exec
  exact ⟨f, closeGapTr.take 9, closeGapTr.drop 10, hf, by decide⟩

/-! ## Assertions and wakers -/

/-- **C30**, as `C30_assertions_partial`. (Missing: that it does not fail then, which is false:
`C30_two_notifies`, `C30_cancel`.) -/
theorem C30_assertions_fine_partial (h : FExec c tr f) {pre post : Trace W} {t : Tid}
    (htr : tr = pre ++ .assertFailed t :: post) :
    ∃ o, t = .op o ∧ .callNotify o ∈ pre ∧ Overlapped pre o := by
  obtain ⟨tr', s', hx, hq⟩ := fine_refines h
  rw [htr] at hq
  obtain ⟨pre', post', h1, h2, _⟩ := quiet_split (e := .assertFailed t) rfl hq
  obtain ⟨o, h3, h4, h5⟩ := C30_assertions_partial hx h1
  exact ⟨o, h3, (mem_of_quiet h2 rfl).1 h4, h5.congr h2⟩

/-- **C30 is false** with the two-step dequeue too: the assertion fails if two `notify` calls
overlap. -/
theorem C30_two_notifies_fine : ∃ tr f, FExec (demoC true) tr f ∧ .assertFailed (.op 1) ∈ tr ∧
    (∀ n, .callDrop n ∉ tr ∧ .giveUp n ∉ tr) ∧ ∀ o, .callClose o ∉ tr := by
  obtain ⟨tr, s, hs, h1, h2, h3⟩ := C30_two_notifies
  obtain ⟨tr', hf, hq⟩ := fine_complete hs
  exact ⟨tr', _, hf, (mem_of_quiet hq rfl).2 h1, fun n =>
    ⟨fun hc => (h2 n).1 ((mem_of_quiet hq rfl).1 hc), fun hc => (h2 n).2 ((mem_of_quiet hq rfl).1 hc)⟩,
    fun o hc => h3 o ((mem_of_quiet hq rfl).1 hc)⟩

/-- **C28**, as `C28_others_unchanged`. -/
theorem C28_others_unchanged_fine (h : FExec c tr f) {pre post : Trace W} {n : Nat}
    (htr : tr = pre ++ .rem n :: post) :
    queueOf (pre ++ [.rem n]) = (queueOf pre).filter (· ≠ n) := by
  obtain ⟨tr', s', hx, hq⟩ := fine_refines h
  rw [htr] at hq
  obtain ⟨pre', post', h1, h2, _⟩ := quiet_split (e := .rem n) rfl hq
  have := C28_others_unchanged hx h1
  have h3 : quiet (pre' ++ [.rem n]) = quiet (pre ++ [.rem n]) := by
    rw [quiet_append, quiet_append, h2]
  rwa [queueOf_congr h2, queueOf_congr h3] at this

example : ∃ f pre post, FExec (demoC true) fdemoTr f ∧ fdemoTr = pre ++ .rem 3 :: post ∧
    queueOf pre = [4, 3, 2] := by
  obtain ⟨f, hf⟩ := fdemo_exec
  exact ⟨f, fdemoTr.take 35, fdemoTr.drop 36, hf, by decide, by decide⟩

/-- **C47**, as `C47_woken_is_recorded`. -/
theorem C47_woken_is_recorded_fine (h : FExec c tr f) {pre post : Trace W} {o n : Nat} {v : W}
    (htr : tr = pre ++ .wake o n v :: post) :
    ∃ p1 p2, pre = p1 ++ .deq o n :: p2 ∧ given p1 n = some v := by
  obtain ⟨tr', s', hx, hq⟩ := fine_refines h
  rw [htr] at hq
  obtain ⟨pre', post', h1, h2, _⟩ := quiet_split (e := .wake o n v) rfl hq
  obtain ⟨a, b, rfl, h3⟩ := C47_woken_is_recorded hx h1
  obtain ⟨a', b', h4, h5, _⟩ := quiet_split (e := .deq o n) rfl h2.symm
  exact ⟨a', b', h4, by rw [given_congr h5]; exact h3⟩

example : ∃ f pre post, FExec (demoC true) fdemoTr f ∧ fdemoTr = pre ++ .wake 9 2 21 :: post := by
  obtain ⟨f, hf⟩ := fdemo_exec
  exact ⟨f, fdemoTr.take 43, fdemoTr.drop 44, hf, by decide⟩

/-- **C47**, as `C47_start_records`. -/
theorem C47_start_records_fine (h : FExec c tr f) {pre post : Trace W} {n : Nat} {v : W}
    (htr : tr = pre ++ .enq n v :: post) :
    ∃ a b, pre = a ++ .callStart n v :: b ∧ (∀ u, .callStart n u ∉ b) ∧ ∀ r, .retStart n r ∉ b := by
  obtain ⟨tr', s', hx, hq⟩ := fine_refines h
  rw [htr] at hq
  obtain ⟨pre', post', h1, h2, _⟩ := quiet_split (e := .enq n v) rfl hq
  obtain ⟨a, b, rfl, h3, h4⟩ := C47_start_records hx h1
  obtain ⟨a', b', h5, _, h6⟩ := quiet_split (e := .callStart n v) rfl h2.symm
  exact ⟨a', b', h5, fun u hc => h3 u ((mem_of_quiet h6 rfl).1 hc),
    fun r hc => h4 r ((mem_of_quiet h6 rfl).1 hc)⟩

/-- **C47**, as `C47_cont_records`. -/
theorem C47_cont_records_fine (h : FExec c tr f) (hrefl : ∀ v, c.same v v = true)
    {pre post : Trace W} {n : Nat} (htr : tr = pre ++ .retCont n .wait :: post) :
    ∃ a v b w, pre = a ++ .callCont n v :: b ∧ (∀ u, .callCont n u ∉ b) ∧
      (∀ r, .retCont n r ∉ b) ∧ given pre n = some w ∧ c.same w v = true := by
  obtain ⟨tr', s', hx, hq⟩ := fine_refines h
  rw [htr] at hq
  obtain ⟨pre', post', h1, h2, _⟩ := quiet_split (e := .retCont n .wait) rfl hq
  obtain ⟨a, v, b, w, h3, h4, h5, h6, h7⟩ := C47_cont_records hx hrefl h1
  rw [given_congr h2] at h6
  rw [h3] at h2
  obtain ⟨a', b', h8, _, h9⟩ := quiet_split (e := .callCont n v) rfl h2.symm
  exact ⟨a', v, b', w, h8, fun u hc => h4 u ((mem_of_quiet h9 rfl).1 hc),
    fun r hc => h5 r ((mem_of_quiet h9 rfl).1 hc), h6, h7⟩

example : ∃ f pre post, FExec (demoC true) fdemoTr f ∧ fdemoTr = pre ++ .retCont 2 .wait :: post ∧
    given pre 2 = some 21 ∧ Event.wake 9 2 21 ∈ post ∧ ∀ v, (demoC true).same v v = true := by
  obtain ⟨f, hf⟩ := fdemo_exec
  exact ⟨f, fdemoTr.take 25, fdemoTr.drop 26, hf, by decide, by decide, by decide, by simp [demoC]⟩

/-! ## No deadlock -/

/-- **C50**, as `C50_no_deadlock`: at every moment, every call in progress can be brought to its
end by steps of calls in progress; their number is bounded in terms of the number of waiting
senders. -/
theorem C50_no_deadlock_fine (h : FExec c tr f) {t : Tid} (ht : inCall tr t = true) :
    ∃ acts f' evs, acts.length ≤ 8 * (queueOf tr).length + 41 ∧
      (∀ a ∈ acts, ∃ u, inCall tr u = true ∧ a = u.act) ∧
      frunActs c f acts = some (f', evs) ∧ inCall (tr ++ evs) t = false := by
  obtain ⟨tr', a0, e0, s, hx, hq, h1, h2, h3, h4, h5⟩ := h.settle
  rw [← inCall_congr hq] at ht
  obtain ⟨u, m, n, s', evs, h6, h7, h8, h9⟩ := C50_no_deadlock hx ht
  obtain ⟨acts, evs', h10, h11, h12, h13⟩ := (h.of_frunActs h3).expands h8
  refine ⟨a0 ++ acts, _, e0 ++ evs', ?_, ?_, frunActs_append h3 h12, ?_⟩
  · rw [queueOf_congr hq] at h7
    simp only [List.length_append, List.length_replicate] at h10 ⊢
    omega
  · intro a ha
    rcases List.mem_append.1 ha with ha | ha
    · exact h5 a ha
    · have := h11 a ha
      simp only [List.mem_append, List.mem_replicate] at this
      rcases this with ⟨_, rfl⟩ | ⟨_, rfl⟩
      · exact ⟨u, by rw [← inCall_congr hq]; exact h6, rfl⟩
      · exact ⟨t, by rw [← inCall_congr hq]; exact ht, rfl⟩
  · rw [← h9]
    apply inCall_congr
    simp only [quiet_append, hq, h4, h13, List.nil_append]

/-- **C50**, as `C50_alone`. -/
theorem C50_alone_fine (h : FExec c tr f) {t : Tid} (ht : inCall tr t = true)
    (ho : ∀ u, u ≠ t → inCall tr u = false) :
    ∃ n f' evs, n ≤ 4 * (queueOf tr).length + 19 ∧
      frunActs c f (List.replicate n t.act) = some (f', evs) ∧
      ∀ u, inCall (tr ++ evs) u = false := by
  obtain ⟨tr', a0, e0, s, hx, hq, h1, h2, h3, h4, h5⟩ := h.settle
  have ht' := ht
  rw [← inCall_congr hq] at ht
  obtain ⟨n, s', evs, h7, h8, h9⟩ := C50_alone hx ht (fun u hu => by rw [inCall_congr hq]; exact ho u hu)
  obtain ⟨acts, evs', h10, h11, h12, h13⟩ := (h.of_frunActs h3).expands h8
  have hrep : ∀ a ∈ a0 ++ acts, a = t.act := by
    intro a ha
    rcases List.mem_append.1 ha with ha | ha
    · obtain ⟨u, h14, rfl⟩ := h5 a ha
      by_cases hu : u = t
      · rw [hu]
      · rw [ho u hu] at h14; cases h14
    · exact (List.mem_replicate.1 (h11 a ha)).2
  refine ⟨(a0 ++ acts).length, ⟨s', none⟩, e0 ++ evs', ?_, ?_, fun u => ?_⟩
  · rw [queueOf_congr hq] at h7
    simp only [List.length_append, List.length_replicate] at h10 ⊢
    omega
  · rw [← List.eq_replicate_of_mem hrep]
    exact frunActs_append h3 h12
  · rw [← h9 u]
    apply inCall_congr
    simp only [quiet_append, hq, h4, h13, List.nil_append]

example : ∃ f, FExec (demoC true) (cancelGapTr.take 9) f ∧ inCall (cancelGapTr.take 9) (.op 0) = true := by
  obtain ⟨f, hf⟩ := FExec.of_trace (c := demoC true) (tr := cancelGapTr.take 9)
    (acts := aStart 1 10 6 ++ aNotify 0 4 ++ aDrop 1 1) (by decide +kernel)
  exact ⟨f, hf, by decide⟩

end Thingbuf.Queue
