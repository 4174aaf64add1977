import Verif.QueuePanicSafe
import Verif.QueueProps
import Verif.QueueReenterProps

/-!
# Wakers that panic: C56

A waker is code of the user. C56 says that a waker that panics hurts nobody but the caller out of whose call the panic
comes: nobody else's wake-up is lost. It holds as long as no waker panics in `start_wait` (the first poll of a `send`) and
none while the receiver is dropped; in these two cases it is false.
-/

namespace Thingbuf.Queue

variable {W : Type} {c : Config (Wk W)} {tr : PTrace W} {s : State (Wk W)}

/-! ## Where a panic does no harm -/

/-- **C56**, partial. If no waker panics in `start_wait` and none in `close`, then what happened is what happens without
panics, with each `notify` that panicked having woken its waiter and returned, and each `continue_wait` that panicked
having said `Wait`; the queue is in the same state. So all that is proved of the queue holds of it. -/
theorem C56_as_if_returned_partial (h : PExec c tr s) (hs : ∀ n v, .ev (.callStart n v) ∈ tr → v.clonePanics = false)
    (hc : ∀ o n v, .ev (.callClose o) ∈ tr → .ev (.wake o n v) ∈ tr → v.wakePanics = false) :
    ∃ tr', Exec c.keep tr' s ∧ Like tr tr' :=
  h.like hs hc

/-! A run that meets the hypotheses: senders 0 and 1 wait; sender 1 is polled twice more, and panics both times, once in the
clone of the new waker, once in the drop of the old one; a `notify` panics in the waker of sender 0; then the receiver is
dropped. -/

/-- Wakers are numbers; equal numbers wake the same task. -/
def panicC (debug : Bool) : Config (Wk Nat) := ⟨debug, fun u v => u.id == v.id⟩

def pStart (n : Nat) (v : Wk Nat) (k : Nat) : List (Act (Wk Nat)) := .start n v :: List.replicate k (.node n false)
def pCont (n : Nat) (v : Wk Nat) (k : Nat) : List (Act (Wk Nat)) := .cont n v :: List.replicate k (.node n false)
def pNotify (o k : Nat) : List (Act (Wk Nat)) := .notify o :: List.replicate k (.op o false)
def pClose (o k : Nat) : List (Act (Wk Nat)) := .close o :: List.replicate k (.op o false)

theorem PExec.of_trace {acts : List (Act (Wk W))} {tr : PTrace W} (h : (prunActs c State.init acts).map Prod.snd = some tr) :
    ∃ s, PExec c tr s := by
  simp only [Option.map_eq_some_iff, Prod.exists] at h
  obtain ⟨s, tr', h1, rfl⟩ := h
  exact ⟨s, by simpa using PExec.init.run h1⟩

def panicTr : PTrace Nat :=
  [.ev (.callStart 0 { id := 10, wakePanics := true }), .ev (.touch (.node 0) 0),
   .ev (.enq 0 { id := 10, wakePanics := true }), .ev (.retStart 0 .wait),
   .ev (.callStart 1 { id := 11, dropPanics := true }), .ev (.touch (.node 1) 1), .ev (.touch (.node 1) 0),
   .ev (.enq 1 { id := 11, dropPanics := true }), .ev (.retStart 1 .wait),
   .ev (.callCont 1 { id := 12, clonePanics := true }), .panic (.node 1),
   .ev (.callCont 1 { id := 13 }), .ev (.upd 1 { id := 13 }), .panic (.node 1),
   .ev (.callNotify 5), .ev (.touch (.op 5) 0), .ev (.touch (.op 5) 1), .ev (.deq 5 0),
   .ev (.wake 5 0 { id := 10, wakePanics := true }), .panic (.op 5),
   .ev (.callClose 6), .ev (.closing 6), .ev (.touch (.op 6) 1), .ev (.deq 6 1), .ev (.wake 6 1 { id := 13 }),
   .ev (.retClose 6)]

theorem panic_exec : ∃ s, PExec (panicC true) panicTr s :=
  PExec.of_trace (acts := pStart 0 { id := 10, wakePanics := true } 6 ++ pStart 1 { id := 11, dropPanics := true } 6 ++
    pCont 1 { id := 12, clonePanics := true } 4 ++ pCont 1 { id := 13 } 4 ++ pNotify 5 7 ++ pClose 6 5) (by decide +kernel)

theorem panic_start : ∀ n v, .ev (.callStart n v) ∈ panicTr → v.clonePanics = false := by
  intro n v h
  simp [panicTr] at h
  rcases h with ⟨-, rfl⟩ | ⟨-, rfl⟩ <;> rfl

theorem panic_close : ∀ o n v, .ev (.callClose o) ∈ panicTr → .ev (.wake o n v) ∈ panicTr → v.wakePanics = false := by
  intro o n v h1 h2
  simp [panicTr] at h1 h2
  subst h1
  rcases h2 with ⟨h, -⟩ | ⟨-, -, rfl⟩
  · cases h
  · rfl

example : ∃ s tr', PExec (panicC true) panicTr s ∧ Exec (panicC true).keep tr' s ∧ Like panicTr tr' ∧ .panic (.node 1) ∈ panicTr ∧
    .retCont 1 .wait ∈ tr' := by
  obtain ⟨s, hs⟩ := panic_exec
  obtain ⟨tr', h1, h2⟩ := C56_as_if_returned_partial hs panic_start panic_close
  refine ⟨s, tr', hs, h1, h2, by decide, ?_⟩
  have : ∀ {p : PTrace Nat} {t}, Like p t → .panic (.node 1) ∈ p → Event.retCont 1 .wait ∈ t := by
    intro p t hl hp
    induction hl with
    | nil => cases hp
    | cons h1 h2 ih =>
      rcases List.mem_cons.1 hp with h3 | h3
      · subst h3; cases h1 <;> simp
      · exact List.mem_append_right _ (ih h3)
  exact this h2 (by decide)

/-- The events of call `o`. -/
def popEvs (tr : PTrace W) (o : Nat) : PTrace W :=
  tr.filter fun e => match e with | .ev e => e.byOp == some o | .panic t => t == .op o

theorem Like.opEvs {p : PTrace W} {t : Trace (Wk W)} (h : Like p t) (o : Nat) : Like (popEvs p o) (opEvs t o) := by
  induction h with
  | nil => exact .nil
  | @cons x p es t h1 h2 ih =>
    rw [opEvs_append]
    cases h1 with
    | ev e =>
      simp only [popEvs, Queue.opEvs, List.filter_cons, List.filter_nil] at ih ⊢
      split
      · exact .cons (.ev e) ih
      · exact ih
    | notify o' =>
      simp only [popEvs, Queue.opEvs, List.filter_cons, List.filter_nil, Event.byOp] at ih ⊢
      by_cases ho : o' = o
      · subst ho; simpa using .cons (.notify o') ih
      · simpa [ho] using ih
    | clone n u => simpa [popEvs, Queue.opEvs, Event.byOp] using ih
    | drop n => simpa [popEvs, Queue.opEvs, Event.byOp] using ih

theorem Like.eq_nil {p : PTrace W} (h : Like p []) : p = [] := by
  generalize ht : ([] : Trace (Wk W)) = t at h
  cases h with
  | nil => rfl
  | cons h1 h2 => cases h1 <;> simp at ht

/-- **C56**, partial: a `notify` (the drop of a `RecvRef`) out of which a panic comes has done all its work: it has taken
one waiting sender and woken it. -/
theorem C56_notify_woke_partial (h : PExec c tr s) (hs : ∀ n v, .ev (.callStart n v) ∈ tr → v.clonePanics = false)
    (hc : ∀ o n v, .ev (.callClose o) ∈ tr → .ev (.wake o n v) ∈ tr → v.wakePanics = false) {o : Nat}
    (hp : .panic (.op o) ∈ tr) :
    ∃ n v, popEvs tr o = [.ev (.callNotify o), .ev (.deq o n), .ev (.wake o n v), .panic (.op o)] := by
  obtain ⟨tr', he, hl⟩ := h.like hs hc
  have hr : Event.retNotify o true ∈ tr' := by
    clear h hs hc he
    induction hl with
    | nil => cases hp
    | cons h1 h2 ih =>
      rcases List.mem_cons.1 hp with h3 | h3
      · subst h3; cases h1; simp
      · exact List.mem_append_right _ (ih h3)
  obtain ⟨n, v, ho⟩ := C26_one_wake he hr
  have hl' := hl.opEvs o
  have hp' : PEv.panic (.op o) ∈ popEvs tr o := by simp [popEvs, hp]
  rw [ho] at hl'
  refine ⟨n, v, ?_⟩
  clear h hs hc he hl hr ho hp
  generalize popEvs tr o = p at *
  obtain ⟨p1, p2, rfl, h1, h2⟩ := hl'.unsplit (a := []) rfl
  obtain rfl := h1.eq_nil
  obtain ⟨p1, p3, rfl, h1, h3⟩ := h2.unsplit (a := []) rfl
  obtain rfl := h1.eq_nil
  obtain ⟨p1, p4, rfl, h1, h4⟩ := h3.unsplit (a := []) rfl
  obtain rfl := h1.eq_nil
  simp only [List.nil_append, List.mem_cons, reduceCtorEq, false_or] at hp' ⊢
  generalize ht : [Event.retNotify o true] = t at h4
  cases h4 with
  | nil => cases ht
  | cons h5 h6 =>
    cases h5 with
    | ev e =>
      simp only [List.cons_append, List.nil_append, List.cons.injEq] at ht
      obtain ⟨rfl, rfl⟩ := ht
      obtain rfl := h6.eq_nil
      simp at hp'
    | notify o' =>
      simp only [List.cons_append, List.nil_append, List.cons.injEq, Event.retNotify.injEq] at ht
      obtain ⟨⟨rfl, -⟩, rfl⟩ := ht
      obtain rfl := h6.eq_nil
      rfl
    | clone n u => simp at ht
    | drop n => simp at ht

example : ∃ s, PExec (panicC true) panicTr s ∧ .panic (.op 5) ∈ panicTr ∧
    popEvs panicTr 5 = [.ev (.callNotify 5), .ev (.deq 5 0), .ev (.wake 5 0 { id := 10, wakePanics := true }), .panic (.op 5)] := by
  obtain ⟨s, hs⟩ := panic_exec
  exact ⟨s, hs, by decide, by decide⟩

/-- **C56**, partial: when the receiver has been dropped, every sender that ever waited has been taken and woken since, or
has removed its node itself, whatever panicked before. -/
theorem C56_all_woken_partial (h : PExec c tr s) (hs : ∀ n v, .ev (.callStart n v) ∈ tr → v.clonePanics = false)
    (hc : ∀ o n v, .ev (.callClose o) ∈ tr → .ev (.wake o n v) ∈ tr → v.wakePanics = false) {a b post : PTrace W} {o n : Nat}
    {v : Wk W} (htr : tr = a ++ .ev (.enq n v) :: (b ++ .ev (.retClose o) :: post)) :
    .ev (.rem n) ∈ b ∨ ∃ o' b1 b2 w, b = b1 ++ .ev (.deq o' n) :: b2 ∧ .ev (.wake o' n w) ∈ b2 := by
  obtain ⟨tr', he, hl⟩ := h.like hs hc
  rw [htr] at hl
  obtain ⟨a', r, rfl, h1, h2⟩ := hl.split
  obtain ⟨b', post', rfl, h3, h4⟩ := h2.split
  rcases C27_all_woken he (pre := a' ++ .enq n v :: b') (post := post') (o := o) (by simp) rfl with h5 | ⟨o', b1, b2, w, rfl, h5⟩
  · exact .inl (h3.of_mem rfl h5)
  · obtain ⟨p1, p2, rfl, h6, h7⟩ := h3.unsplit rfl
    exact .inr ⟨o', p1, p2, w, rfl, h7.of_mem rfl h5⟩

example : ∃ s a b post, PExec (panicC true) panicTr s ∧
    panicTr = a ++ .ev (.enq 1 { id := 11, dropPanics := true }) :: (b ++ .ev (.retClose 6) :: post) := by
  obtain ⟨s, hs⟩ := panic_exec
  exact ⟨s, panicTr.take 7, (panicTr.drop 8).take 17, [], hs, by decide⟩

/-! ## What holds whatever panics -/

/-- **C56**, the part about later calls. Whatever panicked, the lock is not left locked: it is free when no call is in
progress. -/
theorem C56_lock_free (h : PExec c tr s) (hi : ∀ t, pinCall tr t = false) : s.lock = none := by
  cases hl : s.lock with
  | none => rfl
  | some t =>
    have := hi t
    rw [h.inCall, PC.busy_of_crit ((h.sinv.lockC t).1 hl)] at this
    cases this

/-- **C56**, the part about later calls. Whatever panicked, no call is stuck: every call in progress can be brought to its
end, with a result or a panic, by letting first one other call in progress run, if need be, and then itself. -/
theorem C56_no_deadlock (h : PExec c tr s) {t : Tid} (ht : pinCall tr t = true) :
    ∃ u m n s' evs, pinCall tr u = true ∧ prunActs c s (List.replicate m u.act ++ List.replicate n t.act) = some (s', evs) ∧
      pinCall (tr ++ evs) t = false := by
  rw [h.inCall] at ht
  obtain ⟨u, m, n, s', evs, h1, h2, h3⟩ := h.canEnd ht
  exact ⟨u, m, n, s', evs, by rw [h.inCall]; exact h1, h2, by rw [(h.run h2).inCall]; exact h3⟩

/-- The clone of a waker panics in `start_wait` of sender 2; senders 0 and 1 wait; the receiver is dropped and the waker of sender 0 panics: no call is
in progress. Then sender 1 is polled. -/
def lockTr : PTrace Nat :=
  [.ev (.callStart 0 { id := 10, wakePanics := true }), .ev (.touch (.node 0) 0), .ev (.enq 0 { id := 10, wakePanics := true }),
   .ev (.retStart 0 .wait), .ev (.callStart 1 { id := 11 }),
   .ev (.touch (.node 1) 1), .ev (.touch (.node 1) 0), .ev (.enq 1 { id := 11 }), .ev (.retStart 1 .wait),
   .ev (.callStart 2 { id := 12, clonePanics := true }), .panic (.node 2),
   .ev (.callClose 6), .ev (.closing 6), .ev (.touch (.op 6) 0), .ev (.touch (.op 6) 1), .ev (.deq 6 0),
   .ev (.wake 6 0 { id := 10, wakePanics := true }), .panic (.op 6)]

def lockActs : List (Act (Wk Nat)) := pStart 0 { id := 10, wakePanics := true } 6 ++ pStart 1 { id := 11 } 6 ++
  pStart 2 { id := 12, clonePanics := true } 5 ++ pClose 6 4

example : ∃ s, PExec (panicC true) lockTr s ∧ ∀ t, pinCall lockTr t = false := by
  obtain ⟨s, hs⟩ := PExec.of_trace (c := panicC true) (tr := lockTr) (acts := lockActs) (by decide +kernel)
  refine ⟨s, hs, fun t => ?_⟩
  simp only [pinCall, lockTr, List.foldl, pcstep, cstep]
  repeat' split
  all_goals first | rfl | simp_all

example : ∃ s, PExec (panicC true) (lockTr ++ [.ev (.callCont 1 { id := 13 })]) s ∧
    pinCall (lockTr ++ [.ev (.callCont 1 { id := 13 })]) (.node 1) = true := by
  obtain ⟨s, hs⟩ := PExec.of_trace (c := panicC true) (tr := lockTr ++ [.ev (.callCont 1 { id := 13 })])
    (acts := lockActs ++ [.cont 1 { id := 13 }]) (by decide +kernel)
  exact ⟨s, hs, by decide⟩

/-! ## A panic while the receiver is dropped -/

/-- **C56 is false** if a waker panics while the receiver is dropped: after the panic nobody is woken any more, whatever
happens, and a sender `m` that waited is told `Wait` by each further poll, never `Closed`. Any number of senders may wait. -/
theorem C56_false_if_close_panics {tr : Trace (Wk W)} (h : Exec c tr s) {o n m : Nat} {v : Wk W} (hw : Waking c s o n v)
    (hc : .callClose o ∈ tr) (hv : v.wakePanics = true) (hm : m ∈ queueOf tr) :
    ∃ s1, pstep c s (.op o false) = some (s1, [.ev (.wake o n v), .panic (.op o)]) ∧
      ∀ as s2 evs, prunActs c s1 as = some (s2, evs) →
        (∀ o' n' v', .ev (.wake o' n' v') ∉ evs) ∧ ∀ r, .ev (.retCont m r) ∈ evs → r = .wait := by
  have hpc : s.pc (.op o) = .cWake n v := by
    rcases h.waking_pc hw with hp | hp
    · have ho := h.opHist o
      rw [hp] at ho
      simp only [OpHist] at ho
      rw [← mem_opEvs (o := o) rfl, ho] at hc
      simp at hc
    · exact hp
  refine ⟨(closePanic s o n v).1, by simp [pstep, panics, hpc, hv, closePanic], fun as s2 evs hr => ?_⟩
  exact ((h.lost hpc hm).run hr).2

/-- Senders 0 and 1 wait; the receiver is dropped and the waker of sender 0 panics; sender 1 is never woken, and when it is
polled all the same it is told to wait. -/
theorem C56_sender_lost : ∃ tr s s1, Exec (panicC true) tr s ∧ 1 ∈ queueOf tr ∧
    pstep (panicC true) s (.op 6 false) = some (s1, [.ev (.wake 6 0 { id := 10, wakePanics := true }), .panic (.op 6)]) ∧
    ∀ as s2 evs, prunActs (panicC true) s1 as = some (s2, evs) →
      (∀ o n v, .ev (.wake o n v) ∉ evs) ∧ ∀ r, .ev (.retCont 1 r) ∈ evs → r = .wait := by
  obtain ⟨s, h1, h0, s', evs, h2, h3⟩ := ExecM.of_next (c := panicC true) (act := .op 6 false)
    (acts := pStart 0 { id := 10, wakePanics := true } 6 ++ pStart 1 { id := 11 } 6 ++ pClose 6 3)
    (P := (.wake 6 0 { id := 10, wakePanics := true } ∈ ·)) rfl (by decide)
  obtain ⟨s1, h4, h5⟩ := C56_false_if_close_panics h1 (m := 1) ⟨s', evs, h2, by simpa using h3⟩ (by decide) rfl (by decide)
  exact ⟨_, s, s1, h1, by decide, h4, h5⟩

example : ∃ s, PExec (panicC true) [.ev (.callStart 0 { id := 10, wakePanics := true }), .ev (.touch (.node 0) 0),
    .ev (.enq 0 { id := 10, wakePanics := true }), .ev (.retStart 0 .wait), .ev (.callStart 1 { id := 11 }),
    .ev (.touch (.node 1) 1), .ev (.touch (.node 1) 0), .ev (.enq 1 { id := 11 }), .ev (.retStart 1 .wait),
    .ev (.callClose 6), .ev (.closing 6), .ev (.touch (.op 6) 0), .ev (.touch (.op 6) 1), .ev (.deq 6 0),
    .ev (.wake 6 0 { id := 10, wakePanics := true }), .panic (.op 6),
    .ev (.callCont 1 { id := 11 }), .ev (.upd 1 { id := 11 }), .ev (.retCont 1 .wait)] s :=
  PExec.of_trace (acts := pStart 0 { id := 10, wakePanics := true } 6 ++ pStart 1 { id := 11 } 6 ++ pClose 6 4 ++
    pCont 1 { id := 11 } 4) (by decide +kernel)

/-! ## A panic in the first poll of a send -/

/-- **C56 is false** if the clone of a waker panics in `start_wait` while nobody else waits: the queue is left in the state
"somebody waits". The next `notify` wakes nobody and stores nothing: the notification is lost. With debug assertions on it
panics. -/
theorem C56_false_if_start_panics {tr : Trace (Wk W)} (h : Exec c tr s) {n o : Nat} {s1 : State (Wk W)} {spur : Bool}
    (hp : pstep c s (.node n spur) = some (s1, [.panic (.node n)])) (hq : queueOf tr = []) (hc : ∀ o, .callClose o ∉ tr)
    (ho : opEvs tr o = []) :
    ∃ s2, prunActs c s1 (.notify o :: List.replicate (if c.debug then 4 else 6) (.op o false)) =
      some (s2, if c.debug then [.ev (.callNotify o), .ev (.assertFailed (.op o))]
        else [.ev (.callNotify o), .ev (.retNotify o false)]) := by
  obtain ⟨h1, h2, h3, h4, h5, h6⟩ := h.startPanic hp hq hc
  have h7 : s1.pc (.op o) = .off := by rw [h6, h.off ho]
  cases hd : c.debug <;>
    simp [List.replicate, prunActs, pstep, panics, Queue.step, opStep, h1, h2, h3, h4, h5, h7, hd, State.goto, nLoop, acquire, nMatch,
      WList.dequeue, taken, deqEvents, nStore, nUnlock, WList.isEmpty, State.endNotify, State.unlock, fail]

/-- Sender 0 panics in its first poll. Later a slot becomes free: the notification is lost. Sender 1, which found the channel
full before, goes to sleep although a slot is free. In a debug build the drop of the `RecvRef` panics. -/
theorem C56_notification_lost :
    (∃ s, PExec (panicC false) [.ev (.callStart 0 { id := 10, clonePanics := true }), .panic (.node 0),
      .ev (.callNotify 5), .ev (.retNotify 5 false), .ev (.callStart 1 { id := 11 }), .ev (.touch (.node 1) 1),
      .ev (.enq 1 { id := 11 }), .ev (.retStart 1 .wait)] s) ∧
    ∃ s, PExec (panicC true) [.ev (.callStart 0 { id := 10, clonePanics := true }), .panic (.node 0),
      .ev (.callNotify 5), .ev (.assertFailed (.op 5))] s :=
  ⟨PExec.of_trace (acts := pStart 0 { id := 10, clonePanics := true } 5 ++ pNotify 5 6 ++ pStart 1 { id := 11 } 6) (by decide +kernel),
    PExec.of_trace (acts := pStart 0 { id := 10, clonePanics := true } 5 ++ pNotify 5 4) (by decide +kernel)⟩

example : ∃ tr s s1, Exec (panicC true) tr s ∧ pstep (panicC true) s (.node 0 false) = some (s1, [.panic (.node 0)]) ∧
    queueOf tr = [] ∧ (∀ o, .callClose o ∉ tr) ∧ opEvs tr 5 = [] := by
  obtain ⟨s, h1, h0, -⟩ := ExecM.of_next (c := panicC true) (act := .node 0 false)
    (acts := pStart 0 { id := 10, clonePanics := true } 4) (tr := [.callStart 0 { id := 10, clonePanics := true }])
    (P := fun _ => true) rfl (by decide)
  have h2 : ((runActs (panicC true) State.init (pStart 0 { id := 10, clonePanics := true } 4)).map Prod.fst).bind
      (fun s => (pstep (panicC true) s (.node 0 false)).map Prod.snd) = some [.panic (.node 0)] := by decide
  rw [h0, Option.bind_some, Option.map_eq_some_iff] at h2
  obtain ⟨⟨s1, e⟩, h3, rfl⟩ := h2
  exact ⟨_, s, s1, h1, h3, by decide, by simp, by decide⟩

end Thingbuf.Queue
