import Verif.QueueReenter

/-!
# C54: what a waker may do

A waker is code of the user (of the executor). While it runs, in the middle of a call of the channel, other calls are made: by other threads, and by the waker
itself, on the same thread. A call made by the waker itself can only end if it ends without a step of the call that is in the middle of calling the waker.

`Waking c s o n v`: the call `o` is in the middle of calling the waker `v` of node `n`. `Act.by`: whose step an action is.
-/

namespace Thingbuf.Queue

variable {W : Type} {c : Config W} {tr : Trace W} {s : State W}

/-- **C54** (partial: for wakers that are called because a slot became free; for those that are called because the receiver is dropped see `C54_false_if_closing`).
While `notify` is calling a waker, it keeps nobody waiting: every other call, whether it was made before or is made while the waker runs (for instance by the waker
itself), can be brought to its end without a step of the `notify`, which goes on calling the waker meanwhile. -/
theorem C54_notify_partial (h : Exec c tr s) {o n : Nat} {v : W} (hw : Waking c s o n v) (hn : .callClose o ∉ tr)
    {as : List (Act W)} (ha : ∀ a ∈ as, a.by ≠ .op o) {s' : State W} {evs : Trace W} (hr : runActs c s as = some (s', evs))
    {t : Tid} (ht : t ≠ .op o) (hc : inCall (tr ++ evs) t = true) :
    Waking c s' o n v ∧ ∃ as' s'' evs', (∀ a ∈ as', a.by ≠ .op o) ∧ as'.length ≤ 4 * (queueOf (tr ++ evs)).length + 20 ∧
      runActs c s' as' = some (s'', evs') ∧ inCall (tr ++ evs ++ evs') t = false := by
  have hp : s.pc (.op o) = .nWake n v := (h.waking_pc hw).resolve_right fun hp => hn (h.closed hp)
  have hp' := runActs_by hr ha
  have h' := h.of_runActs hr
  rw [hp] at hp'
  refine ⟨waking_of_pc (.inl hp'), ?_⟩
  rw [h'.inCall] at hc
  obtain ⟨u, m, k, s2, e2, -, hu, hlen, hr2, hb⟩ := h'.canEndWithout (x := .op o) hc (by rw [hp']; rfl) ht
  refine ⟨_, s2, e2, ?_, by simpa using hlen, hr2, ?_⟩
  · intro a ha
    rcases List.mem_append.1 ha with ha | ha <;> rw [(List.mem_replicate.1 ha).2, Tid.act_by]
    · exact hu
    · exact ht
  · rw [(h'.of_runActs hr2).inCall, hb]

/-- **C54** is false of wakers that are called because the receiver is dropped. While `close` is calling the waker of one sender, another sender that still waits can neither be
polled nor dropped: whatever else happens, such a call does not end before `close` goes on, that is, before the waker has returned. If it is the waker that
makes the call, the thread is deadlocked. -/
theorem C54_false_if_closing (h : Exec c tr s) {o n : Nat} {v : W} (hw : Waking c s o n v) (hn : .callClose o ∈ tr)
    {as : List (Act W)} (ha : ∀ a ∈ as, a.by ≠ .op o) {s' : State W} {evs : Trace W} (hr : runActs c s as = some (s', evs))
    {m : Nat} (hm : m ∈ queueOf tr) (hc : .callDrop m ∈ evs ∨ ∃ v, .callCont m v ∈ evs) :
    Waking c s' o n v ∧ inCall (tr ++ evs) (.node m) = true := by
  have hp : s.pc (.op o) = .cWake n v := (h.waking_pc hw).resolve_left fun hp =>
    h.notify_not_close (h.called (o := o) (by rw [hp]; rfl)) hn
  have hp' := runActs_by hr ha
  have h' := h.of_runActs hr
  rw [hp] at hp'
  refine ⟨waking_of_pc (.inr hp'), ?_⟩
  rw [h'.inCall]
  exact (h.stuck (x := .op o) (by simp) (by rw [hp]; rfl) ha hr hm).2.2 hc

/-- **C54** is false of the code that runs when the waker of a sender is replaced: the comparison of the wakers, the clone of the new one and the drop of the old one (which may
drop what the old one kept alive). While a poll of one sender does this, another waiting sender can neither be polled nor dropped. -/
theorem C54_false_if_replacing (h : Exec c tr s) {n : Nat} (hw : Replacing c s n) {as : List (Act W)} (ha : ∀ a ∈ as, a.by ≠ .node n)
    {s' : State W} {evs : Trace W} (hr : runActs c s as = some (s', evs)) {m : Nat} (hm : m ∈ queueOf tr) (hne : m ≠ n)
    (hc : .callDrop m ∈ evs ∨ ∃ v, .callCont m v ∈ evs) : inCall (tr ++ evs) (.node m) = true := by
  obtain ⟨v, hp⟩ := h.replacing_pc hw
  rw [(h.of_runActs hr).inCall]
  exact (h.stuck (x := .node n) (by simpa using hne) (by rw [hp]; rfl) ha hr hm).2.2 hc

/-- The hypotheses are met. Senders 0 and 1 wait. The `notify` 5 is in the middle of calling the waker of sender 0. -/
def reenterNotify : List (Act Nat) := aStart 0 7 6 ++ aStart 1 8 6 ++ aNotify 5 6

/-- Senders 0 and 1 wait. The `close` 5 is in the middle of calling the waker of sender 0. -/
def reenterClose : List (Act Nat) := aStart 0 7 6 ++ aStart 1 8 6 ++ aClose 5 3

/-- Senders 0 and 1 wait. Sender 0 is polled with another waker, and is in the middle of replacing the old one. -/
def reenterCont : List (Act Nat) := aStart 0 7 6 ++ aStart 1 8 6 ++ aCont 0 9 3

theorem ExecM.of_next {W : Type} {acts : List (Act W)} {act : Act W} {tr : Trace W} {P : Trace W → Bool} {c : Config W}
    (h : (runActs c State.init acts).map Prod.snd = some tr)
    (hp : ((runActs c State.init acts).bind fun x => (Queue.step c x.1 act).map Prod.snd).any P = true) :
    ∃ s, Exec c tr s ∧ (runActs c State.init acts).map Prod.fst = some s ∧ ∃ s' evs, Queue.step c s act = some (s', evs) ∧ P evs = true := by
  cases hs : runActs c State.init acts with
  | none => simp [hs] at h
  | some x =>
    obtain ⟨s, tr'⟩ := x
    have : tr' = tr := by simpa [hs] using h
    subst this
    refine ⟨s, by simpa using Exec.init.of_runActs hs, rfl, ?_⟩
    cases hst : Queue.step c s act with
    | none => simp [hs, hst] at hp
    | some y => exact ⟨y.1, y.2, rfl, by simpa [hs, hst] using hp⟩

example : ∃ tr s, Exec (demoC true) tr s ∧ Waking (demoC true) s 5 0 7 ∧ .callClose 5 ∉ tr ∧ 1 ∈ queueOf tr := by
  obtain ⟨s, h1, -, s', evs, h2, h3⟩ := ExecM.of_next (acts := reenterNotify) (act := .op 5 false) (c := demoC true) (P := (.wake 5 0 7 ∈ ·)) rfl (by decide)
  exact ⟨_, s, h1, ⟨s', evs, h2, by simpa using h3⟩, by decide, by decide⟩

/-- A deadlock: the waker of sender 0 drops the future of sender 1 while the receiver is being dropped. -/
theorem C54_close_deadlock : ∃ tr s, Exec (demoC true) tr s ∧ Waking (demoC true) s 5 0 7 ∧ .callClose 5 ∈ tr ∧
    (∃ s1 e1, Queue.step (demoC true) s (.drop 1) = some (s1, e1)) ∧
    ∀ as s' evs, (∀ a ∈ as, a.by ≠ .op 5) → runActs (demoC true) s (.drop 1 :: as) = some (s', evs) → inCall (tr ++ evs) (.node 1) = true := by
  obtain ⟨s, h1, h0, s', evs, h2, h3⟩ := ExecM.of_next (acts := reenterClose) (act := .op 5 false) (c := demoC true) (P := (.wake 5 0 7 ∈ ·)) rfl (by decide)
  obtain ⟨s0, -, h4, s2, e2, h5, -⟩ := ExecM.of_next (acts := reenterClose) (act := .drop 1) (c := demoC true) (P := (.callDrop 1 ∈ ·)) rfl (by decide)
  have : s0 = s := Option.some.inj (h4.symm.trans h0)
  subst this
  have hw : Waking (demoC true) s0 5 0 7 := ⟨s', evs, h2, by simpa using h3⟩
  refine ⟨_, s0, h1, hw, by decide, ⟨s2, e2, h5⟩, fun as s3 e3 ha hr => ?_⟩
  refine (C54_false_if_closing h1 hw (by decide) (as := .drop 1 :: as) (by simpa [Act.by] using ha) hr (m := 1) (by decide) (.inl ?_)).2
  simp only [runActs, Option.bind_eq_bind, Option.bind_eq_some_iff, Option.pure_def, Option.some.injEq, Prod.mk.injEq] at hr
  obtain ⟨⟨s4, e4⟩, h6, ⟨s5, e5⟩, -, -, rfl⟩ := hr
  simp only [Queue.step] at h6
  refine List.mem_append.2 (.inl ?_)
  split at h6 <;> cases h6 <;> simp

example : ∃ tr s, Exec (demoC true) tr s ∧ Replacing (demoC true) s 0 ∧ 1 ∈ queueOf tr ∧ ∃ s1 e1, Queue.step (demoC true) s (.drop 1) = some (s1, e1) := by
  obtain ⟨s, h1, h0, s', evs, h2, h3⟩ := ExecM.of_next (acts := reenterCont) (act := .node 0 false) (c := demoC true) (P := (.upd 0 9 ∈ ·)) rfl (by decide)
  obtain ⟨s0, -, h4, s2, e2, h5, -⟩ := ExecM.of_next (acts := reenterCont) (act := .drop 1) (c := demoC true) (P := (.callDrop 1 ∈ ·)) rfl (by decide)
  have : s0 = s := Option.some.inj (h4.symm.trans h0)
  subst this
  exact ⟨_, s0, h1, ⟨s', evs, 9, h2, by simpa using h3⟩, by decide, s2, e2, h5⟩

end Thingbuf.Queue
