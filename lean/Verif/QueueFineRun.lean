import Verif.QueueFineTrace
import Verif.QueueSolo

/-!
# Runs of the wait queue with the two-step dequeue, helpers

From a run with the one-step dequeue to one with the two-step dequeue.
-/

namespace Thingbuf.Queue

variable {W : Type} {c : Config W}

theorem FExec.of_frunActs {tr : Trace W} {f f' : FState W} {acts : List (Act W)} {evs : Trace W}
    (h : FExec c tr f) (hr : frunActs c f acts = some (f', evs)) : FExec c (tr ++ evs) f' := by
  induction acts generalizing tr f evs with
  | nil =>
    simp only [frunActs, Option.some.injEq, Prod.mk.injEq] at hr
    obtain ⟨rfl, rfl⟩ := hr
    simpa using h
  | cons a as ih =>
    simp only [frunActs, Option.bind_eq_bind, Option.bind_eq_some_iff, Option.pure_def,
      Option.some.injEq, Prod.exists, Prod.mk.injEq] at hr
    obtain ⟨s1, e1, h1, s2, e2, h2, rfl, rfl⟩ := hr
    have := ih (h.step h1) h2
    simpa using this

theorem frunActs_append {f f1 f2 : FState W} {as bs : List (Act W)} {e1 e2 : Trace W}
    (h1 : frunActs c f as = some (f1, e1)) (h2 : frunActs c f1 bs = some (f2, e2)) :
    frunActs c f (as ++ bs) = some (f2, e1 ++ e2) := by
  induction as generalizing f e1 with
  | nil =>
    simp only [frunActs, Option.some.injEq, Prod.mk.injEq] at h1
    obtain ⟨rfl, rfl⟩ := h1
    simpa using h2
  | cons a as ih =>
    simp only [frunActs, Option.bind_eq_bind, Option.bind_eq_some_iff, Option.pure_def,
      Option.some.injEq, Prod.exists, Prod.mk.injEq] at h1
    obtain ⟨s1, x1, h3, s2, x2, h4, rfl, rfl⟩ := h1
    simp only [List.cons_append, frunActs, h3, Option.bind_eq_bind, Option.bind_some, ih h4,
      Option.pure_def, List.append_assoc]

theorem frunActs_one {f f1 : FState W} {a : Act W} {e : Trace W} (h : fstep c f a = some (f1, e)) :
    frunActs c f [a] = some (f1, e) := by
  simp [frunActs, h]

/-- A step with the one-step dequeue is one step with the two-step dequeue, or two: the two halves of a dequeue. -/
theorem FExec.expandStep {tr : Trace W} {s s' : State W} {act : Act W} {evs : Trace W}
    (hf : FExec c tr ⟨s, none⟩) (hs : Queue.step c s act = some (s', evs)) :
    fstep c ⟨s, none⟩ act = some (⟨s', none⟩, evs) ∨
      ∃ o t spur f1 e1 e2, act = .op o spur ∧ fstep c ⟨s, none⟩ act = some (f1, e1) ∧ fstep c f1 act = some (⟨s', none⟩, e2) ∧
        quiet e1 = [.deq o t] ∧ quiet e1 = quiet evs ∧ quiet e2 = [] := by
  have lift : fstep c ⟨s, none⟩ act =
      (Queue.step c s act).map (fun r => ((⟨r.1, none⟩ : FState W), r.2)) →
      fstep c ⟨s, none⟩ act = some (⟨s', none⟩, evs) := by
    intro he
    rw [hs] at he
    exact he
  cases act with
  | op o spur =>
    cases hp : (s.pc (.op o)).deqState with
    | none => exact .inl (lift (by simp only [fstep, hp]))
    | some ns =>
      cases ht : s.list.tail with
      | none => exact .inl (lift (by simp only [fstep, hp, ht]))
      | some t =>
        obtain ⟨tr2, hsim⟩ := hf.sim
        cases hd : deqSwap c s o t ns with
        | mk f1 e1 =>
          obtain ⟨h1, h2, evs', h3, h4, _, hsim1⟩ := hsim.swap rfl hp ht hd
          have hspur : Queue.step c s (.op o spur) = Queue.step c s (.op o false) := by
            rcases PC.deqState_cases (p := s.pc (.op o)) (by rw [hp]; rfl) with hpc | hpc <;>
              simp only [Queue.step, opStep, hpc]
          rw [hspur] at hs
          have h5 : (⟨s, none⟩ : FState W).abs = s := rfl
          rw [h5, hs] at h3
          simp only [Option.some.injEq, Prod.mk.injEq] at h3
          obtain ⟨h6, rfl⟩ := h3
          have g := hsim1.gap o t h2
          have hf1 : fstep c ⟨s, none⟩ (.op o spur) = some (f1, e1) := by
            simp only [fstep, hp, ht, hd]
          have h7 : f1.abs = deqDone f1.q o t := by unfold FState.abs; rw [h2]
          have hf2 : fstep c f1 (.op o spur) = some (⟨s', none⟩,
              .touch (.op o) t :: (f1.q.list.node t).prev.toList.map (.touch (.op o))) := by
            simp only [fstep, h2, if_true, g.rest, h6, h7]
          refine .inr ⟨o, t, spur, f1, e1, _, rfl, hf1, hf2, ?_, h4.symm, ?_⟩
          · unfold deqSwap at hd
            simp only at hd
            split at hd
            · cases hd; cases h2
            · cases hd; rfl
          · exact quiet_touch (.op o) (t :: (f1.q.list.node t).prev.toList)
  | start n v => exact .inl (lift rfl)
  | cont n v => exact .inl (lift rfl)
  | drop n => exact .inl (lift rfl)
  | giveUp n => exact .inl (lift rfl)
  | notify o => exact .inl (lift rfl)
  | close o => exact .inl (lift rfl)
  | node n spur => exact .inl (lift rfl)

/-- A step with the one-step dequeue is one or two steps with the two-step dequeue. -/
theorem FExec.expand {tr : Trace W} {s s' : State W} {act : Act W} {evs : Trace W}
    (hf : FExec c tr ⟨s, none⟩) (hs : Queue.step c s act = some (s', evs)) :
    ∃ k evs', k ≤ 2 ∧ frunActs c ⟨s, none⟩ (List.replicate k act) = some (⟨s', none⟩, evs') ∧
      quiet evs' = quiet evs := by
  rcases hf.expandStep hs with h1 | ⟨o, t, spur, f1, e1, e2, rfl, h1, h2, _, h3, h4⟩
  · exact ⟨1, evs, by omega, frunActs_one h1, rfl⟩
  · exact ⟨2, _, by omega, frunActs_append (as := [.op o spur]) (frunActs_one h1) (frunActs_one h2),
      by rw [quiet_append, h3, h4, List.append_nil]⟩

theorem FExec.expands {tr : Trace W} {s s' : State W} {acts : List (Act W)} {evs : Trace W}
    (hf : FExec c tr ⟨s, none⟩) (hs : runActs c s acts = some (s', evs)) :
    ∃ acts' evs', acts'.length ≤ 2 * acts.length ∧ (∀ a ∈ acts', a ∈ acts) ∧
      frunActs c ⟨s, none⟩ acts' = some (⟨s', none⟩, evs') ∧ quiet evs' = quiet evs := by
  induction acts generalizing tr s evs with
  | nil =>
    simp only [runActs, Option.some.injEq, Prod.mk.injEq] at hs
    obtain ⟨rfl, rfl⟩ := hs
    exact ⟨[], [], by simp, by simp, rfl, rfl⟩
  | cons a as ih =>
    simp only [runActs, Option.bind_eq_bind, Option.bind_eq_some_iff, Option.pure_def,
      Option.some.injEq, Prod.exists, Prod.mk.injEq] at hs
    obtain ⟨s1, e1, h1, s2, e2, h2, rfl, rfl⟩ := hs
    obtain ⟨k, e1', h3, h4, h5⟩ := hf.expand h1
    obtain ⟨as', e2', h6, h7, h8, h9⟩ := ih (hf.of_frunActs h4) h2
    refine ⟨List.replicate k a ++ as', e1' ++ e2', ?_, ?_, frunActs_append h4 h8, ?_⟩
    · simp; omega
    · intro x hx
      rcases List.mem_append.1 hx with hx | hx
      · rw [(List.mem_replicate.1 hx).2]; simp
      · exact List.mem_cons_of_mem _ (h7 x hx)
    · rw [quiet_append, quiet_append, h5, h9]

theorem inCall_quiet (tr : Trace W) (t : Tid) : inCall (quiet tr) t = inCall tr t := by
  unfold inCall
  generalize false = b
  induction tr generalizing b with
  | nil => rfl
  | cons e tr ih => cases e <;> simp only [quiet, List.filter_cons, if_true, List.foldl_cons,
      cstep, Bool.false_eq_true, if_false] <;> exact ih _

theorem inCall_congr {tr tr' : Trace W} (h : quiet tr' = quiet tr) {t : Tid} :
    inCall tr' t = inCall tr t := by
  rw [← inCall_quiet, h, inCall_quiet]

/-- The dequeue in progress, if any, can be completed. -/
theorem FExec.settle {tr : Trace W} {f : FState W} (h : FExec c tr f) :
    ∃ tr' acts evs s, Exec c tr' s ∧ quiet tr' = quiet tr ∧ s = f.abs ∧ acts.length ≤ 1 ∧
      frunActs c f acts = some (⟨s, none⟩, evs) ∧ quiet evs = [] ∧
      ∀ a ∈ acts, ∃ u, inCall tr u = true ∧ a = u.act := by
  obtain ⟨tr', hs⟩ := h.sim
  obtain ⟨q, half⟩ := f
  cases half with
  | none => exact ⟨tr', [], [], q, hs.exec, hs.eq, rfl, by simp, rfl, rfl, by simp⟩
  | some p =>
    obtain ⟨o, t⟩ := p
    have g := hs.gap o t rfl
    refine ⟨tr', [.op o false], _, _, hs.exec, hs.eq, rfl, by simp,
      frunActs_one (e := .touch (.op o) t :: (q.list.node t).prev.toList.map (.touch (.op o))) ?_,
      quiet_touch (.op o) (t :: (q.list.node t).prev.toList), ?_⟩
    · simp only [fstep, if_true, FState.abs]
      rw [show deqRest c q o t = _ from g.rest]
    · intro a ha
      simp only [List.mem_singleton] at ha
      subst ha
      refine ⟨.op o, ?_, rfl⟩
      rw [← inCall_congr hs.eq, hs.exec.inCall]
      simp only [FState.abs, deqDone, State.goto]
      rcases PC.deqState_cases g.pc with hp | hp <;> rw [show q.pc (.op o) = _ from hp] <;>
        cases (q.list.node t).waiter <;> simp [afterDeq, PC.busy]

end Thingbuf.Queue
