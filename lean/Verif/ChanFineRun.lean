import Verif.ChanFineSim
import Verif.ChanQEnds

/-!
# Running the channel with the two-step dequeue
-/

namespace Thingbuf.Chan

variable {w : Nat} {V W : Type} {c : Config W}

theorem FExec.of_frunActs {tr : Trace V W} {f f' : FState w V W} {acts : List (Act V W)} {evs : Trace V W}
    (h : FExec c tr f) (hr : frunActs c f acts = some (f', evs)) : FExec c (tr ++ evs) f' := by
  induction acts generalizing tr f evs with
  | nil =>
    simp only [frunActs, Option.some.injEq, Prod.mk.injEq] at hr
    obtain ⟨rfl, rfl⟩ := hr
    simpa using h
  | cons a as ih =>
    simp only [frunActs, Option.bind_eq_bind, Option.bind_eq_some_iff, Option.pure_def, Option.some.injEq, Prod.exists,
      Prod.mk.injEq] at hr
    obtain ⟨s1, e1, h1, s2, e2, h2, rfl, rfl⟩ := hr
    rw [← List.append_assoc]
    exact ih (h.step h1) h2

theorem frunActs_append {f f1 f2 : FState w V W} {as bs : List (Act V W)} {e1 e2 : Trace V W}
    (h1 : frunActs c f as = some (f1, e1)) (h2 : frunActs c f1 bs = some (f2, e2)) :
    frunActs c f (as ++ bs) = some (f2, e1 ++ e2) := by
  induction as generalizing f e1 with
  | nil =>
    simp only [frunActs, Option.some.injEq, Prod.mk.injEq] at h1
    obtain ⟨rfl, rfl⟩ := h1
    simpa using h2
  | cons a as ih =>
    simp only [frunActs, Option.bind_eq_bind, Option.bind_eq_some_iff, Option.pure_def, Option.some.injEq, Prod.exists,
      Prod.mk.injEq] at h1
    obtain ⟨s1, e3, h3, s2, e4, h4, rfl, rfl⟩ := h1
    simp only [List.cons_append, frunActs, h3, Option.bind_eq_bind, Option.bind_some, ih h4, Option.pure_def,
      List.append_assoc]

theorem frunActs_one {f f1 : FState w V W} {a : Act V W} {e : Trace V W} (h : fstep c f a = some (f1, e)) :
    frunActs c f [a] = some (f1, e) := by
  simp [frunActs, h]

/-- A step of the wait queue as a step of the channel. -/
theorem fstep_queueCall {f : FState w V W} {act : Act V W} {qact : Queue.Act W}
    {k : State w V W → List (Queue.Event W) → Out w V W} (hq : queueCall c f.ch act = some (qact, k))
    {q : Queue.FState W} {qevs : Queue.Trace W} (hs : Queue.fstep c.queue f.queue qact = some (q, qevs)) :
    fstep c f act = some (⟨(k (f.ch.setQueue q.q) qevs).1, q.half⟩, qevs.map .queue ++ (k (f.ch.setQueue q.q) qevs).2) := by
  unfold fstep
  rw [hq]
  simp only [hs, Option.map_some]
  rfl

/-- A step with the one-step dequeue is one or two steps with the two-step dequeue. -/
theorem FExec.expand {tr : Trace V W} {s s' : State w V W} {act : Act V W} {evs : Trace V W}
    (hf : FExec c tr ⟨s, none⟩) (hs : Chan.step c s act = some (s', evs)) :
    ∃ k evs', k ≤ 2 ∧ frunActs c ⟨s, none⟩ (List.replicate k act) = some (⟨s', none⟩, evs') ∧ quiet evs' = quiet evs := by
  cases hq : queueCall c s act with
  | none =>
    refine ⟨1, evs, by omega, frunActs_one ?_, rfl⟩
    unfold fstep
    simp only [hq, hs, Option.map_some]
  | some r =>
    obtain ⟨qact, k⟩ := r
    have ok := queueCall_ok hq
    rw [step_queueCall hq, onQueue] at hs
    cases hst : Queue.step c.queue s.queue qact with
    | none => rw [hst] at hs; cases hs
    | some r =>
      obtain ⟨q', qevs⟩ := r
      rw [hst] at hs
      simp only [Option.some.injEq, Prod.mk.injEq] at hs
      obtain ⟨h1, h2⟩ := hs
      change (k (s.setQueue q') qevs).1 = s' at h1
      change qevs.map Ev.queue ++ (k (s.setQueue q') qevs).2 = evs at h2
      rcases hf.queue.expandStep hst with h3 | ⟨o, t, spur, f1, e1, e2, rfl, h3, h4, h5, h6, h7⟩
      · refine ⟨1, evs, by omega, frunActs_one ?_, rfl⟩
        rw [fstep_queueCall (f := ⟨s, none⟩) hq h3, h1, h2]
      · have g1 := fstep_queueCall (f := ⟨s, none⟩) hq h3
        have hov : opOver e1 = false := by rw [← opOver_quiet, h5]; rfl
        have hov' : opOver e2 = false := by rw [← opOver_quiet, h7]; rfl
        rw [ok.stay o spur rfl _ e1 hov] at g1
        simp only [List.append_nil] at g1
        have hq2 : queueCall c (s.setQueue f1.q) act = some (.op o spur, k) := by rw [queueCall_queue, hq]
        have g2 := fstep_queueCall (f := ⟨s.setQueue f1.q, f1.half⟩) hq2 (qevs := e2) (q := ⟨q', none⟩) h4
        rw [ok.stay o spur rfl _ e2 hov', setQueue_setQueue] at g2
        simp only [List.append_nil] at g2
        have e3 : k (s.setQueue q') qevs = (s.setQueue q', []) := by
          rw [← ok.quiet, ← h6, ok.quiet]
          exact ok.stay o spur rfl _ e1 hov
        rw [e3] at h1 h2
        simp only [List.append_nil] at h1 h2
        subst h1 h2
        refine ⟨2, _, by omega, frunActs_append (as := [act]) (frunActs_one g1) (frunActs_one g2), ?_⟩
        rw [quiet_append, quiet_queue, quiet_queue, quiet_queue, h7, h6]
        simp

theorem FExec.expands {tr : Trace V W} {s s' : State w V W} {acts : List (Act V W)} {evs : Trace V W}
    (hf : FExec c tr ⟨s, none⟩) (hs : runActs c s acts = some (s', evs)) :
    ∃ acts' evs', acts'.length ≤ 2 * acts.length ∧ (∀ a ∈ acts', a ∈ acts) ∧
      frunActs c ⟨s, none⟩ acts' = some (⟨s', none⟩, evs') ∧ quiet evs' = quiet evs := by
  induction acts generalizing tr s evs with
  | nil =>
    simp only [runActs, Option.some.injEq, Prod.mk.injEq] at hs
    obtain ⟨rfl, rfl⟩ := hs
    exact ⟨[], [], by simp, by simp, rfl, rfl⟩
  | cons a as ih =>
    simp only [runActs, Option.bind_eq_bind, Option.bind_eq_some_iff, Option.pure_def, Option.some.injEq, Prod.exists,
      Prod.mk.injEq] at hs
    obtain ⟨s1, e1, h1, s2, e2, h2, rfl, rfl⟩ := hs
    obtain ⟨k, e1', h3, h4, h5⟩ := hf.expand h1
    obtain ⟨as', e2', h6, h7, h8, h9⟩ := ih (hf.of_frunActs h4) h2
    refine ⟨List.replicate k a ++ as', e1' ++ e2', ?_, ?_, frunActs_append h4 h8, ?_⟩
    · simp; omega
    · intro x hx
      rcases List.mem_append.1 hx with hx | hx
      · rw [(List.mem_replicate.1 hx).2]; simp
      · exact List.mem_cons_of_mem _ (h7 x hx)
    · rw [quiet_append, quiet_append, h5, h9]

/-- Every execution with the one-step dequeue is one with the two-step dequeue. -/
theorem ExecM.fine {tr : Trace V W} {s : State w V W} (h : Exec c tr s) :
    ∃ tr', FExec c tr' ⟨s, none⟩ ∧ quiet tr' = quiet tr := by
  induction h with
  | stale hm => cases hm
  | mem _ _ hm => cases hm
  | init => exact ⟨[], .init, rfl⟩
  | step _ hs ih =>
    obtain ⟨tr', h1, h2⟩ := ih
    obtain ⟨k, evs', _, h3, h4⟩ := h1.expand hs
    exact ⟨tr' ++ evs', h1.of_frunActs h3, by rw [quiet_append, quiet_append, h2, h4]⟩

/-- The steps with the two-step dequeue, as steps with the one-step dequeue: the same, without some second halves. -/
theorem FExec.frun_sim {acts : List (Act V W)} {tr : Trace V W} {f f' : FState w V W} {evs : Trace V W} (h : FExec c tr f)
    (hr : frunActs c f acts = some (f', evs)) : ∃ acts' evs', runActs c f.abs acts' = some (f'.abs, evs') ∧ quiet evs' = quiet evs ∧
      ∀ own : Act V W → Bool, (∀ o spur, own (.rx o spur) = false) → (∀ a spur, own (.recvNotifyRun a spur) = false) →
        acts'.countP own = acts.countP own := by
  induction acts generalizing tr f evs with
  | nil =>
    simp only [frunActs, Option.some.injEq, Prod.mk.injEq] at hr
    obtain ⟨rfl, rfl⟩ := hr
    exact ⟨[], [], rfl, rfl, fun _ _ _ => rfl⟩
  | cons a as ih =>
    simp only [frunActs, Option.bind_eq_bind, Option.bind_eq_some_iff, Option.pure_def, Option.some.injEq, Prod.exists,
      Prod.mk.injEq] at hr
    obtain ⟨s1, e1, h1, s2, e2, h2, rfl, rfl⟩ := hr
    obtain ⟨as', e2', h3, h4, h5⟩ := ih (h.step h1) h2
    rcases h.match_step h1 with ⟨h6, h7, h8⟩ | ⟨e1', h6, h7⟩
    · refine ⟨as', e2', by rw [← h6]; exact h3, by rw [quiet_append, h7, h4]; rfl, fun own k1 k2 => ?_⟩
      rw [h5 own k1 k2]
      rcases h8 with ⟨o, spur, rfl⟩ | ⟨b, spur, rfl⟩
      · rw [List.countP_cons, k1]; rfl
      · rw [List.countP_cons, k2]; rfl
    · refine ⟨a :: as', e1' ++ e2', runActs_cons h6 h3, by rw [quiet_append, quiet_append, h7, h4], fun own k1 k2 => ?_⟩
      rw [List.countP_cons, List.countP_cons, h5 own k1 k2]

/-- The dequeue in progress, if any, can be completed. -/
theorem FExec.settle {tr : Trace V W} {f : FState w V W} (h : FExec c tr f) :
    ∃ (acts : List (Act V W)) (evs : Trace V W), acts.all Act.goesOn = true ∧ frunActs c f acts = some (⟨f.abs, none⟩, evs) ∧ quiet evs = [] := by
  obtain ⟨tr', he, -⟩ := h.sim
  obtain ⟨s, half⟩ := f
  cases half with
  | none => exact ⟨[], [], rfl, rfl, rfl⟩
  | some p =>
    obtain ⟨o, t⟩ := p
    obtain ⟨qtr, hsim⟩ := h.queue.sim
    have g : Queue.Gap s.queue o t := hsim.gap o t rfl
    have hst : ∀ spur, Queue.fstep c.queue ⟨s.queue, some (o, t)⟩ (.op o spur) =
        some (⟨Queue.deqDone s.queue o t, none⟩, .touch (.op o) t :: (s.queue.list.node t).prev.toList.map (.touch (.op o))) := by
      intro spur
      simp only [Queue.fstep, if_true, g.rest]
    have hq : Queue.quiet (W := W) (.touch (.op o) t :: (s.queue.list.node t).prev.toList.map (.touch (.op o))) = [] :=
      Queue.quiet_touch (.op o) (t :: (s.queue.list.node t).prev.toList)
    have hk : ∃ k, queueKind ((FState.abs ⟨s, some (o, t)⟩ : State w V W).queue.pc (.op o)) = some k := by
      simp only [FState.abs, FState.queue, Queue.FState.abs, Queue.deqDone, Queue.State.goto]
      rcases Queue.PC.deqState_cases g.pc with hp | hp <;> rw [hp] <;>
        cases (s.queue.list.node t).waiter <;> simp [Queue.afterDeq, queueKind]
    have fin : ∀ act : Act V W, act.goesOn = true → ∀ k, queueCall c s act = some (.op o false, k) →
        ∃ (acts : List (Act V W)) (evs : Trace V W), acts.all Act.goesOn = true ∧
          frunActs c ⟨s, some (o, t)⟩ acts = some (⟨FState.abs ⟨s, some (o, t)⟩, none⟩, evs) ∧ quiet evs = [] := by
      intro act ha k hc
      have ok := queueCall_ok hc
      have g1 := fstep_queueCall (f := ⟨s, some (o, t)⟩) hc (hst false)
      rw [ok.stay o false rfl _ _ (by rw [← opOver_quiet, hq]; rfl)] at g1
      refine ⟨[act], _, by simp [ha], frunActs_one g1, ?_⟩
      rw [List.append_nil, quiet_queue, hq]
      rfl
    obtain ⟨k, hk⟩ := hk
    obtain ⟨x, hx⟩ := he.queueOwns.cov o k hk
    cases x with
    | snd j => cases hx
    | closer => cases hx
    | rx =>
      simp only [queueClaim, claimOf] at hx
      rw [show (FState.abs ⟨s, some (o, t)⟩ : State w V W).rx = s.rx from rfl] at hx
      cases hp : s.rx <;> rw [hp] at hx <;> cases hx
      exact fin (.rx 0 false) rfl _ (by simp only [queueCall, hp]; rfl)
    | ref a =>
      simp only [queueClaim, claimOf] at hx
      rw [show (FState.abs ⟨s, some (o, t)⟩ : State w V W).ref = s.ref from rfl] at hx
      cases hp : s.ref a <;> rw [hp] at hx <;> cases hx
      exact fin (.recvNotifyRun a false) rfl _ (by simp only [queueCall, hp]; rfl)

/-- What the channel can do with the one-step dequeue, it can do with the two-step dequeue. -/
theorem FExec.follow {tr : Trace V W} {f : FState w V W} (h : FExec c tr f) {acts : List (Act V W)} {s' : State w V W} {evs : Trace V W}
    (ha : acts.all Act.goesOn = true) (hr : runActs c f.abs acts = some (s', evs)) :
    ∃ (acts' : List (Act V W)) (evs' : Trace V W), acts'.all Act.goesOn = true ∧ frunActs c f acts' = some (⟨s', none⟩, evs') ∧ quiet evs' = quiet evs := by
  obtain ⟨as, es, h1, h2, h3⟩ := h.settle
  obtain ⟨as', es', _, h4, h5, h6⟩ := (h.of_frunActs h2).expands hr
  refine ⟨as ++ as', es ++ es', ?_, frunActs_append h2 h5, by rw [quiet_append, h3, h6]; rfl⟩
  rw [List.all_append, h1, Bool.true_and, List.all_eq_true]
  exact fun a hm => List.all_eq_true.1 ha a (h4 a hm)

end Thingbuf.Chan
