import Verif.ChanSeqCalls
/-!
# Sequential use of the channel: the receiver, and the drops
-/

namespace Thingbuf.Chan

open Queue (QSt)

variable {w : Nat} {V W : Type} {c : Config W} {s : State w V W} {σ : Spec V W} {i j k a : Nat} {fs : Nat → Prop} {env : Env V}
  {u : Option W} {v : V} {Q : State w V W → List (Obs V W) → Nat → Prop}

/-! ## A message is received -/

/-- The drop of a `RecvRef` ends with the notification of a sender. -/
theorem Rel.notifyTx (he : env.Calm) (h : Rel c s σ i σ.keys) (hrx : σ.rx = true) (ha : a < i) :
    Then c (refNext env a) Here { s with ref := upd s.ref a .toNotify, refs := [a] } i
      fun s' o j => o = σ.freed.2 ∧ Rel c s' σ.freed.1 j σ.keys := by
  obtain ⟨hq1, hq2⟩ := h.qopen hrx
  have hop := h.queue.ops i (Nat.le_refl _)
  refine Then.step (act := .recvNotify a i) (s1 := { s with queue := { s.queue.goto (.op i) .nLoad with borrows := i :: s.queue.borrows }, ref := upd s.ref a (.notifying i), refs := [a] })
    (e1 := [.queue (.callNotify i)]) (by simp [refNext])
    (by simp [step, onQueue, Queue.step, hop, hq2, State.refgoto, upd_upd]) ?_
  have lift : ∀ {qs : Queue.State W} {j : Nat} {ws : List W} {σ' : Spec V W},
      QRun c.queue (fun j => .op i (env.spur j)) opRet { s.queue.goto (.op i) .nLoad with borrows := i :: s.queue.borrows } (i + 1) qs ws () j →
      i ≤ j → Rel c { s with queue := qs } σ' j σ.keys → ws.map .woke = σ.freed.2 → σ' = σ.freed.1 →
      Then c (refNext env a) Here { s with queue := { s.queue.goto (.op i) .nLoad with borrows := i :: s.queue.borrows }, ref := upd s.ref a (.notifying i), refs := [a] } (i + 1)
        fun s' o j => obs [Ev.queue (V := V) (Queue.Event.callNotify i)] ++ o = σ.freed.2 ∧ Rel c s' σ.freed.1 j σ.keys := by
    intro qs j ws σ' hj hij h1 hws hσ
    subst hσ
    refine Then.queue (s := { s with ref := upd s.ref a (.notifying i), refs := [a] }) (after := afterRecvNotify a)
      (fin' := fun s _ => (s.refEnd a, [.api (.dropRecvEnd a)])) ?_ ?_ ?_ hj (Then.here ?_ ⟨?_, ?_⟩)
    · intro cs j
      exact ⟨.recvNotifyRun a (env.spur j), by simp [refNext], by simp [step]⟩
    · intro t e he
      simp only [opRet] at he
      cases hn : opOver e <;> simp_all [afterRecvNotify]
    · intro t e r he
      simp only [opRet] at he
      cases hn : opOver e <;> simp_all [afterRecvNotify]
    · simp [refNext, State.refEnd, State.refgoto]
    · rw [hws]; exact List.append_nil _
    · exact { h1 with
        refs := by simp [State.refEnd, State.refgoto]
        ref := fun b hb => by
          have : b ≠ a := by omega
          simp only [State.refEnd, State.refgoto, upd_ne _ _ this]
          exact h.ref b (by omega) }
  cases hwt : σ.waiting with
  | nil =>
    have hq := h.queue
    rw [hwt] at hq
    obtain ⟨qs, j, hj, hij, hq3, hq4, hq5⟩ := hq.notify_store (c := c.queue) (spur := env.spur) (st := σ.stored) (o := i) (i := i + 1)
      he (by rw [hq1, hwt]) (by omega) (by omega)
    have e : σ.freed = ({ σ with stored := true }, []) := by simp [Spec.freed, hwt]
    rw [e] at lift
    rw [e]
    refine lift hj (by omega) ?_ rfl rfl
    have h1 := h.mono (j := j) (by omega)
    exact { h1 with
      queue := by show QAt _ σ.waiting _ _ _ _; rw [hwt]; exact hq3
      qopen := fun _ => ⟨by show qs.st = qst σ.waiting true; rw [hq4, hwt]; rfl, hq5.trans hq2⟩
      stored := fun hh => absurd hwt hh }
  | cons y l =>
    obtain ⟨m, x⟩ := y
    have hq := h.queue
    rw [hwt] at hq
    obtain ⟨hst, _⟩ := h.stored (by rw [hwt]; simp)
    obtain ⟨qs, j, hj, hij, hq3, hq4, hq5⟩ := hq.notify_wake (c := c.queue) (spur := env.spur) (o := i) (i := i + 1)
      (by rw [hq1, hwt]; rfl) (by omega) (by omega)
    have e : σ.freed = ({ σ with waiting := l }, [.woke x]) := by simp [Spec.freed, hwt]
    rw [e] at lift
    rw [e]
    refine lift hj (by omega) ?_ rfl rfl
    have h1 := h.mono (j := j) (by omega)
    exact { h1 with
      queue := hq3
      qopen := fun _ => ⟨by show qs.st = qst l σ.stored; rw [hq4, hst], hq5.trans hq2⟩
      stored := fun _ => ⟨hst, hrx⟩ }

/-- A pop returned a message; it is taken out of the slot and the `RecvRef` is dropped. -/
theorem Rel.take_msg (he : env.Calm) {H : Nat} {x : V} {l : List V} (h : Rel c s σ i σ.keys) (hm : σ.msgs = x :: l)
    (hc : CoreAt w c.cap s.core H (x :: l) σ.closed i) (hrx : σ.rx = true) (ha : a < i) {p : Option W}
    {rest : State w V W} (hrest : rest = { s with
      core := { s.core.goto a (.popHeld (H % c.cap) (enc w c.cap (H + c.cap))) with head := enc w c.cap (H + 1) },
      rx := .idle p, ref := upd s.ref a .held, refs := [a] }) :
    ∃ s' e j, ThenTake c env rest i s' e j ∧ obs e = .got (some x) :: { σ with msgs := l }.freed.2 ∧
      Rel c s' { σ with msgs := l }.freed.1 j σ.keys := by
  let core' : Thingbuf.State w V := { s.core.goto a .done with
    head := enc w c.cap (H + 1), st := upd s.core.st (H % c.cap) (enc w c.cap (H + c.cap)),
    val := upd s.core.val (H % c.cap) (some (env.junk i)) }
  have hc' : CoreAt w c.cap core' (H + 1) l σ.closed (i + 1) := by
    refine hc.popped rfl rfl rfl ?_ ?_
    · intro m hm
      simp [core', upd_ne _ _ hm]
    · intro b hb
      have : b ≠ a := by omega
      show (s.core.goto a .done).pc b = _
      rw [goto_pc_ne _ _ this]
      exact hc.fresh b (by omega)
  have h1 : Rel c { s with core := core', rx := .idle p } { σ with msgs := l } (i + 1) σ.keys := by
    have := h.mono (j := i + 1) (by omega)
    exact { this with
      core := ⟨_, hc'⟩
      rx := by simp only [hrx, if_true]; exact ⟨p, rfl⟩ }
  have hx : s.core.val (H % c.cap) = some x := by
    have := (hc.busy 0 (by simp)).2
    exact this
  obtain ⟨s', e, j, hst, ho, hr⟩ := (Rel.notifyTx (env := env) (a := a) he h1 hrx (by omega)).steps
  refine ⟨s', _, j, .take (a := a) (l := []) (s1 := rest) (e1 := [.core (.access a (H % c.cap) (.read (some x)))])
    (s2 := { rest with core := { rest.core with val := upd s.core.val (H % c.cap) (some (env.junk i)) } })
    (e2 := [.core (.access a (H % c.cap) (.write (env.junk i)))])
    (by rw [hrest]) ?_ ?_ ⟨_, [.core (.release a (H % c.cap) (some (env.junk i))), .api (.dropRecv a)], _, ?_, hst, rfl⟩, ?_, hr⟩
  · subst hrest
    simp [step, onCore, Thingbuf.step, Thingbuf.State.goto, hx]
  · subst hrest
    simp [step, onCore, Thingbuf.step, Thingbuf.State.goto]
  · subst hrest
    simp [step, onCore, Thingbuf.step, Thingbuf.State.goto, core', State.refgoto, upd_upd]
  · simp only [obs_append, ho]
    rfl

/-- The receiver is in a pop. -/
def State.popping (s : State w V W) (a : Nat) (r : RPC W) : State w V W :=
  { s with core := s.core.goto a .popStart, rx := r }

/-- A pop by the receiver. -/
theorem Then.pop {r : RPC W} {after : State w V W → Option Ret → Out w V W} {fin : State w V W → Nat → State w V W → Trace V W → Nat → Prop}
    (hr : ∀ (t : State w V W) (j : Nat), t.rx = r → ∃ A, rxNext env t j = some A ∧ Chan.step c t A = onCore c t (popAct env a t.core j) after)
    (hnone : ∀ t, after t none = (t, [])) {cs : Thingbuf.State w V} {ret : Ret}
    (h : CoreRun c.cap (popAct env a) (s.core.goto a .popStart) i cs ret j)
    (ht : Then c (rxNext env) fin (after { s with core := cs, rx := r } (some ret)).1 j
      fun s' o j => Q s' (obs (after { s with core := cs, rx := r } (some ret)).2 ++ o) j) :
    Then c (rxNext env) fin (s.popping a r) i Q :=
  Then.core (s := { s with rx := r }) (after := after) (fun cs j => hr { s with core := cs, rx := r } j rfl) hnone h ht

theorem Rel.tryRecv (hw : WellSized w c.cap) (he : env.Calm) (h : Rel c s σ i σ.keys) (hrx : σ.rx = true)
    {σ' : Spec V W} {o : List (Obs V W)} (hs : σ.step c.cap c.queue.same .tryRecv = some (σ', o)) :
    CallOk c env s i σ.next .tryRecv σ' o := by
  obtain ⟨H, hc⟩ := h.core
  obtain ⟨p, hp⟩ : ∃ p, s.rx = .idle p := by have := h.rx; simpa [hrx] using this
  have hf := hc.fresh i (Nat.le_refl _)
  have hstep : step c s (.tryRecv i) = some (s.popping i (.tryPop i p), [.core (.invoke i .pop), .api .callTry]) := by
    simp [step, hp, onCore, Thingbuf.step, hf, State.popping, State.rgoto, startPC]
  have hnext : ∀ (t : State w V W) (j : Nat), t.rx = .tryPop i p → ∃ A, rxNext env t j = some A ∧
      step c t A = onCore c t (popAct env i t.core j) (afterTry i p) := by
    intro t j ht
    exact ⟨.rx j (spurAt t.core i (env.spur j)), by simp only [rxNext, ht], by simp [step, rxStep, ht, popAct]⟩
  have key : Then c (rxNext env) (ThenTake c env) (s.popping i (.tryPop i p)) (i + 1)
      fun s' o' j => o' = o ∧ Rel c s' σ' j σ'.keys ∧ σ'.next = σ.next := by
    simp only [Spec.step, hrx, if_true] at hs
    cases hm : σ.msgs with
    | cons x l =>
      rw [hm] at hc
      obtain ⟨j, hj, hij⟩ := CoreAt.pop_ok (a := i) (i := i + 1) hw hc he
      simp only [hm, Option.some.injEq, Prod.mk.injEq] at hs
      refine Then.pop hnext (fun _ => rfl) hj ?_
      have h1 := h.mono (j := j) (by omega)
      obtain ⟨s', e, j', h2, h3, h4⟩ := Rel.take_msg (a := i) (p := p) he h1 hm (hc.mono (by omega)) hrx (by omega) rfl
      have e0 : afterTry i p { s with core := { s.core.goto i (.popHeld (H % c.cap) (enc w c.cap (H + c.cap))) with head := enc w c.cap (H + 1) }, rx := .tryPop i p } (some .popped)
          = ({ s with core := { s.core.goto i (.popHeld (H % c.cap) (enc w c.cap (H + c.cap))) with head := enc w c.cap (H + 1) }, rx := .idle p, ref := upd s.ref i .held, refs := [i] }, [.api (.retTry (.ok i))]) := by
        simp [afterTry, State.newRef, State.refgoto, State.rgoto, h.refs]
      rw [e0]
      refine Then.stop (by simp [rxNext]) h2 ⟨?_, ?_⟩
      · rw [← hs.2, h3, hrx]; rfl
      · have e1 : ({ σ with msgs := l } : Spec V W).freed.1 = σ' := by rw [← hs.1, hrx]
        have e2 : σ'.keys = σ.keys ∧ σ'.next = σ.next := by
          rw [← e1]; unfold Spec.freed; constructor <;> split <;> rfl
        rw [e2.1]
        exact ⟨e1 ▸ h4, e2.2⟩
    | nil =>
      rw [hm] at hc
      obtain ⟨j, hj, hij⟩ := CoreAt.pop_none (a := i) (i := i + 1) (env := env) hw hc
      simp only [hm, Option.some.injEq, Prod.mk.injEq] at hs
      refine Then.pop hnext (fun _ => rfl) hj ?_
      have h1 : Rel c { s with core := s.core.goto i .done, rx := .idle p } σ j σ.keys := by
        have := (h.mono (j := j) (by omega)).setCore (H := H) (cs := s.core.goto i .done)
          (by rw [hm]; exact hc.goto (by omega) (by omega))
        exact { this with rx := by simp only [hrx, if_true]; exact ⟨p, rfl⟩ }
      have e1 : σ' = σ := hs.1.symm
      rw [e1]
      cases hcl : σ.closed with
      | true =>
        refine Then.stop (by simp [rxNext, afterTry, State.rgoto]) (.skip (by simp [afterTry, State.rgoto, h.refs])) ⟨?_, h1, rfl⟩
        rw [← hs.2, hcl]; rfl
      | false =>
        refine Then.stop (by simp [rxNext, afterTry, State.rgoto]) (.skip (by simp [afterTry, State.rgoto, h.refs])) ⟨?_, h1, rfl⟩
        rw [← hs.2, hcl]; rfl
  obtain ⟨t1, f1, j1, t2, f2, j2, h1, h2, o', ⟨rfl, h3, h4⟩, h5⟩ := Then.begins hstep key
  exact ⟨t2, f1 ++ f2, j2, .tryRecv h1 h2, h5, h3, h4⟩

theorem Rel.recv (hw : WellSized w c.cap) (he : env.Calm) (h : Rel c s σ i σ.keys) (hrx : σ.rx = true) (x : W)
    {σ' : Spec V W} {o : List (Obs V W)} (hs : σ.step c.cap c.queue.same (.recv x) = some (σ', o)) :
    CallOk c env s i σ.next (.recv x) σ' o := by
  obtain ⟨H, hc⟩ := h.core
  obtain ⟨p, hp⟩ : ∃ p, s.rx = .idle p := by have := h.rx; simpa [hrx] using this
  have hf := hc.fresh (i + 1) (by omega)
  have hstep : step c s (.poll x) = some ({ s with rx := .toPop x }, [.api (.callPoll x)]) := by
    simp [step, hp, State.rgoto]
  have key : Then c (rxNext env) (ThenTake c env) { s with rx := .toPop x } (i + 1)
      fun s' o' j => o' = o ∧ Rel c s' σ' j σ'.keys ∧ σ'.next = σ.next := by
    refine Then.step (act := .rx (i + 1) (env.spur (i + 1))) (s1 := s.popping (i + 1) (.pop (i + 1) x)) (e1 := [.core (.invoke (i + 1) .pop)])
      (by simp [rxNext]) (by simp [step, rxStep, onCore, Thingbuf.step, hf, State.popping, State.rgoto, startPC]) ?_
    have hnext : ∀ (t : State w V W) (j : Nat), t.rx = .pop (i + 1) x → ∃ A, rxNext env t j = some A ∧
        step c t A = onCore c t (popAct env (i + 1) t.core j) (afterPop (i + 1) x) := by
      intro t j ht
      exact ⟨.rx j (spurAt t.core (i + 1) (env.spur j)), by simp only [rxNext, ht], by simp [step, rxStep, ht, popAct]⟩
    simp only [Spec.step, hrx, if_true] at hs
    cases hm : σ.msgs with
    | cons y l =>
      rw [hm] at hc
      obtain ⟨j, hj, hij⟩ := CoreAt.pop_ok (a := i + 1) (i := i + 1 + 1) hw hc he
      simp only [hm, Option.some.injEq, Prod.mk.injEq] at hs
      refine Then.pop hnext (fun _ => rfl) hj ?_
      have h1 := h.mono (j := j) (by omega)
      obtain ⟨s', e, j', h2, h3, h4⟩ := Rel.take_msg (a := i + 1) (p := none) he h1 hm (hc.mono (by omega)) hrx (by omega) rfl
      have e0 : afterPop (i + 1) x { s with core := { s.core.goto (i + 1) (.popHeld (H % c.cap) (enc w c.cap (H + c.cap))) with head := enc w c.cap (H + 1) }, rx := .pop (i + 1) x } (some .popped)
          = ({ s with core := { s.core.goto (i + 1) (.popHeld (H % c.cap) (enc w c.cap (H + c.cap))) with head := enc w c.cap (H + 1) }, rx := .idle none, ref := upd s.ref (i + 1) .held, refs := [i + 1] }, [.api (.retPoll (.some (i + 1)))]) := by
        simp [afterPop, gotMessage, State.newRef, State.refgoto, State.rgoto, h.refs]
      rw [e0]
      refine Then.stop (by simp [rxNext]) h2 ⟨?_, ?_⟩
      · rw [← hs.2, h3, hrx]; rfl
      · have e1 : ({ σ with msgs := l } : Spec V W).freed.1 = σ' := by rw [← hs.1, hrx]
        have e2 : σ'.keys = σ.keys ∧ σ'.next = σ.next := by
          rw [← e1]; unfold Spec.freed; constructor <;> split <;> rfl
        rw [e2.1]
        exact ⟨e1 ▸ h4, e2.2⟩
    | nil =>
      rw [hm] at hc
      obtain ⟨j, hj, hij⟩ := CoreAt.pop_none (a := i + 1) (i := i + 1 + 1) (env := env) hw hc
      simp only [hm] at hs
      refine Then.pop hnext (fun _ => rfl) hj ?_
      have hc1 : CoreAt w c.cap (s.core.goto (i + 1) .done) H [] σ.closed j := hc.goto (by omega) (by omega)
      have h1 : ∀ r, (∃ p, r = .idle p) → Rel c { s with core := s.core.goto (i + 1) .done, rx := r } σ j σ.keys := by
        rintro r ⟨p, rfl⟩
        have := (h.mono (j := j) (by omega)).setCore (H := H) (cs := s.core.goto (i + 1) .done)
          (by rw [hm]; exact hc1)
        exact { this with rx := by simp only [hrx, if_true]; exact ⟨p, rfl⟩ }
      cases hcl : σ.closed with
      | true =>
        simp only [hcl, if_true, Option.some.injEq, Prod.mk.injEq] at hs
        have e1 : σ' = σ := hs.1.symm
        rw [e1]
        refine Then.stop (by simp [rxNext, afterPop, State.rgoto]) (.skip (by simp [afterPop, State.rgoto, h.refs])) ⟨?_, h1 _ ⟨none, rfl⟩, rfl⟩
        rw [← hs.2]; rfl
      | false =>
        simp only [hcl, Bool.false_eq_true, if_false, Option.some.injEq, Prod.mk.injEq] at hs
        have hsn : σ.senders ≠ [] := by
          intro hh
          have := h.closed.2 (.inl hh)
          rw [hcl] at this; cases this
        have e0 : afterPop (i + 1) x { s with core := s.core.goto (i + 1) .done, rx := .pop (i + 1) x } (some .empty) =
            ({ s with core := s.core.goto (i + 1) .done, rx := .toWait x }, []) := rfl
        simp only [Bool.false_eq_true, if_false, e0]
        have hce := h.cell
        rw [if_neg hsn] at hce
        have hf2 : s.cell.pc j = .idle := hce.fresh j (by omega)
        -- `wait_with`
        refine Then.step (act := .rx j (env.spur j)) (s1 := { s with core := s.core.goto (i + 1) .done, cell := s.cell.goto j .waitStart, rx := .wait j x })
          (e1 := [.cell (.callWait j)]) (by simp [rxNext]) (by simp [step, rxStep, onCell, Cell.step, hf2, State.rgoto]) ?_
        obtain ⟨j2, hj2, hij2⟩ := CellRun.wait (c := c.cell) (o := j) hce.lock x (j + 1)
        refine Then.cell (s := { s with core := s.core.goto (i + 1) .done, rx := .wait j x }) (after := afterWait x)
          (fin' := fun s r => match r with
            | .wait => (s.rgoto (.toPop2 x), [])
            | .closed => (s.rgoto .toLast, [])
            | .notified => (s.rgoto (.toPop x), [])
            | .panicked => (s.rgoto (.idle none), [])) ?_ ?_ ?_ hj2 ?_
        · intro cs m
          exact ⟨.rx m (env.spur m), by simp [rxNext], by simp only [step, rxStep]; rfl⟩
        · intro t e hn
          simp [afterWait, hn]
        · intro t e r hn
          simp only [afterWait, hn]
          cases r <;> rfl
        -- the second pop
        have hf3 : (s.core.goto (i + 1) .done).pc j2 = .idle := hc1.fresh j2 (by omega)
        let t : State w V W := { s with core := s.core.goto (i + 1) .done, cell := { s.cell.goto j .done with waiter := some x }, rx := .toPop2 x }
        refine Then.step (s1 := t.popping j2 (.pop2 j2 x)) (act := .rx j2 (env.spur j2)) (e1 := [.core (.invoke j2 .pop)])
          (by simp [rxNext, State.rgoto]) (by simp [step, rxStep, onCore, Thingbuf.step, hf3, State.popping, State.rgoto, startPC, t]) ?_
        have hnext2 : ∀ (t : State w V W) (j : Nat), t.rx = .pop2 j2 x → ∃ A, rxNext env t j = some A ∧
            step c t A = onCore c t (popAct env j2 t.core j) (afterPop2 j2 x) := by
          intro t j ht
          exact ⟨.rx j (spurAt t.core j2 (env.spur j)), by simp only [rxNext, ht], by simp [step, rxStep, ht, popAct]⟩
        have hc2 : CoreAt w c.cap t.core H [] σ.closed j2 := hc1.mono (by omega)
        obtain ⟨j3, hj3, hij3⟩ := CoreAt.pop_none (a := j2) (i := j2 + 1) (env := env) hw hc2
        simp only [hcl, Bool.false_eq_true, if_false] at hj3
        refine Then.pop hnext2 (fun _ => rfl) hj3 (Then.stop (by simp [rxNext, afterPop2, State.rgoto])
          (.skip (by simp [afterPop2, State.rgoto, h.refs, t])) ⟨?_, ?_⟩)
        · rw [← hs.2]; rfl
        · rw [← hs.1]
          have h2 := (h1 (.idle (some x)) ⟨_, rfl⟩).mono (j := j3) (by omega)
          refine ⟨?_, rfl⟩
          have hc3 : CoreAt w c.cap (t.core.goto j2 .done) H σ.msgs σ.closed j3 := by
            rw [hm]; exact hc2.goto (by omega) (by omega)
          have h3 : Rel c { t with core := t.core.goto j2 .done, rx := .idle (some x) } { σ with rxWaker := some x } j3 σ.keys := by
            exact { h2 with
              core := ⟨H, hc3⟩
              cell := by
                refine ⟨?_, rfl, ?_⟩
                · exact hce.lock.trans (if_neg hsn).symm
                · intro b hb
                  have : b ≠ j := by omega
                  simpa [t, Cell.State.goto, upd, this] using hce.fresh b (by omega) }
          simp only [hm, hcl, hrx] at h3
          exact h3
  obtain ⟨t1, f1, j1, t2, f2, j2, h1, h2, o', ⟨rfl, h3, h4⟩, h5⟩ := Then.begins hstep key
  exact ⟨t2, f1 ++ f2, j2, .recv h1 h2, h5, h3, h4⟩

/-! ## Drops -/

theorem Rel.dropRx (hw : WellSized w c.cap) (h : Rel c s σ i σ.keys) (hrx : σ.rx = true) :
    CallOk c env s i σ.next .dropRx { σ with rx := false, closed := true, stored := false, waiting := [] }
      (σ.waiting.map fun x => .woke x.2) := by
  obtain ⟨H, hc⟩ := h.core
  obtain ⟨p, hp⟩ : ∃ p, s.rx = .idle p := by have := h.rx; simpa [hrx] using this
  have hf := hc.fresh (i + 1) (by omega)
  have hstep : step c s (.dropRx false) = some ({ s with rx := .toClose false }, [.api (.dropRx false)]) := by
    simp [step, hp, h.refs, State.rgoto]
  have hc1 : CoreAt w c.cap { s.core.goto (i + 1) .done with tail := tailWord w c.cap (H + σ.msgs.length) true } H σ.msgs true (i + 1 + 1 + 1) := by
    have := (hc.goto (a := i + 1) (m := i + 1 + 1 + 1) (p := .done) (by omega) (by omega))
    exact { this with tail := rfl }
  have key : Then c (rxNext env) Here { s with rx := .toClose false } (i + 1)
      fun s' o' j => o' = (σ.waiting.map fun x => .woke x.2) ∧
        Rel c s' { σ with rx := false, closed := true, stored := false, waiting := [] } j σ.keys := by
    refine Then.step (act := .rx (i + 1) (env.spur (i + 1))) (s1 := { s with core := s.core.goto (i + 1) (.closeStart false), rx := .closing (i + 1) })
      (e1 := [.core (.invoke (i + 1) (.close false))])
      (by simp [rxNext]) (by simp [step, rxStep, onCore, Thingbuf.step, hf, State.rgoto, startPC]) ?_
    have hj := CoreAt.close (a := i + 1) (i := i + 1 + 1) hw hc
    refine Then.core (s := { s with rx := .closing (i + 1) }) (after := afterRxClose) ?_ (fun _ => rfl) hj ?_
    · intro cs m
      exact ⟨.rx m (env.spur m), by simp [rxNext], by simp [step, rxStep]⟩
    cases hcl : σ.closed with
    | true =>
      -- all `Sender`s are gone
      have hsn : σ.senders = [] := by
        rcases h.closed.1 hcl with hh | hh
        · exact hh
        · rw [hrx] at hh; cases hh
      have hft : σ.futs = [] := by
        cases hh : σ.futs with
        | nil => rfl
        | cons x l =>
          have := (h.futs x (by rw [hh]; simp)).2
          rw [hsn] at this; cases this
      have hwt : σ.waiting = [] := by
        cases hh : σ.waiting with
        | nil => rfl
        | cons x l =>
          have := h.queue.sub x (by rw [hh]; simp)
          simp [Spec.keys, hft] at this
      refine Then.here (by simp [rxNext, afterRxClose, State.rgoto]) ⟨?_, ?_⟩
      · rw [hwt]; rfl
      · have h1 := h.mono (j := i + 1 + 1 + 1) (by omega)
        exact { h1 with
          core := ⟨H, hc1⟩
          queue := by have := h1.queue; rw [hwt, hcl] at this; exact this
          qopen := fun hh => by cases hh
          stored := fun hh => absurd rfl hh
          rx := rfl
          closed := by simp }
    | false =>
      have hop := h.queue.ops (i + 1 + 1 + 1) (by omega)
      have hq2 := (h.qopen hrx).2
      have hb := h.queue.borrows
      let cs : Thingbuf.State w V := { s.core.goto (i + 1) .done with tail := tailWord w c.cap (H + σ.msgs.length) true }
      refine Then.step (act := .rx (i + 1 + 1 + 1) (env.spur (i + 1 + 1 + 1)))
        (s1 := { s with core := cs, queue := { s.queue.goto (.op (i + 1 + 1 + 1)) .cSwap with rxGone := true }, rx := .qclose (i + 1 + 1 + 1) })
        (e1 := [.queue (.callClose (i + 1 + 1 + 1))])
        (by simp [rxNext, afterRxClose, State.rgoto])
        (by simp [step, rxStep, onQueue, Queue.step, hop, hq2, hb, State.rgoto, afterRxClose, cs]) ?_
      obtain ⟨qs, j, hj2, hij, hq3⟩ := h.queue.close (c := c.queue) (spur := env.spur) (o := i + 1 + 1 + 1) (i := i + 1 + 1 + 1 + 1)
        (by omega) (by omega)
      refine Then.queue (s := { s with core := cs, rx := .qclose (i + 1 + 1 + 1) })
        (after := fun s evs => if opOver evs then (s.rgoto .gone, [.api .rxDropped]) else (s, []))
        (fin' := fun s _ => (s.rgoto .gone, [.api .rxDropped])) ?_ ?_ ?_ hj2 (Then.here ?_ ⟨?_, ?_⟩)
      · intro cs j
        exact ⟨.rx j (env.spur j), by simp [rxNext], by simp [step, rxStep]⟩
      · intro t e he
        simp only [opRet] at he
        cases hn : opOver e <;> simp_all
      · intro t e r he
        simp only [opRet] at he
        cases hn : opOver e <;> simp_all
      · simp [rxNext, State.rgoto]
      · rw [List.map_map]
        exact List.append_nil _
      · have h1 := h.mono (j := j) (by omega)
        exact { h1 with
          core := ⟨H, hc1.mono (by omega)⟩
          queue := hq3
          qopen := fun hh => by cases hh
          stored := fun hh => absurd rfl hh
          rx := rfl
          closed := by simp }
  obtain ⟨t1, f1, j1, h1, o', ⟨rfl, h3⟩, h5⟩ := Then.begins' hstep key
  exact ⟨t1, f1, j1, .dropRx h1, h5, h3, rfl⟩

theorem Rel.dropTx (hb : c.blocking = false) (hw : WellSized w c.cap) (h : Rel c s σ i σ.keys) {m : Nat}
    {σ' : Spec V W} {o : List (Obs V W)} (hs : σ.step c.cap c.queue.same (.dropTx m) = some (σ', o)) :
    CallOk c env s i σ.next (.dropTx m) σ' o := by
  obtain ⟨H, hc⟩ := h.core
  simp only [Spec.step] at hs
  split at hs
  case isFalse => cases hs
  rename_i hm
  obtain ⟨hm1, hm2⟩ := hm
  have hne : σ.senders ≠ [] := by intro hh; rw [hh] at hm1; cases hm1
  have hlen : (σ.senders.erase m).length = σ.senders.length - 1 := List.length_erase_of_mem hm1
  have hpos : 0 < σ.senders.length := List.length_pos_iff.2 hne
  have hcl0 := h.closer
  rw [if_neg hne] at hcl0
  have hce := h.cell
  rw [if_neg hne] at hce
  have hfut : ∀ x ∈ σ.futs, x.1 < σ.next ∧ x.2 ∈ σ.senders.erase m := fun x hx =>
    ⟨(h.futs x hx).1, (List.mem_erase_of_ne (hm2 x hx)).2 (h.futs x hx).2⟩
  split at hs
  case isFalse hx =>
    simp only [Option.some.injEq, Prod.mk.injEq] at hs
    obtain ⟨rfl, rfl⟩ := hs
    have hx' : (σ.senders.erase m).length ≠ 0 := fun hh => hx (List.eq_nil_of_length_eq_zero hh)
    have hstep : step c s (.dropTx m false) = some ({ s with handles := s.handles.erase m, txCount := s.txCount - 1 }, [.api (.dropTx m false)]) := by
      have : s.txCount > 1 := by rw [h.count]; omega
      simp only [step, h.handles, h.calls]
      rw [if_pos ⟨hm1, hm2⟩, if_pos this]
    refine ⟨{ s with handles := s.handles.erase m, txCount := s.txCount - 1 }, [.api (.dropTx m false)], i + 1,
      .dropTx ⟨_, _, _, hstep, .stop (by simp [closerNext, hcl0]), rfl⟩, rfl, ?_, rfl⟩
    have h1 := h.mono (j := i + 1) (by omega)
    exact { h1 with
      cell := by
        have := hce.mono (m := i + 1) (by omega)
        refine ⟨?_, this.waiter, this.fresh⟩
        exact this.lock.trans (if_neg hx).symm
      handles := by show s.handles.erase m = _; rw [h.handles]
      count := by show s.txCount - 1 = (σ.senders.erase m).length; rw [h.count]; omega
      hlt := fun x hx => h.hlt x (List.mem_of_mem_erase hx)
      futs := hfut
      closer := hcl0.trans (if_neg hx).symm
      closed := by
        show σ.closed = true ↔ σ.senders.erase m = [] ∨ σ.rx = false
        rw [h.closed]
        constructor
        · rintro (hh | hh)
          · exact absurd hh hne
          · exact .inr hh
        · rintro (hh | hh)
          · exact absurd hh hx
          · exact .inr hh }
  case isTrue hx =>
    simp only [Option.some.injEq, Prod.mk.injEq] at hs
    obtain ⟨rfl, rfl⟩ := hs
    have hx' : (σ.senders.erase m).length = 0 := by rw [hx]; rfl
    have hf := hc.fresh (i + 1) (by omega)
    have hstep : step c s (.dropTx m false) = some ({ s with handles := s.handles.erase m, txCount := s.txCount - 1, closer := .toClose false }, [.api (.dropTx m false)]) := by
      have : ¬ s.txCount > 1 := by rw [h.count]; omega
      simp only [step, h.handles, h.calls]
      rw [if_pos ⟨hm1, hm2⟩, if_neg this]
    let t : State w V W := { s with handles := s.handles.erase m, txCount := s.txCount - 1 }
    let cs : Thingbuf.State w V := { s.core.goto (i + 1) .done with tail := tailWord w c.cap (H + σ.msgs.length) true }
    have hc1 : CoreAt w c.cap cs H σ.msgs true (i + 1 + 1 + 1) := by
      have := (hc.goto (a := i + 1) (m := i + 1 + 1 + 1) (p := .done) (by omega) (by omega))
      exact { this with tail := rfl }
    have key : Then c closerNext Here { t with closer := .toClose false } (i + 1)
        fun s' o' j => o' = σ.rxWaker.toList.map .woke ∧
          Rel c s' { σ with senders := σ.senders.erase m, closed := true, rxWaker := none } j σ.keys := by
      refine Then.step (act := .closer (i + 1)) (s1 := { t with core := s.core.goto (i + 1) (.closeStart false), closer := .closing (i + 1) })
        (e1 := [.core (.invoke (i + 1) (.close false))])
        (by simp [closerNext]) (by simp [step, closerStep, onCore, Thingbuf.step, hf, startPC, t]) ?_
      have hj := CoreAt.close (a := i + 1) (i := i + 1 + 1) hw hc
      refine Then.core (s := { t with closer := .closing (i + 1) }) (after := afterTxClose c) ?_ (fun _ => rfl) hj ?_
      · intro cs m
        exact ⟨.closer m, by simp [closerNext], by simp [step, closerStep]⟩
      have e0 : ∀ b, afterTxClose c { t with core := cs, closer := .closing (i + 1) } (some (.closeRet b)) =
          ({ t with core := cs, closer := .toCloseTx }, []) := by
        intro b
        cases b
        · simp [afterTxClose, hb]
        · rfl
      show Then c closerNext Here (afterTxClose c { t with core := cs, closer := .closing (i + 1) } (some (.closeRet (!σ.closed)))).1 _
        fun s' o j => [] ++ (obs (afterTxClose c { t with core := cs, closer := .closing (i + 1) } (some (.closeRet (!σ.closed)))).2 ++ o) = _ ∧ _
      rw [e0]
      have hf2 := hce.fresh (i + 1 + 1 + 1) (by omega)
      refine Then.step (act := .closer (i + 1 + 1 + 1))
        (s1 := { t with core := cs, cell := s.cell.goto (i + 1 + 1 + 1) (.notifyStart true), closer := .closeTx (i + 1 + 1 + 1) })
        (e1 := [.cell (.callNotify (i + 1 + 1 + 1) true)])
        (by simp [closerNext]) (by simp [step, closerStep, onCell, Cell.step, hf2, t]) ?_
      obtain ⟨j, hj2, hij⟩ := CellRun.notify (c := c.cell) (o := i + 1 + 1 + 1) hce.lock true (i + 1 + 1 + 1 + 1)
      refine Then.cell (s := { t with core := cs, closer := .closeTx (i + 1 + 1 + 1) })
        (after := fun s evs => if notifyOver evs then ({ s with closer := .done }, [.api .lastTxDropped]) else (s, []))
        (fin' := fun s _ => ({ s with closer := .done }, [.api .lastTxDropped])) ?_ ?_ ?_ hj2 (Then.here ?_ ⟨?_, ?_⟩)
      · intro cs j
        exact ⟨.closer j, by simp [closerNext], by simp [step, closerStep]⟩
      · intro t e he
        cases hn : notifyOver e
        · rfl
        · simp [hn] at he
      · intro t e r he
        cases hn : notifyOver e
        · simp [hn] at he
        · rfl
      · simp [closerNext]
      · rw [hce.waiter]
        exact List.append_nil _
      · have h1 := h.mono (j := j) (by omega)
        exact { h1 with
          core := ⟨H, hc1.mono (by omega)⟩
          cell := by
            refine ⟨?_, rfl, ?_⟩
            · exact (if_pos hx).symm
            · intro b hb
              have : b ≠ i + 1 + 1 + 1 := by omega
              simpa [Cell.State.goto, upd, this] using hce.fresh b (by omega)
          queue := h1.queue.mono (Nat.le_refl _) (Nat.le_refl _) fun _ => rfl
          handles := by show s.handles.erase m = _; rw [h.handles]
          count := by show s.txCount - 1 = (σ.senders.erase m).length; rw [h.count]; omega
          hlt := fun x hx => h.hlt x (List.mem_of_mem_erase hx)
          futs := hfut
          closer := (if_pos hx).symm
          closed := ⟨fun _ => .inl hx, fun _ => rfl⟩ }
    obtain ⟨t1, f1, j1, h1, o', ⟨rfl, h3⟩, h5⟩ := Then.begins' hstep key
    exact ⟨t1, f1, j1, .dropTx h1, h5, h3, rfl⟩

/-! ## Any call -/

/-- Every call that is possible in the specification runs to its end in the model, and does the same. -/
theorem Rel.call (hb : c.blocking = false) (hw : WellSized w c.cap) (he : env.Calm) (h : Rel c s σ i σ.keys) (call : Call V W)
    {σ' : Spec V W} {o : List (Obs V W)} (hs : σ.step c.cap c.queue.same call = some (σ', o)) :
    CallOk c env s i σ.next call σ' o := by
  have guard : ∀ {P : Prop} [Decidable P] {x : Option (Spec V W × List (Obs V W))}, (if P then x else none) = some (σ', o) → P ∧ x = some (σ', o) := by
    intro P _ x hx
    split at hx
    · exact ⟨‹P›, hx⟩
    · cases hx
  cases call with
  | clone m =>
    obtain ⟨h1, h2⟩ := guard hs
    cases h2
    exact h.clone h1
  | dropTx m => exact h.dropTx hb hw hs
  | trySend m v => exact h.trySend hw he (guard hs).1 v hs
  | send m v u => exact h.send hw hb he (guard hs).1 v u hs
  | pollSend k v u => exact h.pollSend hw hb he (guard hs).1 v u hs
  | cancel k =>
    obtain ⟨h1, h2⟩ := guard hs
    cases h2
    exact h.cancel hb h1
  | tryRecv => exact h.tryRecv hw he (guard hs).1 hs
  | recv u => exact h.recv hw he (guard hs).1 u hs
  | dropRx =>
    obtain ⟨h1, h2⟩ := guard hs
    cases h2
    exact h.dropRx hw h1

end Thingbuf.Chan
