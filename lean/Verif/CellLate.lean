import Verif.CellProps

/-!
# The wait cell: further lemmas for the channel
-/

namespace Thingbuf.Cell

variable {W : Type} {c : Config} {tr : Trace W} {s : State W}

/-- Without a panic of the waker factory, it does not matter whether `catch_unwind` catches. -/
theorem Exec.std_irrelevant (h : Exec c tr s) (hp : ∀ a, .mkPanic a ∉ tr) : Exec { c with std := true } tr s := by
  induction h with
  | init => exact .init
  | @step tr s s' act evs h hs ih =>
    refine (ih fun a hm => hp a (List.mem_append_left _ hm)).step (act := act) ?_
    rw [← hs]
    cases act <;> try rfl
    rename_i a
    exfalso
    have : Event.mkPanic a ∈ evs := by
      simp only [Cell.step] at hs
      split at hs
      · split at hs <;> (simp only [Option.some.injEq, Prod.mk.injEq] at hs; rw [← hs.2]; simp)
      · simp only [Option.some.injEq, Prod.mk.injEq] at hs; rw [← hs.2]; simp
      · cases hs
    exact hp a (List.mem_append_right _ this)

/-- A registration is followed by the return of `wait_with`. -/
theorem Exec.register_returns (h : Exec c tr s) {p q : Trace W} {a : OpId} {u : W} (htr : tr = p ++ .register a u :: q) :
    ∃ q', q = .retWait a .wait :: q' := by
  induction h generalizing q with
  | init => simp at htr
  | step _ hs ih =>
    obtain ⟨d, pc, l, w, rfl, ht⟩ := step_tr hs
    rcases append_split htr with ⟨q', rfl, h2⟩ | ⟨e1, h2, h3⟩
    · obtain ⟨q'', rfl⟩ := ih h2
      exact ⟨_, rfl⟩
    · cases ht <;> simp [List.cons_eq_append_iff] at h2
      obtain ⟨_, ⟨rfl, rfl⟩, rfl⟩ := h2
      exact ⟨_, rfl⟩

/-- `wait_with` returns `Wait` only if the senders' side has not been closed before. -/
theorem Exec.wait_open (h : Exec c tr s) {p q : Trace W} {a : OpId} (htr : tr = p ++ .retWait a .wait :: q) (b : OpId) :
    .signal b true ∉ p := by
  induction h generalizing q with
  | init => simp at htr
  | @step tr s s' act evs h hs ih =>
    have hcl := h.closedInv
    obtain ⟨d, pc, l, w, rfl, ht⟩ := step_tr hs
    rcases append_split htr with ⟨q', rfl, h2⟩ | ⟨e1, h2, h3⟩
    · exact ih h2
    · intro hm
      rw [h3] at hm
      have hno : contains s.lock TX_CLOSED = false → .signal b true ∈ tr → False := by
        intro h1 h2
        rw [hcl.bit.2 ⟨b, h2⟩] at h1; cases h1
      have hpark : s.lock = PARKING → contains s.lock TX_CLOSED = false := by intro e; rw [e]; decide
      have hr : Event.retWait a .wait ∈ evs := by rw [h2]; simp
      have hm : .signal b true ∈ tr ∨ .signal b true ∈ evs := by
        rcases List.mem_append.1 hm with hm | hm
        · exact .inl hm
        · right; rw [h2]; simp [hm]
      cases ht <;> simp at hr hm
      case wakeRet p cl _ =>
        revert hr
        cases p <;> cases cl <;> simp
      case startWait hc _ hx => exact hno (hx trivial ▸ hc) hm
      case unlockReg hl _ => exact hno (hpark hl) hm
      case unlockNone hl _ => exact hno (hpark hl) hm

theorem quiescent_signal (hstd : c.std = true) (h : Exec c tr s) (hone : OneRx tr) (hass : ∀ d, .assertFailed d ∉ tr) (hq : Quiescent tr)
    {pre post : Trace W} {a b : OpId} {v : W} {x : Bool} (htr : tr = pre ++ .retWait a .wait :: post) (hv : .mk a v ∈ pre)
    (hlast : ∀ a', .retWait a' .wait ∉ post) (hsig : .signal b x ∈ post) : ∃ d, .wake d v ∈ post := by
  have hok := h.evOk hstd
  obtain ⟨pre', v', rfl⟩ := oneRx_register hstd h hone htr
  have htr' : tr = pre' ++ .register a v' :: (.retWait a .wait :: post) := by rw [htr]; simp
  have hreg := hok _ _ _ htr'
  have hvv : v = v' := hreg.2.2 v (by simpa using hv)
  subst hvv
  apply Classical.byContradiction
  intro hw
  have hnoreg : ∀ a' u, .register a' u ∉ Event.retWait a .wait :: post := by
    intro a' u hm
    rcases List.mem_cons.1 hm with hm | hm
    · cases hm
    · obtain ⟨m1, m2, rfl⟩ := List.append_of_mem hm
      obtain ⟨q, rfl⟩ := h.register_returns (p := pre' ++ .register a v :: .retWait a .wait :: m1) (q := m2) (a := a') (u := u) (by rw [htr']; simp)
      exact hlast a' (by simp)
  rcases h.regInv hstd pre' a v _ htr' hnoreg (fun d hm => hw ⟨d, by simpa using hm⟩)
    (fun d hm => hass d (by rw [htr']; simp at hm ⊢; simp [hm])) with ⟨hs, _⟩ | ⟨d, hresp, hc⟩
  · exact hs b x (by simp [hsig])
  · have h1 : Called tr d := Classical.byContradiction fun hn => hresp.not_idle.1 ((h.idle_iff d).2 hn)
    exact hresp.not_idle.2 ((h.done_iff d).2 (hq d h1))

end Thingbuf.Cell
