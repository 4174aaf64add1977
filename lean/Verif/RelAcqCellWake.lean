import Verif.RelAcqCellLate
/-
Wakeups on the release/acquire machine: from positions in the trace to the invariants of the cell.
-/
namespace Thingbuf.RA

variable {w cap : Nat} {V : Type} {o : Orders} {co : CellOrders} {c : Cell.Config} {tr : List (REv V)}

theorem AtX.cellSplit {q : Nat} {e : Cell.Event Nat} (h : AtX tr q (.cell e)) :
    RA.cellOf tr = RA.cellOf (tr.take q) ++ e :: RA.cellOf (tr.drop (q + 1)) := by
  obtain ⟨x, hx, he⟩ := h.ev
  have hl := lt_of_getElem?_some hx
  conv => lhs; rw [← List.take_append_drop q tr]
  rw [cellOf_append, List.drop_eq_getElem_cons hl]
  have : tr[q] = x := by rw [List.getElem?_eq_getElem hl] at hx; exact Option.some.inj hx
  rw [this]
  simp [RA.cellOf, he, XEv.cell?]

theorem AtX.of_take {p q : Nat} {e : XEv V} (h : AtX (tr.take q) p e) : p < q ∧ AtX tr p e := by
  have hl := At.lt h
  rw [List.length_take] at hl
  unfold AtX at h ⊢
  rw [List.map_take, List.getElem?_take, if_pos (by omega)] at h
  exact ⟨by omega, h⟩

theorem mem_cellTake {q : Nat} {e : Cell.Event Nat} (h : e ∈ cellOf (tr.take q)) : ∃ p, p < q ∧ AtX tr p (.cell e) := by
  obtain ⟨p, hp⟩ := mem_cellOf h
  exact ⟨p, hp.of_take.1, hp.of_take.2⟩

theorem mem_cellDrop {q : Nat} {e : Cell.Event Nat} (h : e ∈ cellOf (tr.drop q)) : ∃ p, q ≤ p ∧ AtX tr p (.cell e) := by
  obtain ⟨p, hp⟩ := mem_cellOf h
  refine ⟨q + p, Nat.le_add_right _ _, ?_⟩
  unfold AtX at hp ⊢
  rwa [List.map_drop, List.getElem?_drop] at hp

theorem AtX.mem_cellDrop {p q : Nat} {e : Cell.Event Nat} (h : AtX tr p (.cell e)) (hpq : q ≤ p) :
    e ∈ RA.cellOf (tr.drop q) := by
  refine AtX.cellOf (q := p - q) ?_
  unfold AtX at h ⊢
  rw [List.map_drop, List.getElem?_drop, Nat.add_sub_cancel' hpq]
  exact h

/-- What each event needs before it. -/
theorem CInv.at (hstd : c.std = true) {s : XState w V} (h : CInv c tr s) {q : Nat} {e : Cell.Event Nat}
    (hq : AtX tr q (.cell e)) : Cell.EvOkW False (cellOf (tr.take q)) e :=
  h.exec.evOk hstd _ _ _ hq.cellSplit

/-- Calls are made once. -/
theorem CInv.notify_once (hstd : c.std = true) {s : XState w V} (h : CInv c tr s) {p q : Nat} {a : OpId} {x y : Bool}
    (hp : AtX tr p (.cell (.callNotify a x))) (hq : AtX tr q (.cell (.callNotify a y))) : p = q ∧ x = y := by
  have key : ∀ (p q : Nat) x y, AtX tr p (.cell (.callNotify a x)) → AtX tr q (.cell (.callNotify a y)) → ¬ p < q :=
    fun p q x y hp hq hlt => (h.at hstd hq) (.inr ⟨x, (hp.take hlt).cellOf⟩)
  have h1 := key _ _ _ _ hp hq
  have h2 := key _ _ _ _ hq hp
  have : p = q := by omega
  subst this
  cases hp.inj hq
  exact ⟨rfl, rfl⟩

theorem CInv.wait_once (hstd : c.std = true) {s : XState w V} (h : CInv c tr s) {p q : Nat} {a : OpId}
    (hp : AtX tr p (.cell (.callWait a))) (hq : AtX tr q (.cell (.callWait a))) : p = q := by
  have key : ∀ (p q : Nat), AtX tr p (.cell (.callWait a)) → AtX tr q (.cell (.callWait a)) → ¬ p < q :=
    fun p q hp hq hlt => (h.at hstd hq) (.inl (hp.take hlt).cellOf)
  have h1 := key _ _ hp hq
  have h2 := key _ _ hq hp
  omega

theorem CInv.ret_once (hstd : c.std = true) {s : XState w V} (h : CInv c tr s) {p q : Nat} {a : OpId} {r r' : Cell.Res}
    (hp : AtX tr p (.cell (.retWait a r))) (hq : AtX tr q (.cell (.retWait a r'))) : p = q := by
  have key : ∀ (p q : Nat) r r', AtX tr p (.cell (.retWait a r)) → AtX tr q (.cell (.retWait a r')) → ¬ p < q :=
    fun p q r r' hp hq hlt => (h.at hstd hq).2.1 (.inl ⟨r, (hp.take hlt).cellOf⟩)
  have h1 := key _ _ _ _ hp hq
  have h2 := key _ _ _ _ hq hp
  omega

/-- A call that returned has had its read-modify-write in between. -/
theorem CInv.signal_of_ret (hstd : c.std = true) {s : XState w V} (h : CInv c tr s) {p q : Nat} {a : OpId} {x y : Bool}
    (hp : AtX tr p (.cell (.callNotify a x))) (hq : AtX tr q (.cell (.retNotify a y))) :
    ∃ n, p < n ∧ n < q ∧ AtX tr n (.cell (.signal a x)) := by
  obtain ⟨⟨x', h1⟩, _⟩ := h.at hstd hq
  obtain ⟨n, hn, hs⟩ := mem_cellTake h1
  obtain ⟨h2, _⟩ := h.at hstd hs
  obtain ⟨m, hm, hc⟩ := mem_cellTake h2
  obtain ⟨rfl, rfl⟩ := h.notify_once hstd hp hc
  exact ⟨n, hm, hn, hs⟩

theorem CellQuiet.quiescent (h : CellQuiet tr) : Cell.Quiescent (cellOf tr) := by
  rintro a (h1 | ⟨x, h1⟩)
  · obtain ⟨p, hp⟩ := mem_cellOf h1
    obtain ⟨q, r, hq⟩ := h.1 a p hp
    exact .inl ⟨r, hq.cellOf⟩
  · obtain ⟨p, hp⟩ := mem_cellOf h1
    obtain ⟨q, y, hq⟩ := h.2 a x p hp
    exact .inr (.inl ⟨y, hq.cellOf⟩)

/-- A registered waker is woken once no call is in progress, if a signal came later. -/
theorem woken_of_signal (hstd : c.std = true) {s : XState w V} (h : CInv c tr s) (hm : MInv tr s) (hq : CellQuiet tr)
    (hass : ∀ d n, ¬ AtX tr n (.cell (.assertFailed d))) {p n : Nat} {a b : OpId} {v : Nat} {x : Bool}
    (hreg : AtX tr p (.cell (.register a v))) (hlast : ∀ d q, p + 1 < q → ¬ AtX tr q (.cell (.retWait d .wait)))
    (hsig : AtX tr n (.cell (.signal b x))) (hn : p < n) : ∃ q d, p < q ∧ AtX tr q (.cell (.wake d v)) := by
  refine Classical.byContradiction fun hno => ?_
  have hw : ∀ d, Cell.Event.wake d v ∉ cellOf (tr.drop (p + 1)) := by
    intro d hd
    obtain ⟨q, h1, h2⟩ := mem_cellDrop hd
    exact hno ⟨q, d, h1, h2⟩
  have hr : ∀ d u, Cell.Event.register d u ∉ cellOf (tr.drop (p + 1)) := by
    intro d u hd
    obtain ⟨q, h1, h2⟩ := mem_cellDrop hd
    exact hlast d (q + 1) (by omega) (hm.regRet q d u h2)
  have ha : ∀ d, Cell.Event.assertFailed d ∉ cellOf (tr.drop (p + 1)) := by
    intro d hd
    obtain ⟨q, h1, h2⟩ := mem_cellDrop hd
    exact hass d q h2
  rcases h.exec.regInv hstd _ _ _ _ hreg.cellSplit hr hw ha with ⟨h1, _⟩ | ⟨d, h1, _⟩
  · exact h1 b x (hsig.mem_cellDrop hn)
  · have h2 := h1.not_idle
    have h3 : Cell.Called (cellOf tr) d := Classical.byContradiction fun hn => h2.1 ((h.exec.idle_iff d).2 hn)
    exact h2.2 ((h.exec.done_iff d).2 (hq.quiescent d h3))

/-- With one receiver, a call that returns `Wait` has registered its waker just before. -/
theorem wait_registers (hstd : c.std = true) {s : XState w V} (hx : XInv w cap c tr s) (hone : OneReceiver tr)
    {q : Nat} {a : OpId} (hq : AtX tr q (.cell (.retWait a .wait))) :
    ∃ v, 0 < q ∧ AtX tr (q - 1) (.cell (.register a v)) := by
  rcases hx.know.wait a q hq with h1 | ⟨b, p, hba, hpq, hp, hno⟩
  · exact h1
  · exfalso
    have hc := hx.cell
    obtain ⟨k, hk, hka⟩ := mem_cellTake (hc.at hstd hq).1
    have hkq : HB tr k q := hx.base.hb.same hk hka hq rfl
    rcases Nat.lt_trichotomy p k with h1 | h1 | h1
    · obtain ⟨n, r, h2, h3⟩ := hone b a p k h1 hp hka
      exact hno n r h2 (hx.base.hb.trans h3 hkq)
    · subst h1
      cases hp.inj hka
      exact hba rfl
    · obtain ⟨n, r, h2, h3⟩ := hone a b k p h1 hka hp
      have := hc.ret_once hstd h2 hq
      have := hx.base.hb.lt h3
      omega

end Thingbuf.RA
