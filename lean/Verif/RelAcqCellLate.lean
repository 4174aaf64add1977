import Verif.RelAcqCellKnow
/-
More of what operations know about the wait cell: a close is known to whoever finds the cell closed.
-/
namespace Thingbuf.RA

variable {w cap : Nat} {V : Type} {o : Orders} {co : CellOrders} {c : Cell.Config} {tr : List (REv V)}

structure MInv (tr : List (REv V)) (s : XState w V) : Prop where
  regRet : ∀ q b v, AtX tr q (.cell (.register b v)) → AtX tr (q + 1) (.cell (.retWait b .wait))
  regOpen : ∀ n q b d v, AtX tr n (.cell (.signal b true)) → AtX tr q (.cell (.register d v)) → q < n
  closedMsg : ∀ m ∈ s.lock, Cell.contains m.val Cell.TX_CLOSED = true →
    ∃ n b, AtX tr n (.cell (.signal b true)) ∧ n ∈ m.view.hb
  waking : ∀ a prev q t, s.cpc a = .waitWake prev q t true →
    ∃ n b, AtX tr n (.cell (.signal b true)) ∧ n ∈ (s.core.view a).hb
  closedRet : ∀ q a, AtX tr q (.cell (.retWait a .closed)) → ∃ n b, AtX tr n (.cell (.signal b true)) ∧ HB tr n q

theorem MInv.init : MInv [] (XState.init w V) where
  regRet := by intro q b v h; simp [AtX] at h
  regOpen := by intro n q b d v h; simp [AtX] at h
  closedMsg := by
    intro m hm hc
    rw [List.mem_singleton.1 hm] at hc
    exact absurd hc (by decide)
  waking := by intro a prev q t h; cases h
  closedRet := by intro q a h; simp [AtX] at h

theorem MInv.core {s : XState w V} (h : MInv tr s) {act : RAct V} {r : RState w V × List (REv V)}
    (hs : rstep o cap s.core act = some r) : MInv (tr ++ r.2) { s with core := r.1 } := by
  have he := cellOf_rstep hs
  have hx := (rstep_shape hs).ext
  have hold : ∀ q e, AtX (tr ++ r.2) q (.cell e) → AtX tr q (.cell e) := by
    intro q e hq
    rcases hq.cases with h1 | ⟨_, h1⟩
    · exact h1
    · rw [he] at h1; cases h1
  refine ⟨?_, ?_, ?_, ?_, ?_⟩
  · exact fun q b v hq => (h.regRet q b v (hold _ _ hq)).append
  · exact fun n q b d v hn hq => h.regOpen n q b d v (hold _ _ hn) (hold _ _ hq)
  · intro m hm hc
    obtain ⟨n, b, h1, h2⟩ := h.closedMsg m hm hc
    exact ⟨n, b, h1.append, h2⟩
  · intro a prev q t ha
    obtain ⟨n, b, h1, h2⟩ := h.waking a prev q t ha
    exact ⟨n, b, h1.append, (hx.view a).2 _ h2⟩
  · intro q a hq
    obtain ⟨n, b, h1, h2⟩ := h.closedRet q a (hold _ _ hq)
    exact ⟨n, b, h1.append, h2.append⟩

theorem MInv.pres (hstd : c.std = true) (hco : CellSync co) {s : XState w V} {a : OpId}
    {k : Cell.State Nat × List (Cell.Event Nat)} {l : Cell.Bits} {x : Option Nat} {r : XState w V × List (REv V)}
    (hb : HbInv tr s.core) (hc : CInv c tr s) (h : MInv tr s) (ht : Cell.Tr False c s.cell a (k.1.pc a) l x k.2)
    (hm : Move co s a k l x r) : MInv (tr ++ r.2) r.1 := by
  have ho := hm.out (tr := tr) hb.now
  obtain ⟨hpa, hpb⟩ := ho.cpc
  have hold : ∀ m : LMsg, (∃ n b, AtX tr n (.cell (.signal b true)) ∧ n ∈ m.view.hb) →
      ∃ n b, AtX (tr ++ r.2) n (.cell (.signal b true)) ∧ n ∈ m.view.hb := by
    rintro m ⟨n, b, h1, h2⟩
    exact ⟨n, b, h1.append, h2⟩
  have hcm : ∀ n m, s.readLock a n = some m → Cell.contains m.val Cell.TX_CLOSED = true →
      ∃ n b, AtX tr n (.cell (.signal b true)) ∧ n ∈ m.view.hb :=
    fun n m hr hcl => h.closedMsg m (readLock_mem hr) hcl
  have hregk : ∀ b v (i : Nat), k.2[i]? = some (.register b v) → s.cell.lock = Cell.PARKING ∧ i = 0 ∧ b = a ∧
      k.2 = [.register a v, .retWait a .wait] := by
    intro b v i hi
    generalize k.1.pc a = p at ht
    generalize k.2 = es at ht hi ⊢
    cases ht
    case unlockReg prev v' h0 hl0 hw =>
      match i with
      | 0 => cases hi; exact ⟨hl0, rfl, rfl, rfl⟩
      | 1 => cases hi
      | i + 2 => cases hi
    all_goals
      exfalso
      have hi := List.mem_of_getElem? hi
      simp at hi
  refine ⟨?_, ?_, ?_, ?_, ?_⟩
  · intro q b v hq
    rcases ho.at hq with h1 | ⟨h1, h2⟩
    · exact (h.regRet q b v h1).append
    · obtain ⟨_, h3, rfl, h4⟩ := hregk b v _ h2
      have h5 := ho.at' (i := 1) (e := .retWait b .wait) (by rw [h4]; rfl)
      have : q + 1 = tr.length + 1 := by omega
      rw [this]
      exact h5
  · intro n q b d v hn hq
    rcases ho.at hq with h1 | ⟨h1, h2⟩
    · rcases ho.at hn with h3 | ⟨h3, h4⟩
      · exact h.regOpen n q b d v h3 h1
      · have := At.lt h1; omega
    · obtain ⟨h3, _, _, h4⟩ := hregk d v _ h2
      rcases ho.at hn with h5 | ⟨_, h5⟩
      · have h6 := (hc.exec.closedInv).bit.2 ⟨b, h5.cellOf⟩
        rw [h3] at h6
        exact absurd h6 (by decide)
      · have h5 := List.mem_of_getElem? h5
        rw [h4] at h5
        simp at h5
  · rcases hm.calm with ⟨hlock, _, _, _⟩ | ⟨n, m, od, hr, hn, hre, _, _, _, hrt⟩
    · rw [hlock]
      exact fun m hm hcl => hold m (h.closedMsg m hm hcl)
    · subst hre
      obtain ⟨msg, hmo⟩ := doRmw_out (tr := tr) (s := s) (a := a) (n := n) (m := m) (od := od) (k := k) hb.now
      have hlv : s.cell.lock = m.val := lastVal_of (last_of_read (readLock_spec hr).1 hn)
      intro m' hm' hcl
      rw [hmo.lock] at hm'
      rcases List.mem_append.1 hm' with hm' | hm'
      · exact hold m' (h.closedMsg m' hm' hcl)
      · obtain rfl := List.mem_singleton.1 hm'
        have hbase : Cell.contains m.val Cell.TX_CLOSED = true →
            ∃ n' b, AtX (tr ++ (s.doRmw a n m od k).2) n' (.cell (.signal b true)) ∧ n' ∈ m'.view.hb := by
          intro hc1
          obtain ⟨n', b, h1, h2⟩ := hcm n m hr hc1
          exact ⟨n', b, h1.append, hmo.base.2 _ h2⟩
        have hnew := hmo.new
        have hat := fun (i : Nat) e => ho.at' (i := i) (e := e)
        rw [hmo.val] at hcl
        generalize hkl : k.1.lock = l at hrt hcl
        generalize hkp : k.1.pc a = p at hrt
        generalize hke : k.2 = es at hrt hnew hat
        cases hrt with
        | lock => exact absurd hcl (by decide)
        | unlock => exact absurd hcl (by decide)
        | reset =>
          rw [hlv, Cell.contains_and_closed] at hcl
          exact hbase hcl
        | clear =>
          rw [hlv, Cell.contains_clear] at hcl
          exact hbase hcl
        | signal close p evs h0 hp =>
          rw [hlv, Cell.contains_or_signal, Bool.or_eq_true] at hcl
          rcases hcl with hcl | rfl
          · exact hbase hcl
          · have h1 : es[0]? = some (.signal a true) ∧ 0 < (es.takeWhile atomicEv).length := by
              rcases hp with ⟨_, _, rfl⟩ | ⟨_, _, rfl⟩ <;> simp [List.takeWhile, atomicEv]
            exact ⟨tr.length, a, hat 0 _ h1.1, hnew hco.signalRel _ (Nat.le_refl _) (by omega)⟩
  · intro b prev q t hbp
    by_cases hba : b = a
    · subst hba
      rw [hpa] at hbp
      have hprev : (∃ prev q t, s.cpc b = .waitWake prev q t true) →
          ∃ n d, AtX (tr ++ r.2) n (.cell (.signal d true)) ∧ n ∈ (r.1.core.view b).hb := by
        rintro ⟨prev, q, t, hs⟩
        obtain ⟨n, d, h1, h2⟩ := h.waking b prev q t hs
        exact ⟨n, d, h1.append, ho.le.2 _ h2⟩
      have hcase : (∃ prev q t, s.cpc b = .waitWake prev q t true) ∨
          (∃ prev q y t, s.cpc b = .waitReset prev q y t) ∧ Cell.contains s.cell.lock Cell.TX_CLOSED = true := by
        rw [hbp] at ht
        generalize k.2 = es at ht
        generalize htp : Cell.PC.waitWake prev q t true = p at ht
        cases ht <;> try cases htp
        case wakePrev u h0 => exact .inl ⟨_, _, _, h0⟩
        case wakeTaken v hd h0 => exact .inl ⟨_, _, _, h0⟩
        case reset prev' q' y t' h0 =>
          rw [Cell.PC.waitWake.injEq] at htp
          exact .inr ⟨⟨_, _, _, _, h0⟩, htp.2.2.2.symm⟩
      rcases hcase with h1 | ⟨⟨prev', q', y, t', h1⟩, h2⟩
      · exact hprev h1
      · rcases hm.calm with ⟨_, _, hca, _⟩ | ⟨n, m, od, hr, hn, hre, _, _, _, hrt⟩
        · exfalso
          have := hca.owns
          rw [hbp, h1] at this
          cases this
        · subst hre
          obtain ⟨msg, hmo⟩ := doRmw_out (tr := tr) (s := s) (a := b) (n := n) (m := m) (od := od) (k := k) hb.now
          have hlv : s.cell.lock = m.val := lastVal_of (last_of_read (readLock_spec hr).1 hn)
          rw [hlv] at h2
          obtain ⟨n', d, h3, h4⟩ := hcm n m hr h2
          have hacq : od.acq = true := by
            generalize hkl : k.1.lock = l at hrt
            generalize hkp : k.1.pc b = p at hrt
            generalize hke : k.2 = es at hrt
            cases hrt with
            | lock h0 => cases h1.symm.trans h0
            | unlock _ _ _ h0 => cases h1.symm.trans h0
            | reset => exact hco.resetAcq
            | signal _ _ _ h0 => cases h1.symm.trans h0
            | clear _ h0 => cases h1.symm.trans h0
          exact ⟨n', d, h3.append, (hmo.acq hacq).2 _ h4⟩
    · rw [hpb b hba] at hbp
      obtain ⟨n, d, h1, h2⟩ := h.waking b prev q t hbp
      exact ⟨n, d, h1.append, by rw [ho.other b hba]; exact h2⟩
  · intro q b hq
    rcases ho.at hq with h1 | ⟨h1, h2⟩
    · obtain ⟨n, d, h3, h4⟩ := h.closedRet q b h1
      exact ⟨n, d, h3.append, h4.append⟩
    · have hmem := List.mem_of_getElem? h2
      obtain ⟨e, he, hee⟩ := hq.ev
      have hview : (∃ n d, AtX tr n (.cell (.signal d true)) ∧ n ∈ (s.core.view a).hb) →
          ∃ n d, AtX (tr ++ r.2) n (.cell (.signal d true)) ∧ HB (tr ++ r.2) n q := by
        rintro ⟨n, d, h3, h4⟩
        exact ⟨n, d, h3.append, e, he, ho.hb q e he h1 n h4⟩
      cases hm with
      | quiet _ _ hs =>
        apply hview
        generalize k.1.pc a = p at ht
        generalize k.2 = es at ht hmem
        generalize s.lastVal = l at ht
        generalize s.latest = x at ht
        cases ht
        case startClosed => exact absurd (‹s.cell.pc a = .waitStart› : s.cpc a = .waitStart) hs
        case wakeRet p closed h0 =>
          rw [List.mem_singleton] at hmem
          have : closed = true := by
            cases p <;> cases closed <;> simp at hmem <;> rfl
          subst this
          exact h.waking a _ _ _ h0
        all_goals simp at hmem
      | waker _ hke => rw [hke] at hmem; simp at hmem
      | load n m od hr _ _ _ hod hcr =>
        obtain ⟨h3, h4⟩ := hcr b hmem
        obtain ⟨n', d, h5, h6⟩ := hcm n m hr h4
        have hl := (load_view s a n m od.acq).2.1 (by rw [hod h3]; exact hco.failAcq)
        refine ⟨n', d, h5.append, e, he, ?_⟩
        have h7 := lt_of_stamp he h1
        exact (stamp_at h7 n').2 (.inl (hl.2 _ h6))
      | rmw n m od hr hn hrt =>
        exfalso
        generalize hkl : k.1.lock = l at hrt
        generalize hkp : k.1.pc a = p at hrt
        generalize hke : k.2 = es at hrt hmem
        cases hrt with
        | lock => simp at hmem
        | unlock prev q evs h0 hl0 he => rcases he with rfl | ⟨rfl, _⟩ | ⟨v, rfl⟩ <;> simp at hmem
        | reset _ _ _ _ _ _ _ hp => rcases hp with ⟨_, rfl⟩ | ⟨rfl, _⟩ <;> simp at hmem
        | signal _ _ _ _ hp => rcases hp with ⟨_, _, rfl⟩ | ⟨_, _, rfl⟩ <;> simp at hmem
        | clear => simp at hmem

theorem XExec.minv {s : XState w V} (hw : WellSized w cap) (ho : Synchronised o) (hco : CellSync co) (hstd : c.std = true)
    (h : XExec o co c w cap tr s) : MInv tr s := by
  induction h with
  | init => exact MInv.init
  | @step tr s s' act evs h hs ht ih =>
    cases act with
    | core act =>
      obtain ⟨r, hr, he⟩ := Option.map_eq_some_iff.1 hs
      cases he
      exact ih.core hr
    | cell act n =>
      have hx := h.xinv hw ho hco hstd
      obtain ⟨k, l, x, htr, hm⟩ := cellStep_move hstd hx.cell hs
      exact ih.pres hstd hco hx.base.hb hx.cell htr hm

end Thingbuf.RA
