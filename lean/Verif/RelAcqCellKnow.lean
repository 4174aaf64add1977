import Verif.RelAcqCellInv
/-
What operations know about the wait cell, on the release/acquire machine.
-/
namespace Thingbuf.RA

variable {w cap : Nat} {V : Type} {o : Orders} {co : CellOrders} {c : Cell.Config} {tr : List (REv V)}

/-! ### Views made by steps of the ring buffer -/

/-- All views satisfy `P`. -/
structure AllViews (P : View → Prop) (s : RState w V) : Prop where
  view : ∀ a, P (s.view a)
  msg : ∀ l m, m ∈ s.mem l → P m.view

/-- `P` survives what steps do to views. -/
structure ClosedP (P : View → Prop) : Prop where
  bot : P .bot
  see : ∀ v l t, P v → P (v.see l t)
  join : ∀ v u, P v → P u → P (v.join u)

theorem AllViews.setView {P : View → Prop} {s s' : RState w V} {a : OpId} {v : View} (h : AllViews P s)
    (hm : s'.mem = s.mem) (hv : s'.view = upd s.view a v) (hp : P v) : AllViews P s' := by
  refine ⟨fun b => ?_, by rw [hm]; exact h.msg⟩
  rw [hv]
  by_cases hb : b = a
  · subst hb; rw [upd_self]; exact hp
  · rw [upd_ne _ _ hb]; exact h.view b

theorem AllViews.load {P : View → Prop} (hP : ClosedP P) {s : RState w V} (h : AllViews P s) {a : OpId} {l : Loc} {m : Msg w}
    {acq : Bool} (hm : P m.view) : AllViews P (s.load a l m acq) := by
  refine h.setView rfl rfl ?_
  split
  · exact hP.join _ _ (hP.see _ _ _ (h.view a)) hm
  · exact hP.see _ _ _ (h.view a)

theorem AllViews.emit {P : View → Prop} {s : RState w V} (h : AllViews P s) {a : OpId} {pc : PC w} {evs : List (Event V)}
    (hn : ∀ v, P v → P ⟨v.ts, List.range' s.now evs.length ++ v.hb⟩) : AllViews P (s.emit a pc evs).1 :=
  h.setView rfl rfl (hn _ (h.view a))

theorem AllViews.put {P : View → Prop} (hP : ClosedP P) {s : RState w V} (h : AllViews P s) {a : OpId} {l : Loc} {frm ts : Nat}
    {v : BitVec w} {rel : Bool} {base : View} (hb : P base) : AllViews P (s.put a l frm ts v rel base) := by
  have h1 := h.setView (s' := { s with view := upd s.view a ((s.view a).see l ts) }) rfl rfl (hP.see _ _ _ (h.view a))
  refine ⟨h1.view, fun k m hm => ?_⟩
  simp only [RState.put] at hm
  split at hm
  · rcases List.mem_append.1 hm with hm | hm
    · exact h.msg k m hm
    · rw [List.mem_singleton.1 hm]
      refine hP.join _ _ ?_ hb
      split
      · exact hP.see _ _ _ (h.view a)
      · exact hP.see _ _ _ hP.bot
  · exact h.msg k m hm

/-- Steps of the ring buffer make new views out of old ones and the new events. -/
theorem Shape.closed {P : View → Prop} (hP : ClosedP P) {s : RState w V} {r : RState w V × List (REv V)} (h : Shape o s r)
    (hs : AllViews P s) (hn : ∀ v, P v → P ⟨v.ts, List.range' s.now r.2.length ++ v.hb⟩) : AllViews P r.1 := by
  cases h with
  | emit a pc evs s1 hm hv hno hp =>
    have h1 : AllViews P s1 := ⟨by rw [hv]; exact hs.view, by rw [hm]; exact hs.msg⟩
    refine h1.emit ?_
    rw [hno]
    have : (s1.emit a pc evs).2.length = evs.length := stamp_length ..
    rw [this] at hn
    exact hn
  | load a l rd m od k hm hp =>
    have : (s.doLoad a l m od k).2.length = k.2.length := stamp_length ..
    rw [this] at hn
    exact (hs.load hP (hs.msg _ _ (readMsg_mem hm))).emit hn
  | rmw a l rd wr m od k hl hm hf hc hd hcl =>
    have : (s.doRmw a l m od wr k).2.length = k.2.length := stamp_length ..
    rw [this] at hn
    exact ((hs.load hP (hs.msg _ _ (readMsg_mem hm))).emit hn).put hP (hs.msg _ _ (readMsg_mem hm))
  | commit a i wr ns rel hpc ht =>
    have : (RA.drop s a i wr ns rel (.commit a i (s.core.val i))).2.length = 1 := stamp_length _ _ [_]
    rw [this] at hn
    exact (hs.emit (evs := [_]) hn).put hP hP.bot
  | release a i wr ns rel hpc ht =>
    have : (RA.drop s a i wr ns rel (.release a i (s.core.val i))).2.length = 1 := stamp_length _ _ [_]
    rw [this] at hn
    exact (hs.emit (evs := [_]) hn).put hP hP.bot
  | sync a b => exact hs.setView rfl rfl (hP.join _ _ (hs.view b) (hs.view a))

/-! ### Order of the signals and of the accesses to the waker -/

structure SInv (tr : List (REv V)) (s : XState w V) : Prop where
  sigLast : ∀ m, s.lock.getLast? = some m → ∀ n, SigAt tr n → n ∈ m.view.hb
  sigHold : ∀ a, parked (s.cpc a) = true → s.lastVal = Cell.PARKING → ∀ n, SigAt tr n → n ∈ (s.core.view a).hb
  race : ∀ p q, p < q → WakerAt tr p → WakerAt tr q → HB tr p q
  sigReg : ∀ p q b v, p < q → SigAt tr p → AtX tr q (.cell (.register b v)) → HB tr p q

theorem HB.of_append {p q : Nat} {t : List (REv V)} (h : HB (tr ++ t) p q) (hq : q < tr.length) : HB tr p q := by
  obtain ⟨e, h1, h2⟩ := h
  rw [List.getElem?_append_left hq] at h1
  exact ⟨e, h1, h2⟩

theorem AtX.ev {q : Nat} {e : XEv V} (h : AtX tr q e) : ∃ x, tr[q]? = some x ∧ x.1 = e := by
  simp only [AtX, List.getElem?_map] at h
  exact Option.map_eq_some_iff.1 h

theorem AtX.of_ev {q : Nat} {x : REv V} (h : tr[q]? = some x) : AtX tr q x.1 := by
  simp only [AtX, List.getElem?_map, h, Option.map_some]

theorem AtX.inj {q : Nat} {e e' : XEv V} (h : AtX tr q e) (h' : AtX tr q e') : e = e' := by
  unfold AtX at h h'
  exact Option.some.inj (h.symm.trans h')

/-- Two events of the same operation. -/
theorem HbInv.same {s : RState w V} (h : HbInv tr s) {p q : Nat} {e e' : XEv V} (hlt : p < q) (h1 : AtX tr p e)
    (h2 : AtX tr q e') (ho : e.op = e'.op) : HB tr p q := by
  obtain ⟨x, hx, rfl⟩ := h1.ev
  obtain ⟨y, hy, rfl⟩ := h2.ev
  exact ⟨y, hy, h.own p q x y hlt hx hy ho⟩

theorem HbInv.trans {s : RState w V} (h : HbInv tr s) {p q r : Nat} (h1 : HB tr p q) (h2 : HB tr q r) : HB tr p r := by
  obtain ⟨x, hx, hpx⟩ := h1
  obtain ⟨y, hy, hqy⟩ := h2
  exact ⟨y, hy, (h.ord r y hy q hqy).2 x hx p hpx⟩

theorem HbInv.lt {s : RState w V} (h : HbInv tr s) {p q : Nat} (h1 : HB tr p q) : p < q := by
  obtain ⟨x, hx, hpx⟩ := h1
  exact (h.ord q x hx p hpx).1

theorem cellOp_eq (e : Cell.Event Nat) : cellOp e = e.op := by cases e <;> rfl

/-- The new events of a step of the cell. -/
theorem Out.at {s : XState w V} {a : OpId} {k : Cell.State Nat × List (Cell.Event Nat)} {l : Cell.Bits} {x : Option Nat}
    {r : XState w V × List (REv V)} (h : Out tr s a k l x r) {q : Nat} {e : Cell.Event Nat} (hq : AtX (tr ++ r.2) q (.cell e)) :
    AtX tr q (.cell e) ∨ tr.length ≤ q ∧ k.2[q - tr.length]? = some e := by
  rcases Nat.lt_or_ge q tr.length with h1 | h1
  · exact .inl (hq.of_append h1)
  · refine .inr ⟨h1, ?_⟩
    unfold AtX at hq
    rw [List.map_append, List.getElem?_append_right (by simpa using h1), List.length_map, h.map, List.getElem?_map] at hq
    obtain ⟨y, hy, he⟩ := Option.map_eq_some_iff.1 hq
    cases he
    exact hy

theorem Out.at' {s : XState w V} {a : OpId} {k : Cell.State Nat × List (Cell.Event Nat)} {l : Cell.Bits} {x : Option Nat}
    {r : XState w V × List (REv V)} (h : Out tr s a k l x r) {i : Nat} {e : Cell.Event Nat} (hq : k.2[i]? = some e) :
    AtX (tr ++ r.2) (tr.length + i) (.cell e) := by
  unfold AtX
  rw [List.map_append, List.getElem?_append_right (by simp), List.length_map, h.map, List.getElem?_map,
    Nat.add_sub_cancel_left, hq]
  rfl

theorem SInv.pres (hstd : c.std = true) (hco : CellSync co) {s : XState w V} {a : OpId}
    {k : Cell.State Nat × List (Cell.Event Nat)} {l : Cell.Bits} {x : Option Nat} {r : XState w V × List (REv V)}
    (hnow : s.core.now = tr.length) (hc : CInv c tr s) (h : SInv tr s) (ht : Cell.Tr False c s.cell a (k.1.pc a) l x k.2)
    (hm : Move co s a k l x r) (hb : HbInv (tr ++ r.2) r.1.core) : SInv (tr ++ r.2) r.1 := by
  have ho := hm.out (tr := tr) hnow
  obtain ⟨hpa, hpb⟩ := ho.cpc
  obtain ⟨ow, hlk⟩ := hc.exec.lockInv hstd
  have hop : ∀ e ∈ k.2, cellOp e = a := fun e he => by rw [cellOp_eq]; exact ht.op e he
  -- an old position known to the operation, and a new event
  have hnew : ∀ p q, p ∈ (s.core.view a).hb → tr.length ≤ q → q < (tr ++ r.2).length → HB (tr ++ r.2) p q := by
    intro p q h1 h2 h3
    exact ⟨_, List.getElem?_eq_getElem h3, ho.hb q _ (List.getElem?_eq_getElem h3) h2 p h1⟩
  have hrace : ∀ p q, p < q → WakerAt (tr ++ r.2) p → WakerAt (tr ++ r.2) q → HB (tr ++ r.2) p q := by
    intro p q hlt ⟨e, h1, h2⟩ ⟨e', h3, h4⟩
    rcases ho.at h3 with h5 | ⟨h5, h6⟩
    · have := At.lt h5
      exact (h.race p q hlt ⟨e, h1.of_append (by omega), h2⟩ ⟨e', h5, h4⟩).append
    · have h6' := List.mem_of_getElem? h6
      rcases ho.at h1 with h7 | ⟨h7, h8⟩
      · rcases hm.calm with ⟨_, _, hca, _⟩ | ⟨n, m, od, _, _, _, _, _, _, hrt⟩
        · exact hnew p q (hc.accOwn a (hca.acc e' h6' h4) p ⟨e, h7, h2⟩) h5 (At.lt h3)
        · rw [hrt.noacc e' h6'] at h4; cases h4
      · refine hb.same hlt h1 h3 ?_
        show cellOp e = cellOp e'
        rw [hop e (List.mem_of_getElem? h8), hop e' h6']
  have hsig : ∀ n, SigAt (tr ++ r.2) n → SigAt tr n ∨ tr.length ≤ n ∧ ∃ b y, k.2[n - tr.length]? = some (.signal b y) := by
    intro n ⟨b, y, h1⟩
    rcases ho.at h1 with h2 | ⟨h2, h3⟩
    · exact .inl ⟨b, y, h2⟩
    · exact .inr ⟨h2, b, y, h3⟩
  rcases hm.calm with ⟨hlock, hl, hca, _⟩ | ⟨n, m, od, hr, hn, hre, _, hl, hx, hrt⟩
  · have hsig : ∀ n, SigAt (tr ++ r.2) n → SigAt tr n := by
      intro n hn
      rcases hsig n hn with h1 | ⟨_, b, y, h1⟩
      · exact h1
      · exact absurd (List.mem_of_getElem? h1) (hca.nosig b y)
    have hlv : r.1.lastVal = s.lastVal := by unfold XState.lastVal; rw [hlock]
    refine ⟨?_, ?_, hrace, ?_⟩
    · intro m hm n hn
      rw [hlock] at hm
      exact h.sigLast m hm n (hsig n hn)
    · intro b hb hv n hn
      rw [hlv] at hv
      by_cases hba : b = a
      · subst hba
        rw [hpa] at hb
        exact ho.le.2 _ (h.sigHold b (hca.parked hb) hv n (hsig n hn))
      · rw [hpb b hba] at hb
        rw [ho.other b hba]
        exact h.sigHold b hb hv n (hsig n hn)
    · intro p q b v hlt hp hq
      rcases ho.at hq with h1 | ⟨_, h1⟩
      · exact (h.sigReg p q b v hlt (hsig p hp) h1).append
      · exact absurd (List.mem_of_getElem? h1) (hca.noreg b v)
  · subst hre hl
    obtain ⟨msg, hmo⟩ := doRmw_out (tr := tr) (s := s) (a := a) (n := n) (m := m) (od := od) (k := k) hnow
    obtain ⟨hrl, hrt'⟩ := readLock_spec hr
    have hlast := last_of_read hrl hn
    have hlv : s.cell.lock = m.val := lastVal_of hlast
    have hnewlast : (s.doRmw a n m od k).1.lock.getLast? = some msg := by rw [hmo.lock]; simp
    have hnv : (s.doRmw a n m od k).1.lastVal = k.1.lock := (lastVal_of hnewlast).trans hmo.val
    refine ⟨?_, ?_, hrace, ?_⟩
    · intro m' hm' n' hn'
      obtain rfl : msg = m' := Option.some.inj (hnewlast.symm.trans hm')
      rcases hsig n' hn' with h1 | ⟨h1, b, y, h2⟩
      · exact hmo.base.2 _ (h.sigLast m hlast n' h1)
      · have hrel : od.rel = true ∧ n' - tr.length < (k.2.takeWhile atomicEv).length := by
          generalize hkl : k.1.lock = l at hrt
          generalize hkp : k.1.pc a = p at hrt
          generalize hke : k.2 = es at hrt h2
          cases hrt with
          | lock => simp at h2
          | unlock prev q evs h0 hl0 he =>
            have := List.mem_of_getElem? h2
            rcases he with rfl | ⟨rfl, _⟩ | ⟨v, rfl⟩ <;> simp at this
          | reset prev q x t p evs h0 hp =>
            have := List.mem_of_getElem? h2
            rcases hp with ⟨_, rfl⟩ | ⟨rfl, _⟩ <;> simp at this
          | signal close p evs h0 hp =>
            refine ⟨hco.signalRel, ?_⟩
            rcases hp with ⟨_, _, rfl⟩ | ⟨_, _, rfl⟩
            · rcases Nat.eq_zero_or_pos (n' - tr.length) with h3 | h3
              · simp [h3, List.takeWhile, atomicEv]
              · rw [List.getElem?_eq_none (by simp only [List.length_singleton]; omega)] at h2; cases h2
            · match hi : n' - tr.length with
              | 0 => simp [List.takeWhile, atomicEv]
              | 1 => rw [hi] at h2; cases h2
              | i + 2 => rw [hi] at h2; cases h2
          | clear => simp at h2
        exact hmo.new hrel.1 n' h1 (by omega)
    · intro b hb hv n' hn'
      rw [hnv] at hv
      have hnosig : ∀ b y, Cell.Event.signal b y ∉ k.2 := by
        intro b y hy
        generalize hkl : k.1.lock = l at hrt hv
        generalize hkp : k.1.pc a = p at hrt
        generalize hke : k.2 = es at hrt hy
        cases hrt with
        | lock => simp at hy
        | unlock => exact absurd hv (by decide)
        | reset =>
          have : ∀ x : Cell.Bits, x &&& Cell.TX_CLOSED ≠ Cell.PARKING := by decide
          exact this _ hv
        | signal close =>
          have : ∀ x : Cell.Bits, x ||| (Cell.NOTIFYING ||| (if close then Cell.TX_CLOSED else Cell.WAITING)) ≠ Cell.PARKING := by
            cases close <;> decide
          exact this _ hv
        | clear => simp at hy
      have hs' : SigAt tr n' := by
        rcases hsig n' hn' with h1 | ⟨_, b, y, h1⟩
        · exact h1
        · exact absurd (List.mem_of_getElem? h1) (hnosig b y)
      by_cases hba : b = a
      · subst hba
        rw [hpa] at hb
        have hacq : od.acq = true := by
          generalize hkl : k.1.lock = l at hrt
          generalize hkp : k.1.pc b = p at hrt hb
          generalize hke : k.2 = es at hrt
          cases hrt with
          | lock _ hl0 => exact hco.startAcq
          | unlock => cases hb
          | reset _ _ _ _ _ _ _ hp => rcases hp with ⟨rfl, _⟩ | ⟨_, _, _, _, _, rfl⟩ <;> cases hb
          | signal _ _ _ _ hp => rcases hp with ⟨_, rfl, _⟩ | ⟨_, rfl, _⟩ <;> cases hb
          | clear => cases hb
        exact (hmo.acq hacq).2 _ (h.sigLast m hlast n' hs')
      · rw [hpb b hba] at hb
        rw [ho.other b hba]
        refine h.sigHold b hb ?_ n' hs'
        -- somebody else holds the lock, so this was a signal
        exfalso
        have hbo : Cell.owns (s.cpc b) = true := by
          revert hb; generalize s.cpc b = p; cases p <;> simp [parked, Cell.owns]
        have hna : ∀ p, s.cpc a = p → Cell.owns p = true → False := by
          intro p hp hpo
          rw [← hp] at hpo
          exact hba (Option.some.inj ((hlk.uniq b hbo).symm.trans (hlk.uniq a hpo)))
        have hl1 : Cell.lockOk s.lastVal (s.cpc b) = true := hlk.held b (hlk.uniq b hbo)
        generalize hkl : k.1.lock = l at hrt hv
        generalize hkp : k.1.pc a = p at hrt
        generalize hke : k.2 = es at hrt hnosig
        cases hrt with
        | lock _ hl0 =>
          have hl0 : s.lastVal = Cell.WAITING := hl0
          rw [hl0] at hl1
          revert hl1 hb
          generalize s.cpc b = p
          cases p <;> simp [Cell.lockOk, Cell.WAITING]
        | unlock _ _ _ h0 => exact (hna _ h0 rfl).elim
        | reset _ _ _ _ _ _ h0 => exact (hna _ h0 rfl).elim
        | signal close _ _ _ hp =>
          rcases hp with ⟨_, _, rfl⟩ | ⟨_, _, rfl⟩ <;> exact hnosig a close (by simp)
        | clear _ h0 => exact (hna _ h0 rfl).elim
    · intro p q b v hlt hp hq
      rcases ho.at hq with h1 | ⟨h1, h2⟩
      · have h3 : SigAt tr p := by
          obtain ⟨b, y, h4⟩ := hp
          exact ⟨b, y, h4.of_append (by have := At.lt h1; omega)⟩
        exact (h.sigReg p q b v hlt h3 h1).append
      · have h3 : parked (s.cpc a) = true ∧ s.lastVal = Cell.PARKING ∧ ∀ b y, Cell.Event.signal b y ∉ k.2 := by
          have h2 := List.mem_of_getElem? h2
          generalize hkl : k.1.lock = l at hrt
          generalize hkp : k.1.pc a = p at hrt
          generalize hke : k.2 = es at hrt h2
          cases hrt with
          | lock => simp at h2
          | unlock prev q evs h0 hl0 he =>
            have h0 : s.cpc a = _ := h0
            refine ⟨by rw [h0]; rfl, hl0, ?_⟩
            rcases he with rfl | ⟨rfl, _⟩ | ⟨v, rfl⟩ <;> simp
          | reset _ _ _ _ _ _ _ hp => rcases hp with ⟨_, rfl⟩ | ⟨rfl, _⟩ <;> simp at h2
          | signal _ _ _ _ hp => rcases hp with ⟨_, _, rfl⟩ | ⟨_, _, rfl⟩ <;> simp at h2
          | clear => simp at h2
        have h4 : SigAt tr p := by
          rcases hsig p hp with h4 | ⟨_, b, y, h4⟩
          · exact h4
          · exact absurd (List.mem_of_getElem? h4) (h3.2.2 b y)
        exact hnew p q (h.sigHold a h3.1 h3.2.1 p h4) h1 (At.lt hq)

theorem SInv.core {s : XState w V} (h : SInv tr s) {act : RAct V} {r : RState w V × List (REv V)}
    (hs : rstep o cap s.core act = some r) : SInv (tr ++ r.2) { s with core := r.1 } := by
  have he := cellOf_rstep hs
  have hx := (rstep_shape hs).ext
  have hold : ∀ q e, AtX (tr ++ r.2) q (.cell e) → AtX tr q (.cell e) := by
    intro q e hq
    rcases hq.cases with h1 | ⟨_, h1⟩
    · exact h1
    · rw [he] at h1; cases h1
  have hsig : ∀ n, SigAt (tr ++ r.2) n → SigAt tr n := fun n ⟨b, y, h1⟩ => ⟨b, y, hold _ _ h1⟩
  have hwk : ∀ n, WakerAt (tr ++ r.2) n → WakerAt tr n := fun n ⟨e, h1, h2⟩ => ⟨e, hold _ _ h1, h2⟩
  refine ⟨fun m hm n hn => h.sigLast m hm n (hsig n hn), ?_, ?_, ?_⟩
  · exact fun a ha hv n hn => (hx.view a).2 _ (h.sigHold a ha hv n (hsig n hn))
  · exact fun p q hlt hp hq => (h.race p q hlt (hwk p hp) (hwk q hq)).append
  · exact fun p q b v hlt hp hq => (h.sigReg p q b v hlt (hsig p hp) (hold _ _ hq)).append

theorem SInv.init : SInv [] (XState.init w V) where
  sigLast := by intro m hm n ⟨b, y, h⟩; simp [AtX] at h
  sigHold := by intro a h; cases h
  race := by intro p q hlt ⟨e, h, _⟩; simp [AtX] at h
  sigReg := by intro p q b v hlt ⟨b, y, h⟩; simp [AtX] at h

/-! ### Knowledge -/

/-- What `v`, which contains the event at position `n`, knows of `lock`. -/
structure CFact (tr : List (REv V)) (lock : List LMsg) (v : View) (n : Nat) : Prop where
  /-- if `wait_with` has returned, then all messages from when it held the lock are old -/
  ret : ∀ b r, AtX tr n (.cell (.retWait b r)) → ∀ (j : Nat) m, lock[j]? = some m →
    Cell.contains m.val Cell.PARKING = true → m.holder = b → j < v.ts .lock
  /-- if the cell was closed, then a closed message is known -/
  close : ∀ b, AtX tr n (.cell (.signal b true)) → ∃ j m, j ≤ v.ts .lock ∧ lock[j]? = some m ∧
    Cell.contains m.val Cell.TX_CLOSED = true

def CKnow (tr : List (REv V)) (lock : List LMsg) (v : View) : Prop :=
  ∀ n ∈ v.hb, n < tr.length ∧ CFact tr lock v n

theorem CFact.le {lock : List LMsg} {v u : View} {n : Nat} (h : CFact tr lock v n) (hle : ∀ l, v.ts l ≤ u.ts l) :
    CFact tr lock u n := by
  refine ⟨fun b r hb j m hj hm hh => Nat.lt_of_lt_of_le (h.ret b r hb j m hj hm hh) (hle _), fun b hb => ?_⟩
  obtain ⟨j, m, h1, h2⟩ := h.close b hb
  exact ⟨j, m, Nat.le_trans h1 (hle _), h2⟩

theorem CKnow.le {lock : List LMsg} {v u : View} (h : CKnow tr lock v) (hle : ∀ l, v.ts l ≤ u.ts l)
    (hhb : ∀ n ∈ u.hb, n ∈ v.hb) : CKnow tr lock u :=
  fun n hn => ⟨(h n (hhb n hn)).1, (h n (hhb n hn)).2.le hle⟩

theorem CKnow.closedP (lock : List LMsg) : ClosedP (CKnow tr lock) where
  bot := fun n hn => by cases hn
  see := fun v l t h => h.le (View.le_see v l t).1 fun _ h => h
  join := fun v u hv hu n hn => by
    rcases List.mem_append.1 hn with hn | hn
    · exact ⟨(hv n hn).1, (hv n hn).2.le (View.le_join_left v u).1⟩
    · exact ⟨(hu n hn).1, (hu n hn).2.le (View.le_join_right v u).1⟩

/-- Knowledge stays, when `lock` gains messages of others. -/
theorem CKnow.ext {lock lock' : List LMsg} {v : View} {t : List (REv V)} (h : CKnow tr lock v)
    (hle : ∀ (j : Nat) m, lock[j]? = some m → lock'[j]? = some m)
    (hl : ∀ (j : Nat) m, lock'[j]? = some m → lock[j]? = some m ∨
      (Cell.contains m.val Cell.PARKING = true → ∀ r, .retWait m.holder r ∉ cellOf tr)) : CKnow (tr ++ t) lock' v := by
  intro n hn
  obtain ⟨h1, h2⟩ := h n hn
  refine ⟨by rw [List.length_append]; omega, fun b r hb j m hj hm hh => ?_, fun b hb => ?_⟩
  · have hb := hb.of_append h1
    rcases hl j m hj with h3 | h3
    · exact h2.ret b r hb j m h3 hm hh
    · rw [hh] at h3
      exact absurd hb.cellOf (h3 hm r)
  · obtain ⟨j, m, h3, h4, h5⟩ := h2.close b (hb.of_append h1)
    exact ⟨j, m, h3, hle j m h4, h5⟩

structure NInv (tr : List (REv V)) (s : XState w V) : Prop where
  all : AllViews (CKnow tr s.lock) s.core
  locks : ∀ m ∈ s.lock, CKnow tr s.lock m.view
  bound : ∀ (j : Nat) m, s.lock[j]? = some m → m.view.ts .lock ≤ j
  holder : ∀ (j : Nat) m, s.lock[j]? = some m → Cell.contains m.val Cell.PARKING = true →
    .callWait m.holder ∈ cellOf tr ∧ (Cell.owns (s.cpc m.holder) = false → j < (s.core.view m.holder).ts .lock)
  last : ∀ m, s.lock.getLast? = some m → Cell.contains m.val Cell.PARKING = true → Cell.owns (s.cpc m.holder) = true
  late : ∀ a p q b, AtX tr p (.cell (.signal b true)) → AtX tr q (.cell (.callWait a)) → HB tr p q →
    ((s.cpc a = .waitStart ∧ ∃ j m, j ≤ (s.core.view a).ts .lock ∧ s.lock[j]? = some m ∧
      Cell.contains m.val Cell.TX_CLOSED = true) ∨ s.cpc a = .done) ∧
    ∀ n r, AtX tr n (.cell (.retWait a r)) → r = .closed
  wait : ∀ a q, AtX tr q (.cell (.retWait a .wait)) → (∃ v, 0 < q ∧ AtX tr (q - 1) (.cell (.register a v))) ∨
    ∃ b p, b ≠ a ∧ p < q ∧ AtX tr p (.cell (.callWait b)) ∧ ∀ n r, AtX tr n (.cell (.retWait b r)) → ¬ HB tr n q

theorem NInv.init : NInv [] (XState.init w V) where
  all := by
    refine ⟨fun _ n hn => ?_, fun l m hm n hn => ?_⟩
    · cases hn
    · rw [List.mem_singleton.1 hm] at hn; cases hn
  locks := fun m hm n hn => by rw [List.mem_singleton.1 hm] at hn; cases hn
  bound := by
    intro j m hj
    have : m ∈ [(⟨Cell.WAITING, .bot, 0⟩ : LMsg)] := List.mem_of_getElem? hj
    rw [List.mem_singleton.1 this]
    exact Nat.zero_le _
  holder := by
    intro j m hj hm
    have : m ∈ [(⟨Cell.WAITING, .bot, 0⟩ : LMsg)] := List.mem_of_getElem? hj
    rw [List.mem_singleton.1 this] at hm
    exact absurd hm (by decide)
  last := by
    intro m hj hm
    have : m ∈ [(⟨Cell.WAITING, .bot, 0⟩ : LMsg)] := List.mem_of_getLast? hj
    rw [List.mem_singleton.1 this] at hm
    exact absurd hm (by decide)
  late := by intro a p q b h; simp [AtX] at h
  wait := by intro a q h; simp [AtX] at h

theorem NInv.core {s : XState w V} (h : NInv tr s) (hb : HbInv tr s.core) {act : RAct V} {r : RState w V × List (REv V)}
    (hb' : HbInv (tr ++ r.2) r.1)
    (hs : rstep o cap s.core act = some r) : NInv (tr ++ r.2) { s with core := r.1 } := by
  have he := cellOf_rstep hs
  have hsh := rstep_shape hs
  have hx := hsh.ext
  have hold : ∀ q e, AtX (tr ++ r.2) q (.cell e) → AtX tr q (.cell e) := by
    intro q e hq
    rcases hq.cases with h1 | ⟨_, h1⟩
    · exact h1
    · rw [he] at h1; cases h1
  have hext : ∀ v, CKnow tr s.lock v → CKnow (tr ++ r.2) s.lock v := fun v hv =>
    hv.ext (fun _ _ h => h) (fun _ _ h => .inl h)
  refine ⟨?_, fun m hm => hext _ (h.locks m hm), h.bound, ?_, h.last, ?_, ?_⟩
  · refine hsh.closed (CKnow.closedP _) ⟨fun a => hext _ (h.all.view a), fun l m hm => hext _ (h.all.msg l m hm)⟩ ?_
    intro v hv n hn
    rcases List.mem_append.1 hn with hn | hn
    · rw [List.mem_range'_1, hb.now] at hn
      refine ⟨by rw [List.length_append]; exact hn.2, fun b r h1 => ?_, fun b h1 => ?_⟩
      · have := At.lt (hold _ _ h1); omega
      · have := At.lt (hold _ _ h1); omega
    · exact ⟨(hv n hn).1, (hv n hn).2.le fun _ => Nat.le_refl _⟩
  · intro j m hj hm
    obtain ⟨h1, h2⟩ := h.holder j m hj hm
    exact ⟨by rw [cellOf_append]; exact List.mem_append_left _ h1,
      fun ho => Nat.lt_of_lt_of_le (h2 ho) ((hx.view _).1 .lock)⟩
  · intro a p q b hp hq hpq
    obtain ⟨h1, h2⟩ := h.late a p q b (hold _ _ hp) (hold _ _ hq) (hpq.of_append (At.lt (hold _ _ hq)))
    refine ⟨?_, fun n r hn => h2 n r (hold _ _ hn)⟩
    rcases h1 with ⟨h1, j, m, h3, h4⟩ | h1
    · exact .inl ⟨h1, j, m, Nat.le_trans h3 ((hx.view _).1 .lock), h4⟩
    · exact .inr h1
  · intro a q hq
    have hq' := hold _ _ hq
    rcases h.wait a q hq' with ⟨v, h1, h2⟩ | ⟨b, p, h1, h2, h3, h4⟩
    · exact .inl ⟨v, h1, h2.append⟩
    · exact .inr ⟨b, p, h1, h2, h3.append, fun n r hn hnq => h4 n r (hold _ _ hn) (hnq.of_append (At.lt hq'))⟩

theorem tr_not_done {m : Prop} {s : Cell.State Nat} {a : OpId} {p : Cell.PC Nat} {l : Cell.Bits} {x : Option Nat}
    {evs : Cell.Trace Nat} (h : Cell.Tr m c s a p l x evs) : s.pc a ≠ .done := by
  intro hd
  cases h <;> simp_all

theorem NInv.pres (hstd : c.std = true) (hco : CellSync co) {s : XState w V} {a : OpId}
    {k : Cell.State Nat × List (Cell.Event Nat)} {l : Cell.Bits} {x : Option Nat} {r : XState w V × List (REv V)}
    (hb : HbInv tr s.core) (hc : CInv c tr s) (h : NInv tr s) (ht : Cell.Tr False c s.cell a (k.1.pc a) l x k.2)
    (hm : Move co s a k l x r) (hb' : HbInv (tr ++ r.2) r.1.core) (hc' : CInv c (tr ++ r.2) r.1) : NInv (tr ++ r.2) r.1 := by
  have ho := hm.out (tr := tr) hb.now
  obtain ⟨hpa, hpb⟩ := ho.cpc
  obtain ⟨ow, hlk⟩ := hc.exec.lockInv hstd
  have hop : ∀ e ∈ k.2, e.op = a := fun e he => ht.op e he
  have hret : ∀ b r, .retWait b r ∈ cellOf tr → s.cpc b = .done := fun b r h1 => (hc.exec.done_iff b).2 (.inl ⟨r, h1⟩)
  have hret' : ∀ b y, .retWait b y ∈ cellOf (tr ++ r.2) → r.1.cpc b = .done := fun b y h1 => (hc'.exec.done_iff b).2 (.inl ⟨y, h1⟩)
  have hnd : ∀ b, Cell.owns (s.cpc b) = true → ∀ y, .retWait b y ∉ cellOf tr := by
    intro b hbo y hy
    rw [hret b y hy] at hbo
    cases hbo
  have hcl : ∀ b y, .retWait b y ∈ k.2 → b = a := fun b y hy => (hop _ hy)
  -- the message that a read-modify-write adds
  have hgrow : (r.1.lock = s.lock ∧ Calm s a (k.1.pc a) k.2) ∨ ∃ n m od msg, s.readLock a n = some m ∧ n + 1 = s.lock.length ∧
      RmwOut tr s a n m od k r msg ∧ RTr co s.cell a od (k.1.pc a) k.1.lock k.2 ∧
      (Cell.contains msg.val Cell.PARKING = true → Cell.owns (r.1.cpc msg.holder) = true ∧
        .callWait msg.holder ∈ cellOf tr ∧ ∀ y, .retWait msg.holder y ∉ cellOf tr) := by
    rcases hm.calm with ⟨hlock, _, hca, _⟩ | ⟨n, m, od, hr, hn, hre, _, hl, _, hrt⟩
    · exact .inl ⟨hlock, hca⟩
    · right
      subst hre hl
      obtain ⟨msg, hmo⟩ := doRmw_out (tr := tr) (s := s) (a := a) (n := n) (m := m) (od := od) (k := k) hb.now
      refine ⟨n, m, od, msg, hr, hn, hmo, hrt, fun hp => ?_⟩
      have hrl := (readLock_spec hr).1
      have hlast := last_of_read hrl hn
      have hlv : s.cell.lock = m.val := lastVal_of hlast
      rw [hmo.val] at hp
      have hops := hc.exec.opOk a
      generalize hkl : k.1.lock = l at hrt hp
      generalize hkp : k.1.pc a = p at hrt
      generalize hke : k.2 = es at hrt
      cases hrt with
      | lock h0 hl0 =>
        have h0' : s.cpc a = .waitStart := h0
        rw [hmo.holder, if_pos h0', hpa, hkp]
        rw [h0] at hops
        refine ⟨rfl, (Cell.mem_mine.1 hops.1).1, fun y hy => ?_⟩
        rw [hret a y hy] at h0'
        cases h0'
      | unlock => exact absurd hp (by decide)
      | reset =>
        have : ∀ x : Cell.Bits, Cell.contains (x &&& Cell.TX_CLOSED) Cell.PARKING ≠ true := by decide
        exact absurd hp (this _)
      | signal close p evs h0 =>
        have h0' : s.cpc a = .notifyStart close := h0
        rw [hmo.holder, if_neg (by rw [h0']; simp)]
        have hp' : Cell.contains m.val Cell.PARKING = true := by
          rw [hlv] at hp
          revert hp
          generalize m.val = x
          revert x
          cases close <;> decide
        have h1 := h.last m hlast hp'
        have hne : m.holder ≠ a := by
          intro he
          rw [he, h0'] at h1
          cases h1
        rw [hpb _ hne]
        exact ⟨h1, (h.holder n m hrl hp').1, hnd _ h1⟩
      | clear t h0 =>
        exfalso
        have h0' : s.cpc a = .notifyClear t := h0
        have hlo : Cell.lockOk s.cell.lock (s.cpc a) = true := hlk.held a (hlk.uniq a (by rw [h0]; rfl))
        rw [h0'] at hlo
        have : ∀ x : Cell.Bits, (x = 2#3 ∨ x = 6#3) → Cell.contains (x &&& ~~~Cell.NOTIFYING) Cell.PARKING ≠ true := by decide
        exact this _ (by simpa [Cell.lockOk] using hlo) hp
  -- `lock` only grows
  have hle : ∀ (j : Nat) m, s.lock[j]? = some m → r.1.lock[j]? = some m := by
    rcases hgrow with ⟨hlock, _⟩ | ⟨n, m, od, msg, hr, hn, hmo, _⟩
    · rw [hlock]; exact fun _ _ h => h
    · rw [hmo.lock]
      exact fun j m h => getElem?_append_of_some h
  have hget : ∀ {n : Nat} {msg : LMsg}, n + 1 = s.lock.length → r.1.lock = s.lock ++ [msg] →
      ∀ (j : Nat) mj, r.1.lock[j]? = some mj → s.lock[j]? = some mj ∨ j = n + 1 ∧ mj = msg := by
    intro n msg hn hlock j mj hj
    rw [hlock] at hj
    rcases Nat.lt_or_ge j s.lock.length with h1 | h1
    · rw [List.getElem?_append_left h1] at hj
      exact .inl hj
    · rw [List.getElem?_append_right h1] at hj
      rcases Nat.eq_zero_or_pos (j - s.lock.length) with h0 | h0
      · rw [h0] at hj
        exact .inr ⟨by omega, (Option.some.inj hj).symm⟩
      · rw [List.getElem?_eq_none (by simp only [List.length_singleton]; omega)] at hj
        cases hj
  have hl : ∀ (j : Nat) m, r.1.lock[j]? = some m → s.lock[j]? = some m ∨
      (Cell.contains m.val Cell.PARKING = true → ∀ y, .retWait m.holder y ∉ cellOf tr) := by
    rcases hgrow with ⟨hlock, _⟩ | ⟨n, m, od, msg, hr, hn, hmo, _, hmsg⟩
    · rw [hlock]; exact fun _ _ h => .inl h
    · intro j mj hj
      rcases hget hn hmo.lock j mj hj with h1 | ⟨_, rfl⟩
      · exact .inl h1
      · exact .inr fun hp => (hmsg hp).2.2
  have hext : ∀ v, CKnow tr s.lock v → CKnow (tr ++ r.2) r.1.lock v := fun v hv => hv.ext hle hl
  have hholder : ∀ (j : Nat) m, r.1.lock[j]? = some m → Cell.contains m.val Cell.PARKING = true →
      .callWait m.holder ∈ cellOf (tr ++ r.2) ∧ (Cell.owns (r.1.cpc m.holder) = false → j < (r.1.core.view m.holder).ts .lock) := by
    have hold : ∀ (j : Nat) m, s.lock[j]? = some m → Cell.contains m.val Cell.PARKING = true →
        .callWait m.holder ∈ cellOf (tr ++ r.2) ∧ (Cell.owns (r.1.cpc m.holder) = false → j < (r.1.core.view m.holder).ts .lock) := by
      intro j m hj hp
      obtain ⟨h1, h2⟩ := h.holder j m hj hp
      refine ⟨by rw [cellOf_append]; exact List.mem_append_left _ h1, fun hno => ?_⟩
      by_cases hha : m.holder = a
      · rw [hha] at hno h2 ⊢
        rcases hgrow with ⟨hlock, hca⟩ | ⟨n, m', od, msg, hr, hn, hmo, _, hmsg⟩
        · rw [hpa, hca.owns] at hno
          exact Nat.lt_of_lt_of_le (h2 hno) (ho.le.1 .lock)
        · have := (List.getElem?_eq_some_iff.1 hj).1
          have := hmo.seen
          omega
      · rw [hpb _ hha] at hno
        rw [ho.other _ hha]
        exact h2 hno
    rcases hgrow with ⟨hlock, _⟩ | ⟨n, m, od, msg, hr, hn, hmo, _, hmsg⟩
    · rw [hlock]; exact hold
    · intro j mj hj hp
      rcases hget hn hmo.lock j mj hj with h1 | ⟨_, rfl⟩
      · exact hold j mj h1 hp
      · obtain ⟨h1, h2, _⟩ := hmsg hp
        refine ⟨by rw [cellOf_append]; exact List.mem_append_left _ h2, fun hno => ?_⟩
        rw [h1] at hno; cases hno
  -- a new close
  have hclose : ∀ b, .signal b true ∈ k.2 → ∃ n m od msg, s.readLock a n = some m ∧ n + 1 = s.lock.length ∧
      RmwOut tr s a n m od k r msg ∧ r.1.lock[n + 1]? = some msg ∧ Cell.contains msg.val Cell.TX_CLOSED = true := by
    intro b hs
    rcases hgrow with ⟨hlock, hca⟩ | ⟨n, m, od, msg, hr, hn, hmo, hrt, _⟩
    · exact absurd hs (hca.nosig b true)
    · refine ⟨n, m, od, msg, hr, hn, hmo, by rw [hmo.lock, hn]; simp, ?_⟩
      rw [hmo.val]
      generalize hkl : k.1.lock = l at hrt
      generalize hkp : k.1.pc a = p at hrt
      generalize hke : k.2 = es at hrt hs
      cases hrt with
      | lock => simp at hs
      | unlock prev q evs h0 hl0 he => rcases he with rfl | ⟨rfl, _⟩ | ⟨v, rfl⟩ <;> simp at hs
      | reset _ _ _ _ _ _ _ hp => rcases hp with ⟨_, rfl⟩ | ⟨rfl, _⟩ <;> simp at hs
      | signal close _ _ _ hp =>
        have : close = true := by rcases hp with ⟨_, _, rfl⟩ | ⟨_, _, rfl⟩ <;> simp at hs <;> exact hs.2
        subst this
        rw [Cell.contains_or_signal]; simp
      | clear => simp at hs
  -- the new view of the operation
  have hview : CKnow (tr ++ r.2) r.1.lock (r.1.core.view a) := by
    intro n' hn'
    refine ⟨((hb'.view a) n' hn').1, ?_⟩
    rcases ho.org n' hn' with h1 | h1 | ⟨m, h1, h2, h3⟩
    · exact (hext _ (h.all.view a) n' h1).2.le ho.le.1
    · refine ⟨fun b y hby j mj hj hp hh => ?_, fun b hb1 => ?_⟩
      · rcases ho.at hby with h2 | ⟨_, h2⟩
        · have := At.lt h2; omega
        · have hba := hcl b y (List.mem_of_getElem? h2)
          subst hba
          have h3 := (hholder j mj hj hp).2
          rw [hh] at h3
          exact h3 (by rw [hret' b y hby.cellOf]; rfl)
      · rcases ho.at hb1 with h2 | ⟨_, h2⟩
        · have := At.lt h2; omega
        · obtain ⟨n, m, od, msg, _, _, hmo, h3, h4⟩ := hclose b (List.mem_of_getElem? h2)
          exact ⟨n + 1, msg, hmo.seen, h3, h4⟩
    · exact (hext _ (h.locks m h1) n' h2).2.le h3
  have hviews : ∀ b, CKnow (tr ++ r.2) r.1.lock (r.1.core.view b) := by
    intro b
    by_cases hba : b = a
    · subst hba; exact hview
    · rw [ho.other b hba]; exact hext _ (h.all.view b)
  refine ⟨⟨hviews, fun l m hm => ?_⟩, ?_, ?_, hholder, ?_, ?_, ?_⟩
  · rw [ho.mem] at hm
    exact hext _ (h.all.msg l m hm)
  · rcases hgrow with ⟨hlock, _⟩ | ⟨n, m, od, msg, hr, hn, hmo, _, hmsg⟩
    · rw [hlock]; intro m hm; have := hext _ (h.locks m hm); rwa [hlock] at this
    · intro m' hm'
      rw [hmo.lock] at hm'
      rcases List.mem_append.1 hm' with hm' | hm'
      · exact hext _ (h.locks m' hm')
      · rw [List.mem_singleton.1 hm']
        intro n' hn'
        rcases hmo.org n' hn' with h1 | ⟨h1, h2⟩ | ⟨h1, h2⟩
        · have := hext _ (h.locks m (readLock_mem hr)) n' h1
          exact ⟨this.1, this.2.le hmo.base.1⟩
        · have := hext _ (h.all.view a) n' h1
          exact ⟨this.1, this.2.le h2.1⟩
        · have hlen : r.2.length = k.2.length := by
            have := congrArg List.length ho.map
            simpa using this
          have htl : (k.2.takeWhile atomicEv).length ≤ k.2.length := (List.takeWhile_prefix _).length_le
          refine ⟨by rw [List.length_append]; omega, fun b y hby => ?_, fun b hb1 => ?_⟩
          · exfalso
            rcases ho.at hby with h3 | ⟨_, h3⟩
            · have := At.lt h3; omega
            · have h4 : (k.2.takeWhile atomicEv)[n' - tr.length]? = some (.retWait b y) := by
                rw [← h3]
                have hlt : n' - tr.length < (k.2.takeWhile atomicEv).length := by omega
                obtain ⟨t, ht⟩ := List.takeWhile_prefix (l := k.2) atomicEv
                rw [← List.getElem?_append_left (l₂ := t) hlt, ht]
              have h5 := List.all_takeWhile (l := k.2) (p := atomicEv)
              rw [List.all_eq_true] at h5
              exact absurd (h5 _ (List.mem_of_getElem? h4)) (by simp [atomicEv])
          · rcases ho.at hb1 with h3 | ⟨_, h3⟩
            · have := At.lt h3; omega
            · obtain ⟨n2, m2, od2, msg2, _, hn2, hmo2, h5, h6⟩ := hclose b (List.mem_of_getElem? h3)
              obtain rfl : n2 = n := by omega
              have : msg2 = msg := by
                have h7 : r.1.lock[n2 + 1]? = some msg := by rw [hmo.lock, hn]; simp
                exact Option.some.inj (h5.symm.trans h7)
              subst this
              exact ⟨n2 + 1, msg2, hmo2.ts, h5, h6⟩
  · rcases hgrow with ⟨hlock, _⟩ | ⟨n, m, od, msg, hr, hn, hmo, _, hmsg⟩
    · rw [hlock]; exact h.bound
    · intro j mj hj
      rcases hget hn hmo.lock j mj hj with h1 | ⟨rfl, rfl⟩
      · exact h.bound j mj h1
      · have := readLock_spec hr
        exact hmo.bound this.2 (h.bound n m this.1)
  · intro m' hm' hp
    rcases hgrow with ⟨hlock, hca⟩ | ⟨n, m, od, msg, hr, hn, hmo, _, hmsg⟩
    · rw [hlock] at hm'
      have h1 := h.last m' hm' hp
      by_cases hha : m'.holder = a
      · rw [hha] at h1 ⊢
        rw [hpa, hca.owns]; exact h1
      · rw [hpb _ hha]; exact h1
    · rw [hmo.lock, List.getLast?_append] at hm'
      obtain rfl : msg = m' := Option.some.inj hm'
      exact (hmsg hp).1
  · intro d p q b hp hq hpq
    rcases ho.at hq with h1 | ⟨h1, h2⟩
    · -- an old call
      have hql := At.lt h1
      have hpq' := hpq.of_append hql
      obtain ⟨h3, h4⟩ := h.late d p q b (hp.of_append (by have := hb.lt hpq'; omega)) h1 hpq'
      by_cases hda : d = a
      · subst hda
        rcases h3 with ⟨h3, j, mj, h5, h6, h7⟩ | h3
        · rw [hpa]
          have hclosed : ∀ n m, s.readLock d n = some m → Cell.contains m.val Cell.TX_CLOSED = true := by
            intro n m hr
            obtain ⟨h8, h9⟩ := readLock_spec hr
            exact hc.mono j n mj m (by omega) h6 h8 h7
          cases hm with
          | quiet _ _ hs => exact absurd h3 hs
          | waker _ _ how => rw [h3] at how; cases how
          | load n m od hr _ _ hcl2 _ _ =>
            obtain ⟨h8, h9⟩ := hcl2 h3 (hclosed n m hr)
            refine ⟨.inr h8, fun n' y hn' => ?_⟩
            rcases ho.at hn' with h10 | ⟨_, h10⟩
            · exact h4 n' y h10
            · have h10 := List.mem_of_getElem? h10
              rw [h9, List.mem_singleton] at h10
              cases h10; rfl
          | rmw n m od hr hn hrt =>
            exfalso
            have h8 := hclosed n m hr
            have hlv : s.cell.lock = m.val := lastVal_of (last_of_read (readLock_spec hr).1 hn)
            generalize hkl : k.1.lock = l at hrt
            generalize hkp : k.1.pc d = p at hrt
            generalize hke : k.2 = es at hrt
            cases hrt with
            | lock _ hl0 => rw [← hlv, hl0] at h8; exact absurd h8 (by decide)
            | unlock _ _ _ h0 => cases h3.symm.trans h0
            | reset _ _ _ _ _ _ h0 => cases h3.symm.trans h0
            | signal _ _ _ h0 => cases h3.symm.trans h0
            | clear _ h0 => cases h3.symm.trans h0
        · exfalso
          exact tr_not_done ht h3
      · rw [hpb d hda, ho.other d hda]
        refine ⟨?_, fun n' y hn' => ?_⟩
        · rcases h3 with ⟨h3, j, mj, h5, h6, h7⟩ | h3
          · exact .inl ⟨h3, j, mj, h5, hle j mj h6, h7⟩
          · exact .inr h3
        · rcases ho.at hn' with h10 | ⟨_, h10⟩
          · exact h4 n' y h10
          · exact absurd (hcl d y (List.mem_of_getElem? h10)) hda
    · -- a new call
      have hmem := List.mem_of_getElem? h2
      obtain rfl : d = a := hop _ hmem
      obtain ⟨e, he, hpe⟩ := hpq
      have hpv : p ∈ (r.1.core.view d).hb := by
        have hq1 := ho.new q h1 (At.lt hq)
        exact ((hb'.view d) q hq1).2 e he p hpe
      obtain ⟨j, mj, h5, h6, h7⟩ := (hviews d p hpv).2.close b hp
      have hpc : k.1.pc d = .waitStart ∧ s.cpc d = .idle ∧ k.2 = [.callWait d] := by
        generalize k.1.pc d = p at ht
        generalize k.2 = es at ht hmem
        cases ht
        case callWait h0 => exact ⟨rfl, h0, rfl⟩
        all_goals simp at hmem
      rw [hpa]
      refine ⟨.inl ⟨hpc.1, j, mj, h5, h6, h7⟩, fun n' y hn' => ?_⟩
      rcases ho.at hn' with h10 | ⟨_, h10⟩
      · have := hret d y h10.cellOf
        rw [hpc.2.1] at this
        cases this
      · have h10 := List.mem_of_getElem? h10
        rw [hpc.2.2, List.mem_singleton] at h10
        cases h10
  · intro d q hq
    rcases ho.at hq with h1 | ⟨h1, h2⟩
    · have hql := At.lt h1
      rcases h.wait d q h1 with ⟨v, h3, h4⟩ | ⟨b, p, h3, h4, h5, h6⟩
      · exact .inl ⟨v, h3, h4.append⟩
      · refine .inr ⟨b, p, h3, h4, h5.append, fun n y hn hnq => ?_⟩
        have hnq := hnq.of_append hql
        exact h6 n y (hn.of_append (by have := hb.lt hnq; omega)) hnq
    · have hmem := List.mem_of_getElem? h2
      obtain rfl : d = a := hcl _ _ hmem
      cases hm with
      | quiet _ hw => exact absurd hmem (hw d)
      | waker _ he => rw [he] at hmem; simp at hmem
      | load n m od hr hca hw _ _ _ =>
        right
        obtain ⟨_, hpc, hmv⟩ := hw d hmem
        obtain ⟨hrl, hts⟩ := readLock_spec hr
        have hpk : Cell.contains m.val Cell.PARKING = true := by rw [hmv]; decide
        obtain ⟨h3, h4⟩ := h.holder n m hrl hpk
        obtain ⟨p, hp⟩ := mem_cellOf h3
        refine ⟨m.holder, p, ?_, by have := At.lt hp; omega, hp.append, fun n' y hn' hnq => ?_⟩
        · intro he
          rw [he, hpc] at h4
          have := h4 rfl
          omega
        · obtain ⟨e, he, hpe⟩ := hnq
          have hpv : n' ∈ ((s.doLoad d n m od k).1.core.view d).hb := by
            have hq1 := ho.new q h1 (At.lt hq)
            exact ((hb'.view d) q hq1).2 e he n' hpe
          have h5 := (hviews d n' hpv).2.ret m.holder y hn' n m hrl hpk rfl
          have h6 : ((s.doLoad d n m od k).1.core.view d).ts .lock = ((s.load d n m od.acq).core.view d).ts .lock := by
            simp [XState.doLoad, XState.emit, XState.goto, upd]
          rw [h6] at h5
          have := load_bound s d n m od.acq hts (h.bound n m hrl)
          omega
      | rmw n m od hr hn hrt =>
        left
        have hwk := hc.exec.wakerInv hstd
        generalize hkl : k.1.lock = l at hrt
        generalize hkp : k.1.pc d = p at hrt
        generalize hke : k.2 = es at hrt hmem h2
        cases hrt with
        | lock => simp at hmem
        | unlock prev q' evs h0 hl0 he =>
          rcases he with rfl | ⟨rfl, rfl, hnone⟩ | ⟨v, rfl⟩
          · simp at hmem
          · obtain ⟨v, h3, _⟩ := hwk.mine d (by rw [h0]; rfl)
            rw [hnone] at h3; cases h3
          · refine ⟨v, ?_⟩
            match hi : q - tr.length with
            | 0 => rw [hi] at h2; cases h2
            | 1 =>
              have h3 := ho.at' (i := 0) (e := .register d v) (by rw [hke]; rfl)
              have : q - 1 = tr.length + 0 := by omega
              rw [this]
              exact ⟨by omega, h3⟩
            | i + 2 => rw [hi] at h2; cases h2
        | reset _ _ _ _ _ _ _ hp => rcases hp with ⟨_, rfl⟩ | ⟨rfl, _⟩ <;> simp at hmem
        | signal _ _ _ _ hp => rcases hp with ⟨_, _, rfl⟩ | ⟨_, _, rfl⟩ <;> simp at hmem
        | clear => simp at hmem

/-! ### All invariants -/

structure XInv (w cap : Nat) (c : Cell.Config) (tr : List (REv V)) (s : XState w V) : Prop where
  base : BInv w cap tr s
  cell : CInv c tr s
  sig : SInv tr s
  know : NInv tr s

theorem XExec.xinv {s : XState w V} (hw : WellSized w cap) (ho : Synchronised o) (hco : CellSync co) (hstd : c.std = true)
    (h : XExec o co c w cap tr s) : XInv w cap c tr s := by
  induction h with
  | init => exact ⟨BInv.init hw, CInv.init, SInv.init, NInv.init⟩
  | @step tr s s' act evs h hs ht ih =>
    have hb' := (XExec.step h hs ht).binv hw ho
    cases act with
    | core act =>
      obtain ⟨r, hr, he⟩ := Option.map_eq_some_iff.1 hs
      cases he
      exact ⟨hb', ih.cell.core hr, ih.sig.core hr, ih.know.core ih.base.hb hb'.hb hr⟩
    | cell act n =>
      obtain ⟨k, l, x, htr, hm⟩ := cellStep_move hstd ih.cell hs
      have hc' := ih.cell.pres hstd hco ih.base.hb.now htr hm
      exact ⟨hb', hc', ih.sig.pres hstd hco ih.base.hb.now ih.cell htr hm hb'.hb,
        ih.know.pres hstd hco ih.base.hb ih.cell htr hm hb'.hb hc'⟩

end Thingbuf.RA
