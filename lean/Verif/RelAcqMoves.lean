import Verif.RelAcqPres
/-
Preservation of the invariant of the release/acquire machine: the steps that claim a slot, access an
element or give a slot back.
-/
namespace Thingbuf.RA

variable {w cap : Nat} {V : Type}

theorem own_elem {T : Trace V} {s : State w V} (hw : WellSized w cap) (hi : Inv False w cap T s)
    {a : OpId} {i : Nat} (h : elemOf (Params.new w cap) (s.pc a) = some i) : Own cap T a i := by
  cases hp : s.pc a <;> rw [hp] at h <;> simp only [elemOf, Option.some.injEq] at h
  case pushInit t =>
    have := hi.pcs a
    rw [hp] at this
    obtain ⟨q, h1, _, h2, _⟩ := this
    rw [h2, idx_enc hw] at h
    exact ⟨q, h.symm, .inl h1⟩
  case pushHeld j ns => subst h; exact hi.own_held (.inl hp)
  case popHeld j ns => subst h; exact hi.own_held (.inr hp)
  all_goals cases h

/-- A published slot is owned by nobody. -/
theorem pub_not_own {T : Trace V} {s : State w V} (hw : WellSized w cap) (hi : Inv False w cap T s)
    {p : Nat} (h1 : nDeq T ≤ p) (h2 : p < nRes T) (hst : s.st (p % cap) = enc w cap p + 1#w) (b : OpId) :
    ¬ Own cap T b (p % cap) := by
  have hge := hi.ge
  rintro ⟨q, hm, hq | hq⟩
  · have h3 := hq.lt; have h4 := hq.nd
    have : p = q := mod_inj_window (H := nDeq T) hm (by omega) (by omega) (by omega) (by omega)
    subst this
    rcases hi.busy p b h1 hq.res with ⟨-, v, -, hc⟩ | ⟨hst', -⟩
    · exact hq.ncom ⟨_, _, hc⟩
    · exact enc_ne_enc_succ hw rfl (hst'.symm.trans hst)
  · have h3 := hq.lt; have h4 := hq.nr
    have : p = q + cap := mod_inj_window (cap := cap) (H := nDeq T) (by simp [hm]) (by omega)
      (by omega) (by omega) (by omega)
    omega

theorem Idle.not_own {tr : List (REv V)} {s : RState w V} (hw : WellSized w cap) (hi : RInv w cap tr s)
    {p : Nat} (h : Idle w cap (evsOf tr) s p) (b : OpId) : ¬ Own cap (evsOf tr) b (p % cap) := by
  obtain ⟨h1, h2, ⟨h3, h4⟩ | ⟨h3, h4⟩⟩ := h
  · exact pub_not_own hw hi.base.inv h1 h3 h4 b
  · exact hi.base.inv.free_not_own hw h3 h2 h4 b

theorem add_cap_div (h : 0 < cap) (p : Nat) : (p + cap) / cap = p / cap + 1 := Nat.add_div_right p h

/-- Whoever has acquired the free state of the next position may reserve it. -/
theorem RInv.claimPush {tr : List (REv V)} {s : RState w V} (hw : WellSized w cap)
    (hi : RInv w cap tr s) {a : OpId}
    (h : Has s a (nRes (evsOf tr) % cap) (2 * (nRes (evsOf tr) / cap))) :
    nRes (evsOf tr) < nDeq (evsOf tr) + cap ∧
    s.last (.slot (nRes (evsOf tr) % cap)) = enc w cap (nRes (evsOf tr)) ∧
    (s.mem (.slot (nRes (evsOf tr) % cap))).length = 2 * (nRes (evsOf tr) / cap) + 1 := by
  obtain ⟨m, h1, -⟩ := h
  have hlt := lt_of_getElem?_some h1
  have hpos := hw.1
  have hle := hi.base.inv.le
  have hge := hi.base.inv.ge
  have hc : nRes (evsOf tr) < nDeq (evsOf tr) + cap := by
    rcases Nat.lt_or_ge (nRes (evsOf tr)) (nDeq (evsOf tr) + cap) with h | h
    · exact h
    · exfalso
      have e : nRes (evsOf tr) = nDeq (evsOf tr) + cap := by omega
      have := (hi.len (nDeq (evsOf tr)) (Nat.le_refl _) (by omega)).1 (by omega)
      rw [e, Nat.add_mod_right, add_cap_div hpos] at hlt
      rcases this with ⟨-, hl⟩ | ⟨-, hl⟩ <;> rw [hl] at hlt <;> omega
  refine ⟨hc, ?_⟩
  rcases (hi.len (nRes (evsOf tr)) hle hc).2 (Nat.le_refl _) with h | ⟨-, -, hl⟩
  · exact h
  · omega

theorem RInv.claimPop {tr : List (REv V)} {s : RState w V} (hw : WellSized w cap)
    (hi : RInv w cap tr s) {a : OpId}
    (h : Has s a (nDeq (evsOf tr) % cap) (2 * (nDeq (evsOf tr) / cap) + 1)) :
    nDeq (evsOf tr) < nRes (evsOf tr) ∧
    s.last (.slot (nDeq (evsOf tr) % cap)) = enc w cap (nDeq (evsOf tr)) + 1#w ∧
    (s.mem (.slot (nDeq (evsOf tr) % cap))).length = 2 * (nDeq (evsOf tr) / cap) + 2 := by
  obtain ⟨m, h1, -⟩ := h
  have hlt := lt_of_getElem?_some h1
  have hpos := hw.1
  have hl := hi.len (nDeq (evsOf tr)) (Nat.le_refl _) (by omega)
  have hc : nDeq (evsOf tr) < nRes (evsOf tr) := by
    rcases Nat.lt_or_ge (nDeq (evsOf tr)) (nRes (evsOf tr)) with h | h
    · exact h
    · rcases hl.2 h with ⟨-, h⟩ | ⟨-, -, h⟩ <;> omega
  refine ⟨hc, ?_⟩
  rcases hl.1 hc with ⟨-, h⟩ | h
  · omega
  · exact h

/-- The message that was acquired is the last one. -/
theorem Has.last {s : RState w V} {a : OpId} {i k : Nat} (h : Has s a i k)
    (hl : (s.mem (.slot i)).length = k + 1) :
    ∃ m, (s.mem (.slot i)).getLast? = some m ∧ m.view.le (s.view a) := by
  obtain ⟨m, h1, h2⟩ := h
  refine ⟨m, ?_, h2⟩
  rw [List.getLast?_eq_getElem?, hl]
  exact h1

theorem noAcc_of {evs : List (Event V)} (h : evs.all (fun e => (touched e).isNone) = true) :
    NoAcc evs := by
  intro e hm
  exact Option.isNone_iff_eq_none.1 (List.all_eq_true.1 h _ hm)

/-- A push reserves its place. -/
theorem RInv.reserve {tr : List (REv V)} {s : RState w V} {a : OpId} {m : Msg w} {o : MOrd} {wr q : Nat}
    {k : State w V × List (Event V)} (hw : WellSized w cap) (hi : RInv w cap tr s)
    (hm : m ∈ s.mem .tail) (hf : s.fits .tail m.ts wr = true)
    (hq : q = nRes (evsOf tr)) (hp : Pend (evsOf tr) a .push) (hc : closedB (evsOf tr) = false)
    (hh : Has s a (q % cap) (2 * (q / cap)))
    (hpc : k.1.pc a = .pushInit (enc w cap q)) (hcell : cell k.1 .tail = enc w cap (q + 1))
    (hevs : k.2 = [.reserve a (q % cap)]) :
    RInv w cap (tr ++ (s.doRmw a .tail m o wr k).2) (s.doRmw a .tail m o wr k).1 := by
  subst hq
  obtain ⟨hlt, hst, hlen⟩ := hi.claimPush hw hh
  have hle := hi.base.inv.le
  have hx : Ext s (s.doRmw a .tail m o wr k).1 := ((Ext.load ..).trans (Ext.emit ..)).trans (Ext.put ..)
  have hT : evsOf (tr ++ (s.doRmw a .tail m o wr k).2) =
      evsOf tr ++ [.reserve a (nRes (evsOf tr) % cap)] := by
    rw [evsOf_append]
    show _ ++ evsOf (cstamp _ _ k.2) = _
    rw [evsOf_stamp, hevs]
  have hacc : ∀ n j, AccAt (tr ++ (s.doRmw a .tail m o wr k).2) n j → AccAt tr n j ∨ (n = tr.length ∧ j = nRes (evsOf tr) % cap) := by
    intro n j hn
    have hn' : AccAt (tr ++ cstamp ((s.load a .tail m o.acq).view a).hb s.now k.2) n j := hn
    rw [hevs] at hn'
    exact hn'.of_first rfl (noAcc_of rfl)
  have hR : nRes (evsOf tr ++ [Event.reserve (V := V) a (nRes (evsOf tr) % cap)]) = nRes (evsOf tr) + 1 := by
    rw [nRes_append]; rfl
  have hD : nDeq (evsOf tr ++ [Event.reserve (V := V) a (nRes (evsOf tr) % cap)]) = nDeq (evsOf tr) := by
    rw [nDeq_append]; rfl
  obtain ⟨hlast, hlt'⟩ := hi.mem.rmw_last (.inr rfl) hm hf
  obtain ⟨x, hx1, hx2, hx3, hx4, hx5, hx5', hx6, -⟩ := put_mem_self
    ((s.load a .tail m o.acq).emit a (k.1.pc a) k.2).1 a .tail m.ts wr (cell k.1 .tail) o.rel m.view
  have hne : ∀ j, j ≠ .tail → (s.doRmw a .tail m o wr k).1.mem j = s.mem j :=
    fun j hj => put_mem_ne _ _ _ _ _ _ _ hj
  have hnl : ∀ j, j ≠ .tail → (s.doRmw a .tail m o wr k).1.last j = s.last j :=
    fun j hj => last_put_ne _ _ _ _ _ _ _ hj
  have hpa : (s.doRmw a .tail m o wr k).1.pc a = .pushInit (enc w cap (nRes (evsOf tr))) := by
    rw [← hpc]; exact upd_self ..
  have hpb : ∀ b, b ≠ a → (s.doRmw a .tail m o wr k).1.pc b = s.pc b := fun b h => upd_ne _ _ h
  have hcore : (s.doRmw a .tail m o wr k).1.core =
      { s.core.goto a (.pushInit (enc w cap (nRes (evsOf tr)))) with
        tail := enc w cap (nRes (evsOf tr) + 1) } := by
    unfold RState.doRmw
    simp only
    rw [core_put_tail, core_emit, core_load, hpc, hcell]
  have hwm : WordOk w cap (evsOf tr ++ [Event.reserve a (nRes (evsOf tr) % cap)])
      (s.doRmw a .tail m o wr k).1 a (.pushInit (enc w cap (nRes (evsOf tr)))) := trivial
  refine ⟨?_, ?_, ?_, ?_, ?_, ?_, ?_, ?_, ?_, ?_, ?_⟩
  · rw [List.length_append]
    show s.now + k.2.length = _ + (cstamp _ _ k.2).length
    rw [stamp_length, hi.now]
  · rw [hT, hR]
    show s.res + nRes k.2 = _
    rw [hi.res, hevs]; rfl
  · rw [hT, hD]
    show s.deq + nDeq k.2 = _
    rw [hi.deq, hevs]; rfl
  · rw [hT, hcore]
    exact hi.base.pres hw (.reserve a hp hc hlt hst)
  · rw [hT]
    have hmm : Mem w cap (evsOf tr ++ [Event.reserve (V := V) a (nRes (evsOf tr) % cap)]) s := by
      refine hi.mem.mono (fun _ => rfl) (by omega) (by omega) ?_
      intro hc; rw [closedB_append, hc]; rfl
    refine hmm.snoc (l := .tail) (x := x) (y := m) hx1 hne hlast (by omega) (fun _ => hx2) (by omega)
      (fun _ => ?_) ?_ ?_ ?_
    · have hborn : x.born = nRes (evsOf tr) + 1 := by
        rw [hx5]
        show s.res + nRes k.2 = _
        rw [hi.res, hevs]; rfl
      exact ⟨false, by rw [hx4, hborn, hcell]; rfl, by omega, by simp⟩
    · intro h; cases h
    · intro i j h; cases h
    · intro i j h; cases h
  · rw [hT]
    refine hi.words_of (a := a) hx hpb ?_ ?_
    · intro b h; exact upd_ne _ _ h
    · rw [hpa]; exact hwm
  · rw [hT]
    intro p h1 h2
    rw [hD] at h1 h2
    rw [hR, hne _ (by simp), hnl _ (by simp)]
    have hold := hi.len p h1 h2
    constructor
    · intro h3
      by_cases hpn : p = nRes (evsOf tr)
      · subst hpn; exact .inl ⟨hst, hlen⟩
      · exact hold.1 (by omega)
    · intro h3
      exact hold.2 (by omega)
  · intro p hid msg hmsg n hn
    rw [hT] at hid
    rw [hne _ (by simp)] at hmsg
    have hid' : Idle w cap (evsOf tr) s p := ?_
    · rcases hacc _ _ hn with hn | ⟨-, hn⟩
      · exact hi.free p hid' msg hmsg n hn
      · exfalso
        obtain ⟨h1, h2, h3⟩ := hid
        rw [hD] at h1 h2
        rw [hR, hnl _ (by simp)] at h3
        have hpn : p = nRes (evsOf tr) := mod_inj_window hn h1 h2 hle hlt
        subst hpn
        rcases h3 with ⟨-, h4⟩ | ⟨h3, -⟩
        · exact enc_ne_enc_succ hw rfl (hst.symm.trans h4)
        · omega
    obtain ⟨h1, h2, h3⟩ := hid
    rw [hD] at h1 h2
    rw [hR, hnl _ (by simp)] at h3
    refine ⟨h1, h2, ?_⟩
    rcases h3 with ⟨h3, h4⟩ | ⟨h3, h4⟩
    · left
      refine ⟨?_, h4⟩
      have : p ≠ nRes (evsOf tr) := by
        rintro rfl
        exact enc_ne_enc_succ hw rfl (hst.symm.trans h4)
      omega
    · exact .inr ⟨by omega, h4⟩
  · intro b i hb
    rw [hne _ (by simp)]
    by_cases h : b = a
    · subst h
      rw [hpa] at hb
      simp only [elemOf, idx_enc hw, Option.some.injEq] at hb
      subst hb
      obtain ⟨m0, hm0, hv0⟩ := hh.last hlen
      refine ⟨fun m1 hm1 => ?_, fun n hn => ?_⟩
      · rw [hm0] at hm1
        cases hm1
        exact Nat.le_trans (hi.mem.viewTs _ _ (List.mem_of_getLast? hm0))
          (Nat.le_trans (hv0.1 _) ((hx.view b).1 _))
      · rcases hacc _ _ hn with hn | ⟨hn, -⟩
        · exact (hx.view b).2 _ (hv0.2 _ (hi.free _ ⟨hle, hlt, .inr ⟨Nat.le_refl _, hst⟩⟩ m0 hm0 n hn))
        · rw [hn, ← hi.now]
          refine (Ext.put ..).view b |>.2 _ ?_
          exact emit_hb _ _ _ _ (Nat.le_refl _) (by rw [hevs]; simp [RState.load])
    · rw [hpb b h] at hb
      obtain ⟨h1, h2⟩ := hi.own b i hb
      refine ⟨fun m hm => Nat.le_trans (h1 m hm) ((hx.view b).1 _), fun k hk => ?_⟩
      rcases hacc _ _ hk with hk | ⟨-, hk⟩
      · exact (hx.view b).2 _ (h2 k hk)
      · exact absurd (hk ▸ own_elem hw hi.base.inv hb) (Idle.not_own hw hi ⟨hle, hlt, .inr ⟨Nat.le_refl _, hst⟩⟩ b)
  · intro i e he
    exact (hi.cont i e he).mono
  · obtain ⟨m0, hm0, hv0⟩ := hh.last hlen
    show ∀ p q i e, p < q → AccAt (tr ++ cstamp _ _ k.2) p i → (tr ++ cstamp _ _ k.2)[q]? = some e → _
    rw [hevs]
    refine race_first hi.race rfl (noAcc_of rfl) fun n hn => ?_
    exact ((Ext.load ..).view a).2 _ (hv0.2 _ (hi.free _ ⟨hle, hlt, .inr ⟨Nat.le_refl _, hst⟩⟩ m0 hm0 n hn))

/-- A pop claims the oldest element. -/
theorem RInv.dequeue {tr : List (REv V)} {s : RState w V} {a : OpId} {m : Msg w} {o : MOrd} {wr q : Nat}
    {k : State w V × List (Event V)} (hw : WellSized w cap) (hi : RInv w cap tr s)
    (hm : m ∈ s.mem .head) (hf : s.fits .head m.ts wr = true)
    (hq : q = nDeq (evsOf tr)) (hp : Pend (evsOf tr) a .pop)
    (hh : Has s a (q % cap) (2 * (q / cap) + 1))
    (hpc : k.1.pc a = .popHeld (q % cap) (enc w cap (q + cap))) (hcell : cell k.1 .head = enc w cap (q + 1))
    (hevs : k.2 = [.dequeue a (q % cap) (s.core.val (q % cap)), .ret a .popped]) :
    RInv w cap (tr ++ (s.doRmw a .head m o wr k).2) (s.doRmw a .head m o wr k).1 := by
  subst hq
  obtain ⟨hlt, hst, hlen⟩ := hi.claimPop hw hh
  have hle := hi.base.inv.le
  have hge := hi.base.inv.ge
  have hpos := hw.1
  have hx : Ext s (s.doRmw a .head m o wr k).1 := ((Ext.load ..).trans (Ext.emit ..)).trans (Ext.put ..)
  have hT : evsOf (tr ++ (s.doRmw a .head m o wr k).2) = evsOf tr ++ k.2 := by
    rw [evsOf_append]
    show _ ++ evsOf (cstamp _ _ k.2) = _
    rw [evsOf_stamp]
  have hacc : ∀ n j, AccAt (tr ++ (s.doRmw a .head m o wr k).2) n j → AccAt tr n j ∨ (n = tr.length ∧ j = nDeq (evsOf tr) % cap) := by
    intro n j hn
    have hn' : AccAt (tr ++ cstamp ((s.load a .head m o.acq).view a).hb s.now k.2) n j := hn
    rw [hevs] at hn'
    exact hn'.of_first rfl (noAcc_of rfl)
  have hR : nRes (evsOf tr ++ k.2) = nRes (evsOf tr) := by
    rw [nRes_append, hevs]; rfl
  have hD : nDeq (evsOf tr ++ k.2) = nDeq (evsOf tr) + 1 := by
    rw [nDeq_append, hevs]; rfl
  obtain ⟨hlast, hlt'⟩ := hi.mem.rmw_last (.inl rfl) hm hf
  obtain ⟨x, hx1, hx2, hx3, hx4, hx5, hx5', hx6, -⟩ := put_mem_self
    ((s.load a .head m o.acq).emit a (k.1.pc a) k.2).1 a .head m.ts wr (cell k.1 .head) o.rel m.view
  have hne : ∀ j, j ≠ .head → (s.doRmw a .head m o wr k).1.mem j = s.mem j :=
    fun j hj => put_mem_ne _ _ _ _ _ _ _ hj
  have hnl : ∀ j, j ≠ .head → (s.doRmw a .head m o wr k).1.last j = s.last j :=
    fun j hj => last_put_ne _ _ _ _ _ _ _ hj
  have hpa : (s.doRmw a .head m o wr k).1.pc a =
      .popHeld (nDeq (evsOf tr) % cap) (enc w cap (nDeq (evsOf tr) + cap)) := by
    rw [← hpc]; exact upd_self ..
  have hpb : ∀ b, b ≠ a → (s.doRmw a .head m o wr k).1.pc b = s.pc b := fun b h => upd_ne _ _ h
  have hcore : (s.doRmw a .head m o wr k).1.core =
      { s.core.goto a (.popHeld (nDeq (evsOf tr) % cap) (enc w cap (nDeq (evsOf tr) + cap))) with
        head := enc w cap (nDeq (evsOf tr) + 1) } := by
    unfold RState.doRmw
    simp only
    rw [core_put_head, core_emit, core_load, hpc, hcell]
  have hwm : WordOk w cap (evsOf tr ++ k.2) (s.doRmw a .head m o wr k).1 a
    (.popHeld (nDeq (evsOf tr) % cap) (enc w cap (nDeq (evsOf tr) + cap))) := trivial
  refine ⟨?_, ?_, ?_, ?_, ?_, ?_, ?_, ?_, ?_, ?_, ?_⟩
  · rw [List.length_append]
    show s.now + k.2.length = _ + (cstamp _ _ k.2).length
    rw [stamp_length, hi.now]
  · rw [hT, hR]
    show s.res + nRes k.2 = _
    rw [hi.res, hevs]; rfl
  · rw [hT, hD]
    show s.deq + nDeq k.2 = _
    rw [hi.deq, hevs]; rfl
  · rw [hT, hcore, hevs]
    exact hi.base.pres hw (.dequeue a hp hlt hst)
  · rw [hT]
    have hmm : Mem w cap (evsOf tr ++ k.2) s := by
      refine hi.mem.mono (fun _ => rfl) (by omega) (by omega) ?_
      intro hc; rw [closedB_append, hc]; rfl
    refine hmm.snoc (l := .head) (x := x) (y := m) hx1 hne hlast (by omega) (fun _ => hx2) (by omega)
      ?_ (fun _ => ?_) ?_ ?_
    · intro h; cases h
    · have hborn : x.born = nRes (evsOf tr) := by
        rw [hx5]
        show s.res + nRes k.2 = _
        rw [hi.res, hevs]; rfl
      have hdeqs : x.deqs = nDeq (evsOf tr) + 1 := by
        rw [hx5']
        show s.deq + nDeq k.2 = _
        rw [hi.deq, hevs]; rfl
      exact ⟨by rw [hx4, hcell, hdeqs], by omega, by omega⟩
    · intro i j h; cases h
    · intro i j h; cases h
  · rw [hT]
    refine hi.words_of (a := a) hx hpb ?_ ?_
    · intro b h; exact upd_ne _ _ h
    · rw [hpa]; exact hwm
  · rw [hT]
    intro p h1 h2
    rw [hD] at h1 h2
    rw [hR, hne _ (by simp), hnl _ (by simp)]
    by_cases hpn : p = nDeq (evsOf tr) + cap
    · subst hpn
      refine ⟨fun h3 => by omega, fun h3 => .inr ⟨by omega, ?_, ?_⟩⟩
      · rw [Nat.add_mod_right, Nat.add_sub_cancel, hst]
      · rw [Nat.add_mod_right, hlen, add_cap_div hpos]; omega
    · exact hi.len p (by omega) (by omega)
  · intro p hid msg hmsg n hn
    rw [hT] at hid
    rw [hne _ (by simp)] at hmsg
    have hid' : Idle w cap (evsOf tr) s p ∧ p ≠ nDeq (evsOf tr) := ?_
    · rcases hacc _ _ hn with hn | ⟨-, hn⟩
      · exact hi.free p hid'.1 msg hmsg n hn
      · exact absurd (mod_inj_window hn hid'.1.1 hid'.1.2.1 (Nat.le_refl _) (by omega)) hid'.2
    obtain ⟨h1, h2, h3⟩ := hid
    rw [hD] at h1 h2
    rw [hR, hnl _ (by simp)] at h3
    have hpn : p ≠ nDeq (evsOf tr) + cap := by
      rintro rfl
      rcases h3 with ⟨h3, h4⟩ | ⟨h3, h4⟩
      · omega
      · rw [Nat.add_mod_right, hst] at h4
        exact enc_ne_enc_succ hw (by simp) h4.symm
    exact ⟨⟨by omega, by omega, h3⟩, by omega⟩
  · intro b i hb
    rw [hne _ (by simp)]
    by_cases h : b = a
    · subst h
      rw [hpa] at hb
      simp only [elemOf, Option.some.injEq] at hb
      subst hb
      obtain ⟨m0, hm0, hv0⟩ := hh.last hlen
      refine ⟨fun m1 hm1 => ?_, fun n hn => ?_⟩
      · rw [hm0] at hm1
        cases hm1
        exact Nat.le_trans (hi.mem.viewTs _ _ (List.mem_of_getLast? hm0))
          (Nat.le_trans (hv0.1 _) ((hx.view b).1 _))
      · rcases hacc _ _ hn with hn | ⟨hn, -⟩
        · exact (hx.view b).2 _ (hv0.2 _ (hi.free _ ⟨Nat.le_refl _, by omega, .inl ⟨hlt, hst⟩⟩ m0 hm0 n hn))
        · rw [hn, ← hi.now]
          refine (Ext.put ..).view b |>.2 _ ?_
          exact emit_hb _ _ _ _ (Nat.le_refl _) (by rw [hevs]; simp [RState.load])
    · rw [hpb b h] at hb
      obtain ⟨h1, h2⟩ := hi.own b i hb
      refine ⟨fun m hm => Nat.le_trans (h1 m hm) ((hx.view b).1 _), fun k hk => ?_⟩
      rcases hacc _ _ hk with hk | ⟨-, hk⟩
      · exact (hx.view b).2 _ (h2 k hk)
      · exact absurd (hk ▸ own_elem hw hi.base.inv hb) (Idle.not_own hw hi ⟨Nat.le_refl _, by omega, .inl ⟨hlt, hst⟩⟩ b)
  · intro i e he
    exact (hi.cont i e he).mono
  · obtain ⟨m0, hm0, hv0⟩ := hh.last hlen
    show ∀ p q i e, p < q → AccAt (tr ++ cstamp _ _ k.2) p i → (tr ++ cstamp _ _ k.2)[q]? = some e → _
    rw [hevs]
    refine race_first hi.race rfl (noAcc_of rfl) fun n hn => ?_
    exact ((Ext.load ..).view a).2 _ (hv0.2 _ (hi.free _ ⟨Nat.le_refl _, by omega, .inl ⟨hlt, hst⟩⟩ m0 hm0 n hn))

/-- The state after a `Ref` is dropped. -/
def drop (s : RState w V) (a : OpId) (i wr : Nat) (v : BitVec w) (rel : Bool) (e : Event V) :
    RState w V × List (REv V) :=
  ((s.emit a .done [e]).1.put a (.slot i) (wr - 1) wr v rel .bot, (s.emit a .done [e]).2)

/-- A `Ref` is dropped. -/
theorem RInv.drop {tr : List (REv V)} {s : RState w V} {a : OpId} {wr p : Nat} {v : BitVec w} {e : Event V}
    (hw : WellSized w cap) (hi : RInv w cap tr s)
    (hown : elemOf (Params.new w cap) (s.pc a) = some (p % cap))
    (hts : (s.view a).ts (.slot (p % cap)) < wr)
    (hp1 : nDeq (evsOf tr) ≤ p) (hp2 : p < nDeq (evsOf tr) + cap)
    (hlt : p < nRes (evsOf tr) → v = enc w cap p + 1#w ∧
      (s.mem (.slot (p % cap))).length = 2 * (p / cap) + 1)
    (hge : nRes (evsOf tr) ≤ p → v = enc w cap p ∧ (s.mem (.slot (p % cap))).length = 2 * (p / cap))
    (hne0 : s.mem (.slot (p % cap)) ≠ [])
    (hr : nRes [e] = 0) (hd : nDeq [e] = 0) (hto : touched e = some (p % cap))
    (hstep : StepR False w cap (evsOf tr) s.core
      { s.core.goto a .done with st := upd s.core.st (p % cap) v } [e]) :
    RInv w cap (tr ++ (drop s a (p % cap) wr v true e).2) (drop s a (p % cap) wr v true e).1 := by
  have hbase := hi.base.inv
  have hle := hbase.le
  have hgeR := hbase.ge
  have hpos := hw.1
  have hx : Ext s (RA.drop s a (p % cap) wr v true e).1 := (Ext.emit ..).trans (Ext.put ..)
  have hT : evsOf (tr ++ (RA.drop s a (p % cap) wr v true e).2) = evsOf tr ++ [e] := by
    rw [evsOf_append]
    show _ ++ evsOf (cstamp _ _ [e]) = _
    rw [evsOf_stamp]
  have hR : nRes (evsOf tr ++ [e]) = nRes (evsOf tr) := by rw [nRes_append, hr]; rfl
  have hD : nDeq (evsOf tr ++ [e]) = nDeq (evsOf tr) := by rw [nDeq_append, hd]; rfl
  obtain ⟨x, hx1, hx2, hx3, hx4, hx5, -, hx6, hx7⟩ := put_mem_self
    (s.emit a .done [e]).1 a (.slot (p % cap)) (wr - 1) wr v true .bot
  have hne : ∀ j, j ≠ .slot (p % cap) → (RA.drop s a (p % cap) wr v true e).1.mem j = s.mem j :=
    fun j hj => put_mem_ne _ _ _ _ _ _ _ hj
  have hnl : ∀ j, j ≠ .slot (p % cap) → (RA.drop s a (p % cap) wr v true e).1.last j = s.last j :=
    fun j hj => last_put_ne _ _ _ _ _ _ _ hj
  have hself : (RA.drop s a (p % cap) wr v true e).1.mem (.slot (p % cap)) = s.mem (.slot (p % cap)) ++ [x] := hx1
  have hsl : (RA.drop s a (p % cap) wr v true e).1.last (.slot (p % cap)) = v := last_put_self ..
  have hpa : (RA.drop s a (p % cap) wr v true e).1.pc a = .done := upd_self ..
  have hpb : ∀ b, b ≠ a → (RA.drop s a (p % cap) wr v true e).1.pc b = s.pc b := fun b h => upd_ne _ _ h
  have hcore : (RA.drop s a (p % cap) wr v true e).1.core =
      { s.core.goto a .done with st := upd s.core.st (p % cap) v } := by
    unfold RA.drop
    simp only
    rw [core_put_slot, core_emit]
    rfl
  have hwin : ∀ r, nDeq (evsOf tr) ≤ r → r < nDeq (evsOf tr) + cap → r % cap = p % cap → r = p :=
    fun r h1 h2 h3 => mod_inj_window h3 h1 h2 hp1 hp2
  have hmodp : p % cap + p / cap * cap = p := by
    have := Nat.div_add_mod p cap; rw [Nat.mul_comm]; omega
  obtain ⟨y, hy⟩ : ∃ y, (s.mem (.slot (p % cap))).getLast? = some y := by
    cases hg : (s.mem (.slot (p % cap))).getLast? with
    | none => exact absurd (List.getLast?_eq_none_iff.1 hg) hne0
    | some y => exact ⟨y, rfl⟩
  have hyt := (hi.own a _ hown).1 y hy
  have hborn : x.born = nRes (evsOf tr) := by
    rw [hx5]
    show s.res + nRes [e] = _
    rw [hr, hi.res]; rfl
  have hbv : v = x.val := hx4.symm
  refine ⟨?_, ?_, ?_, ?_, ?_, ?_, ?_, ?_, ?_, ?_, ?_⟩
  · rw [List.length_append]
    show s.now + [e].length = _ + (cstamp _ _ [e]).length
    rw [stamp_length, hi.now]
  · rw [hT, hR]
    show s.res + nRes [e] = _
    rw [hr, hi.res]; rfl
  · rw [hT, hD]
    show s.deq + nDeq [e] = _
    rw [hd, hi.deq]; rfl
  · rw [hT, hcore]
    exact hi.base.pres hw hstep
  · rw [hT]
    have hmm : Mem w cap (evsOf tr ++ [e]) s := by
      refine hi.mem.mono (fun _ => rfl) (by omega) (by omega) ?_
      intro hc; rw [closedB_append, hc]; rfl
    refine hmm.snoc (l := .slot (p % cap)) (x := x) (y := y) hx1 hne hy (by omega) ?_ (by omega) ?_ ?_ ?_ ?_
    · intro h; rcases h with h | h <;> cases h
    · intro h; cases h
    · intro h; cases h
    · intro i j h hic hl
      cases h
      rcases Nat.lt_or_ge p (nRes (evsOf tr)) with h | h
      · have := (hlt h).2; omega
      · obtain ⟨h1, h2⟩ := hge h
        have hj : j = p / cap := by omega
        subst hj
        rw [hmodp]
        exact ⟨by rw [← hbv, h1], by omega, by omega, by omega⟩
    · intro i j h hic hl
      cases h
      rcases Nat.lt_or_ge p (nRes (evsOf tr)) with h | h
      · obtain ⟨h1, h2⟩ := hlt h
        have hj : j = p / cap := by omega
        subst hj
        rw [hmodp]
        exact ⟨by rw [← hbv, h1], by omega, by omega, by omega⟩
      · have := (hge h).2; omega
  · rw [hT]
    refine hi.words_of (a := a) hx hpb ?_ ?_
    · intro b h; rfl
    · rw [hpa]; trivial
  · rw [hT]
    intro r h1 h2
    rw [hD] at h1 h2
    rw [hR]
    by_cases hrp : r % cap = p % cap
    · have := hwin r h1 h2 hrp
      subst this
      rw [hself, hsl, List.length_append]
      refine ⟨fun h => .inr ?_, fun h => .inl ?_⟩
      · obtain ⟨e1, e2⟩ := hlt h
        exact ⟨e1, by simp [e2]⟩
      · obtain ⟨e1, e2⟩ := hge h
        exact ⟨e1, by simp [e2]⟩
    · rw [hne _ (by simpa using hrp), hnl _ (by simpa using hrp)]
      exact hi.len r h1 h2
  · intro r hid msg hmsg n hn
    rw [hT] at hid
    have hn' := AccAt.of_first hto (noAcc_of rfl) hn
    by_cases hrp : r % cap = p % cap
    · rw [hrp, hself, List.getLast?_concat] at hmsg
      cases hmsg
      refine (hx7 rfl).2 _ ?_
      rcases hn' with hn' | ⟨hn', -⟩
      · refine (Ext.emit ..).view a |>.2 _ ?_
        rw [hrp] at hn'
        exact (hi.own a _ hown).2 n hn'
      · rw [hn', ← hi.now]
        exact emit_hb _ _ _ _ (Nat.le_refl _) (by simp)
    · rw [hne _ (by simpa using hrp)] at hmsg
      have hn' : AccAt tr n (r % cap) := by
        rcases hn' with hn' | ⟨-, hn'⟩
        · exact hn'
        · exact absurd hn' hrp
      refine hi.free r ?_ msg hmsg n hn'
      obtain ⟨h1, h2, h3⟩ := hid
      rw [hD] at h1 h2
      rw [hR, hnl _ (by simpa using hrp)] at h3
      exact ⟨h1, h2, h3⟩
  · intro b i hb
    by_cases h : b = a
    · subst h
      rw [hpa] at hb
      cases hb
    · rw [hpb b h] at hb
      have hip : i ≠ p % cap := by
        rintro rfl
        exact h (Own.unique hbase (own_elem hw hbase hb) (own_elem hw hbase hown))
      rw [hne _ (by simpa using hip)]
      obtain ⟨h1, h2⟩ := hi.own b i hb
      refine ⟨fun m hm => Nat.le_trans (h1 m hm) ((hx.view b).1 _), fun k hk => ?_⟩
      rcases AccAt.of_first hto (noAcc_of rfl) hk with hk | ⟨-, hk⟩
      · exact (hx.view b).2 _ (h2 k hk)
      · exact absurd hk hip
  · intro i e he
    exact (hi.cont i e he).mono
  · exact race_first hi.race hto (noAcc_of rfl) (hi.own a _ hown).2

/-- The owner of a slot accesses its element. -/
theorem RInv.access {tr : List (REv V)} {s s1 : RState w V} {a : OpId} {i : Nat} {x : Access V}
    {rest : List (Event V)} {pc : PC w} (hw : WellSized w cap) (hi : RInv w cap tr s)
    (hown : elemOf (Params.new w cap) (s.pc a) = some i)
    (hs1 : s1 = s ∨ ∃ v, s1 = s.putVal i v)
    (hpc : ∀ j, elemOf (Params.new w cap) pc = some j → j = i)
    (hword : ∀ T : Trace V, ∀ s : RState w V, WordOk w cap T s a pc)
    (hr : nRes rest = 0) (hd : nDeq rest = 0) (hna : NoAcc rest)
    (hstep : StepR False w cap (evsOf tr) s.core (s1.core.goto a pc) (.access a i x :: rest)) :
    RInv w cap (tr ++ (s1.emit a pc (.access a i x :: rest)).2)
      (s1.emit a pc (.access a i x :: rest)).1 := by
  have hbase := hi.base.inv
  have hmem : ∀ l, s1.mem l = s.mem l := by
    intro l; rcases hs1 with rfl | ⟨v, rfl⟩ <;> rfl
  have hvw : s1.view = s.view := by rcases hs1 with rfl | ⟨v, rfl⟩ <;> rfl
  have hnw : s1.now = s.now := by rcases hs1 with rfl | ⟨v, rfl⟩ <;> rfl
  have hrs : s1.res = s.res := by rcases hs1 with rfl | ⟨v, rfl⟩ <;> rfl
  have hds : s1.deq = s.deq := by rcases hs1 with rfl | ⟨v, rfl⟩ <;> rfl
  have hpcs : s1.pc = s.pc := by rcases hs1 with rfl | ⟨v, rfl⟩ <;> rfl
  have hols : s1.oldest = s.oldest := by rcases hs1 with rfl | ⟨v, rfl⟩ <;> rfl
  have hx : Ext s (s1.emit a pc (.access a i x :: rest)).1 := by
    refine Ext.trans ?_ (Ext.emit ..)
    exact ⟨fun l k m h => by rw [hmem]; exact h, fun b => by rw [hvw]; exact View.le_refl _⟩
  have hnr : nRes (.access a i x :: rest) = 0 := hr
  have hnd : nDeq (.access a i x :: rest) = 0 := hd
  have hT : evsOf (tr ++ (s1.emit a pc (.access a i x :: rest)).2) =
      evsOf tr ++ (.access a i x :: rest) := by
    rw [evsOf_append]
    show _ ++ evsOf (cstamp _ _ _) = _
    rw [evsOf_stamp]
  have hR : nRes (evsOf tr ++ (.access a i x :: rest)) = nRes (evsOf tr) := by rw [nRes_append, hnr]; rfl
  have hD : nDeq (evsOf tr ++ (.access a i x :: rest)) = nDeq (evsOf tr) := by rw [nDeq_append, hnd]; rfl
  have hm' : ∀ l, (s1.emit a pc (.access a i x :: rest)).1.mem l = s.mem l := hmem
  have hl' : ∀ l, (s1.emit a pc (.access a i x :: rest)).1.last l = s.last l := by
    intro l; unfold RState.last; rw [hm']
  have hpa : (s1.emit a pc (.access a i x :: rest)).1.pc a = pc := upd_self ..
  have hpb : ∀ b, b ≠ a → (s1.emit a pc (.access a i x :: rest)).1.pc b = s.pc b := fun b h => by
    rw [← hpcs]; exact upd_ne _ _ h
  have hO := own_elem hw hbase hown
  -- the accesses of the new trace
  have hacc : ∀ n j, AccAt (tr ++ (s1.emit a pc (.access a i x :: rest)).2) n j →
      AccAt tr n j ∨ (n = tr.length ∧ j = i) := fun n j hn => AccAt.of_first rfl hna hn
  have hnew : AccAt (tr ++ (s1.emit a pc (.access a i x :: rest)).2) tr.length i :=
    AccAt.first rfl
  refine ⟨?_, ?_, ?_, ?_, ?_, ?_, ?_, ?_, ?_, ?_, ?_⟩
  · rw [List.length_append]
    show s1.now + _ = _ + (cstamp _ _ _).length
    rw [stamp_length, hnw, hi.now]
  · rw [hT, hR]
    show s1.res + nRes _ = _
    rw [hnr, hrs, hi.res]; rfl
  · rw [hT, hD]
    show s1.deq + nDeq _ = _
    rw [hnd, hds, hi.deq]; rfl
  · rw [hT]
    exact hi.base.pres hw hstep
  · rw [hT]
    refine hi.mem.mono hm' (by omega) (by omega) ?_
    intro hc; rw [closedB_append, hc]; rfl
  · rw [hT]
    refine hi.words_of (a := a) hx hpb ?_ ?_
    · intro b h; show s1.oldest b = _; rw [hols]
    · rw [hpa]; exact hword _ _
  · rw [hT]
    unfold SlotLen
    simp only [hR, hD, hm', hl']
    exact hi.len
  · intro p hp m hm k hk
    rw [hT] at hp
    unfold Idle at hp
    simp only [hR, hD, hl'] at hp
    rw [hm'] at hm
    rcases hacc _ _ hk with hk | ⟨-, hk⟩
    · exact hi.free p hp m hm k hk
    · rw [← hk] at hO
      exact absurd hO (Idle.not_own hw hi hp a)
  · intro b j hbj
    rw [hm']
    by_cases h : b = a
    · subst h
      rw [hpa] at hbj
      have hji := hpc j hbj
      subst hji
      obtain ⟨h1, h2⟩ := hi.own b j hown
      refine ⟨fun m hm => Nat.le_trans (h1 m hm) ((hx.view b).1 _), fun k hk => ?_⟩
      rcases hacc _ _ hk with hk | ⟨hk, -⟩
      · exact (hx.view b).2 _ (h2 k hk)
      · rw [hk, ← hi.now, ← hnw]
        exact emit_hb _ _ _ _ (Nat.le_refl _) (by simp)
    · rw [hpb b h] at hbj
      obtain ⟨h1, h2⟩ := hi.own b j hbj
      refine ⟨fun m hm => Nat.le_trans (h1 m hm) ((hx.view b).1 _), fun k hk => ?_⟩
      rcases hacc _ _ hk with hk | ⟨-, hk⟩
      · exact (hx.view b).2 _ (h2 k hk)
      · subst hk
        exact absurd (Own.unique hbase (own_elem hw hbase hbj) hO) h
  · intro j e he
    rcases hs1 with rfl | ⟨v, rfl⟩
    · exact (hi.cont j e he).mono
    · have he' : e ∈ (upd s.cont i (s.cont i ++ [(s.now, v)])) j := he
      by_cases hj : j = i
      · subst hj
        rw [upd_self] at he'
        rcases List.mem_append.1 he' with he' | he'
        · exact (hi.cont j e he').mono
        · rw [List.mem_singleton.1 he']
          show AccAt _ s.now _
          rw [hi.now]
          exact hnew
      · rw [upd_ne _ _ hj] at he'
        exact (hi.cont j e he').mono
  · refine race_first hi.race rfl hna ?_
    rw [hvw]
    exact (hi.own a _ hown).2

end Thingbuf.RA
