import Verif.CoreInv
/-
Every step of the machine, taken in a state that satisfies the invariant, is one of the
position-level steps of `StepR`.
-/
namespace Thingbuf

variable {w cap : Nat} {V : Type}
variable {m : Prop}

/-- In any window of `cap` consecutive positions every residue occurs. -/
theorem exists_pos (h : 0 < cap) (H i : Nat) (hi : i < cap) :
    ∃ p, H ≤ p ∧ p < H + cap ∧ p % cap = i := by
  have hm := Nat.mod_lt H h
  have hd := Nat.div_add_mod H cap
  by_cases hle : H % cap ≤ i
  · refine ⟨cap * (H / cap) + i, by omega, by omega, ?_⟩
    rw [Nat.mul_add_mod, Nat.mod_eq_of_lt hi]
  · refine ⟨cap * (H / cap + 1) + i, ?_, ?_, ?_⟩
    · rw [Nat.mul_add]; omega
    · rw [Nat.mul_add]; omega
    · rw [Nat.mul_add_mod, Nat.mod_eq_of_lt hi]

theorem mod_inj_window {p q H : Nat} (hm : p % cap = q % cap) (h1 : H ≤ p)
    (h2 : p < H + cap) (h3 : H ≤ q) (h4 : q < H + cap) : p = q := by
  have a := Nat.div_add_mod p cap
  have b := Nat.div_add_mod q cap
  have hc : 0 < cap := by omega
  rcases Nat.lt_trichotomy (p / cap) (q / cap) with h | h | h
  · have := Nat.mul_le_mul_left cap h
    rw [Nat.succ_eq_add_one, Nat.mul_add, Nat.mul_one] at this
    omega
  · rw [h] at a; omega
  · have := Nat.mul_le_mul_left cap h
    rw [Nat.succ_eq_add_one, Nat.mul_add, Nat.mul_one] at this
    omega

theorem sub_mod_self {p : Nat} (h : cap ≤ p) : (p - cap) % cap = p % cap := by
  conv => rhs; rw [show p = (p - cap) + cap by omega]
  rw [Nat.add_mod_right]

/-- What a slot looks like: the position `p` of the current window that lives in the slot. -/
inductive SlotView (w cap : Nat) (tr : Trace V) (s : State w V) (i p : Nat) : Prop where
  | published (a : OpId) (hlt : p < nRes tr) (ha : (resOps tr)[p]? = some a)
      (hst : s.st i = enc w cap p + 1#w) (v : V) (hv : s.val i = some v)
      (hc : Event.commit a i (some v) ∈ tr)
  | writing (a : OpId) (hlt : p < nRes tr) (ha : (resOps tr)[p]? = some a)
      (hst : s.st i = enc w cap p) (ho : OwnsPush w cap p (s.pc a)) (hc : ¬ Committed tr a)
  | free (hle : nRes tr ≤ p) (hst : s.st i = enc w cap p) (hl : Left cap tr s p)
  | reading (hle : nRes tr ≤ p) (hcp : cap ≤ p) (hst : s.st i = enc w cap (p - cap) + 1#w)
      (b : OpId) (hb : (deqOps tr)[p - cap]? = some b)
      (hpc : s.pc b = .popHeld i (enc w cap p))

theorem Inv.slotAt {tr : Trace V} {s : State w V} (h : Inv m w cap tr s) (p : Nat)
    (h1 : nDeq tr ≤ p) (h2 : p < nDeq tr + cap) : SlotView w cap tr s (p % cap) p := by
  by_cases hlt : p < nRes tr
  · obtain ⟨a, ha⟩ : ∃ a, (resOps tr)[p]? = some a := ⟨_, List.getElem?_eq_getElem hlt⟩
    rcases h.busy p a h1 ha with ⟨hst, v, hv, hc⟩ | ⟨hst, ho, hc⟩
    · exact .published a hlt ha hst v hv hc
    · exact .writing a hlt ha hst ho hc
  · rcases h.free p (by omega) h2 with ⟨hst, hl⟩ | ⟨hcp, hst, b, hb, hpc⟩
    · exact .free (by omega) hst hl
    · exact .reading (by omega) hcp hst b hb hpc

theorem Inv.slot {tr : Trace V} {s : State w V} (hw : WellSized w cap) (h : Inv m w cap tr s)
    (q : Nat) : ∃ p, nDeq tr ≤ p ∧ p < nDeq tr + cap ∧ p % cap = q % cap ∧
      SlotView w cap tr s (q % cap) p := by
  obtain ⟨p, h1, h2, h3⟩ := exists_pos hw.1 (nDeq tr) (q % cap) (Nat.mod_lt _ hw.1)
  exact ⟨p, h1, h2, h3, h3 ▸ h.slotAt p h1 h2⟩

/-- A slot state equal to `enc q`, for a `q` that is recent enough, means that `q` itself is the
position living in the slot, and that it is free or being written. -/
theorem SlotView.of_enc {tr : Trace V} {s : State w V} (hw : WellSized w cap) {q p : Nat}
    (hv : SlotView w cap tr s (q % cap) p) (hm : p % cap = q % cap) (hst : s.st (q % cap) = enc w cap q)
    (h1 : p < q + period w cap) (h2 : q < p + period w cap) :
    p = q ∧ ((∃ a, q < nRes tr ∧ (resOps tr)[q]? = some a ∧ ¬ Committed tr a) ∨ nRes tr ≤ q) := by
  cases hv with
  | published a hlt ha hst' v hv hc =>
    exact absurd (hst ▸ hst') (enc_ne_enc_succ hw hm.symm)
  | writing a hlt ha hst' ho hc =>
    have := enc_inj hw (hst'.symm.trans hst) h1 h2
    subst this
    exact ⟨rfl, .inl ⟨a, hlt, ha, hc⟩⟩
  | free hle hst' hl =>
    have := enc_inj hw (hst'.symm.trans hst) h1 h2
    subst this
    exact ⟨rfl, .inr hle⟩
  | reading hle hcp hst' b hb hpc =>
    refine absurd (hst ▸ hst') (enc_ne_enc_succ hw ?_)
    rw [sub_mod_self hcp, hm]

/-- A slot state equal to `enc q + 1`: `q` is published, or it was dequeued and its `Ref` is
still alive. -/
theorem SlotView.of_succ {tr : Trace V} {s : State w V} (hw : WellSized w cap) {q p : Nat}
    (hv : SlotView w cap tr s (q % cap) p) (hm : p % cap = q % cap)
    (hst : s.st (q % cap) = enc w cap q + 1#w)
    (h1 : p < q + period w cap) (h2 : q + cap < p + period w cap) :
    (p = q ∧ ∃ a v, q < nRes tr ∧ (resOps tr)[q]? = some a ∧ s.val (q % cap) = some v ∧
      Event.commit a (q % cap) (some v) ∈ tr) ∨
    (p = q + cap ∧ nRes tr ≤ p ∧ ∃ b, (deqOps tr)[q]? = some b) := by
  cases hv with
  | published a hlt ha hst' v hv hc =>
    have := enc_inj hw (succ_inj (hst'.symm.trans hst)) h1 (by omega)
    subst this
    exact .inl ⟨rfl, a, v, hlt, ha, hv, hc⟩
  | writing a hlt ha hst' ho hc =>
    exact absurd (hst' ▸ hst) (enc_ne_enc_succ hw hm)
  | free hle hst' hl =>
    exact absurd (hst' ▸ hst) (enc_ne_enc_succ hw hm)
  | reading hle hcp hst' b hb hpc =>
    have := enc_inj hw (succ_inj (hst'.symm.trans hst)) (by omega) (by omega)
    subst this
    exact .inr ⟨by omega, hle, b, hb⟩

theorem isEmpty_or_oldest {tr : Trace V} {s : State w V} (hw : WellSized w cap)
    (h : Inv m w cap tr s) {q : Nat} (hq : q ≤ nDeq tr) (hb : nDeq tr + cap < q + period w cap)
    (hst : s.st (q % cap) = enc w cap q) : q = nDeq tr ∧ (IsEmpty tr ∨ OldestUncommitted tr) := by
  obtain ⟨p, h1, h2, h3, hv⟩ := h.slot hw q
  have hper := period_ge hw
  have hpos := hw.1
  obtain ⟨rfl, h4⟩ := hv.of_enc hw h3 hst (by omega) (by omega)
  have : p = nDeq tr := by omega
  refine ⟨this, ?_⟩
  rcases h4 with ⟨a, hlt, ha, hc⟩ | hle
  · exact .inr ⟨a, this ▸ ha, hc⟩
  · left
    have := h.le
    unfold IsEmpty
    omega

theorem openAt_now {tr : Trace V} {a : OpId} {op : Op} (hp : Pend tr a op) :
    closedB tr = false → OpenAt tr a := fun h =>
  ⟨tr, List.prefix_refl _, ⟨_, hp.inv⟩, fun hc => by rw [closedB_iff.2 hc] at h; cases h⟩

theorem push_sound {tr : Trace V} {s s' : State w V} {evs : List (Event V)} (hw : WellSized w cap)
    (h : Inv True w cap tr s) (hf : Fresh w cap tr) {a : OpId} {b : Backoff} {t : BitVec w}
    (hpc : s.pc a = .pushLoop b t) (hs : pushLoop (Params.new w cap) cap s a b t = (s', evs)) :
    StepR True w cap tr s s' evs := by
  have hpi := h.pcs a
  rw [hpc] at hpi
  obtain ⟨hp, hpi⟩ := hpi
  obtain ⟨q, c, rfl, hq, hb, hc, hop⟩ := hpi trivial
  have hfr := hf a ⟨⟨_, hp.inv⟩, hp.nret⟩
  have hper := period_ge hw
  have hpos := hw.1
  have hle := h.le
  have hge := h.ge
  unfold pushLoop at hs
  cases c with
  | true =>
    rw [if_pos ((closedBit_tailWord hw q true).2 rfl)] at hs
    obtain ⟨rfl, rfl⟩ := Prod.mk.inj hs
    exact .retn a _ _ hp ⟨closedB_iff.1 (hc rfl), .inl hp.inv⟩
  | false =>
    rw [if_neg (fun hx => by simpa using (closedBit_tailWord hw q false).1 hx)] at hs
    simp only [tailWord_false, idx_enc hw, Nat.mod_lt _ hpos, not_true_eq_false, if_false,
      enc_succ_checked hw] at hs
    obtain ⟨p, h1, h2, h3, hv⟩ := h.slot hw q
    split at hs
    · rename_i hst
      obtain ⟨rfl, rfl⟩ := Prod.mk.inj hs
      refine .silent a _ _ hp trivial ⟨hp, fun _ => ⟨q, rfl, hq, hb, fun hqe => ?_⟩⟩
      obtain ⟨rfl, -⟩ := hv.of_enc hw h3 hst (by omega) (by omega)
      exact ⟨h2, hst⟩
    · split at hs
      · obtain ⟨rfl, rfl⟩ := Prod.mk.inj hs
        exact .silent a _ _ hp trivial ⟨hp, fun _ => ⟨⟨q, rfl, hq, hb⟩, hop rfl⟩⟩
      · obtain ⟨rfl, rfl⟩ := Prod.mk.inj hs
        exact .silent a _ _ hp trivial hp

theorem pushCas_sound {tr : Trace V} {s s' : State w V} {evs : List (Event V)} (hw : WellSized w cap)
    (h : Inv True w cap tr s) (hf : Fresh w cap tr) {a : OpId} {b : Backoff} {t : BitVec w} {sp : Bool}
    (hpc : s.pc a = .pushCas b t) (hs : pushCas (Params.new w cap) s a b t sp = (s', evs)) :
    StepR True w cap tr s s' evs := by
  have hpi := h.pcs a
  rw [hpc] at hpi
  obtain ⟨hp, hpi⟩ := hpi
  obtain ⟨q, rfl, hq, hb, hc⟩ := hpi trivial
  have hfr := hf a ⟨⟨_, hp.inv⟩, hp.nret⟩
  have hper := period_ge hw
  have hpos := hw.1
  have hle := h.le
  have hge := h.ge
  unfold pushCas at hs
  simp only [next_enc hw, idx_enc hw] at hs
  split at hs
  · rename_i hcas
    obtain ⟨hcas, -⟩ := hcas
    rw [h.tail] at hcas
    rw [← tailWord_false] at hcas
    obtain ⟨he, hcl⟩ := tailWord_inj hw hcas
    have hqe := enc_inj hw he (by omega) (by omega)
    subst hqe
    obtain ⟨hlt, hst⟩ := hc rfl
    obtain ⟨rfl, rfl⟩ := Prod.mk.inj hs
    exact .reserve a hp hcl hlt hst
  · obtain ⟨rfl, rfl⟩ := Prod.mk.inj hs
    exact .silent a _ _ hp trivial ⟨hp, fun _ => ⟨nRes tr, closedB tr, h.tail, Nat.le_refl _, born_le_nRes, id,
      openAt_now hp⟩⟩

theorem pushHead_sound {tr : Trace V} {s s' : State w V} {evs : List (Event V)} (hw : WellSized w cap)
    (h : Inv True w cap tr s) (hf : Fresh w cap tr) {a : OpId} {b : Backoff} {t : BitVec w}
    (hpc : s.pc a = .pushHead b t) (hs : pushHead (Params.new w cap) s a b t = (s', evs)) :
    StepR True w cap tr s s' evs := by
  have hpi := h.pcs a
  rw [hpc] at hpi
  obtain ⟨hp, hpi⟩ := hpi
  obtain ⟨⟨q, rfl, hq, hb⟩, hop⟩ := hpi trivial
  have hfr := hf a ⟨⟨_, hp.inv⟩, hp.nret⟩
  have hper := period_ge hw
  have hpos := hw.1
  have hle := h.le
  have hge := h.ge
  unfold pushHead at hs
  split at hs
  · rename_i he
    rw [h.head, enc_add_gen hw] at he
    have hqe := enc_inj hw he (by omega) (by omega)
    obtain ⟨rfl, rfl⟩ := Prod.mk.inj hs
    exact .retn a _ _ hp ⟨hp.inv, by omega, fun _ => hop⟩
  · obtain ⟨rfl, rfl⟩ := Prod.mk.inj hs
    exact .silent a _ _ hp trivial hp

theorem pop_sound {tr : Trace V} {s s' : State w V} {evs : List (Event V)} (hw : WellSized w cap)
    (h : Inv True w cap tr s) (hf : Fresh w cap tr) {a : OpId} {b : Backoff} {t : BitVec w}
    (hpc : s.pc a = .popLoop b t) (hs : popLoop (Params.new w cap) cap s a b t = (s', evs)) :
    StepR True w cap tr s s' evs := by
  have hpi := h.pcs a
  rw [hpc] at hpi
  obtain ⟨hp, hpi⟩ := hpi
  obtain ⟨q, rfl, hq, hb⟩ := hpi trivial
  have hfr := hf a ⟨⟨_, hp.inv⟩, hp.nret⟩
  have hper := period_ge hw
  have hpos := hw.1
  have hle := h.le
  have hge := h.ge
  unfold popLoop at hs
  simp only [idx_enc hw, Nat.mod_lt _ hpos, not_true_eq_false, if_false, enc_succ_checked hw] at hs
  split at hs
  · rename_i hst
    obtain ⟨rfl, rfl⟩ := Prod.mk.inj hs
    refine .silent a _ _ hp trivial ⟨hp, fun _ => ⟨q, rfl, hq, hb, fun hqe => ?_⟩⟩
    obtain ⟨p, h1, h2, h3, hv⟩ := h.slot hw q
    rcases hv.of_succ hw h3 hst (by omega) (by omega) with ⟨-, a', v, hlt, -⟩ | ⟨hpq, -⟩
    · exact ⟨hlt, hst⟩
    · omega
  · split at hs
    · rename_i hst
      obtain ⟨rfl, rfl⟩ := Prod.mk.inj hs
      refine .silent a _ _ hp trivial ⟨hp, fun _ => ⟨q, rfl, hq, hb, tr, List.prefix_refl _, ⟨_, hp.inv⟩, ?_⟩⟩
      have := isEmpty_or_oldest hw h hq (by omega) hst
      exact ⟨this.1.symm, this.2⟩
    · obtain ⟨rfl, rfl⟩ := Prod.mk.inj hs
      exact .silent a _ _ hp trivial hp

theorem popCas_sound {tr : Trace V} {s s' : State w V} {evs : List (Event V)} (hw : WellSized w cap)
    (h : Inv True w cap tr s) (hf : Fresh w cap tr) {a : OpId} {b : Backoff} {t : BitVec w} {sp : Bool}
    (hpc : s.pc a = .popCas b t) (hs : popCas (Params.new w cap) s a b t sp = (s', evs)) :
    StepR True w cap tr s s' evs := by
  have hpi := h.pcs a
  rw [hpc] at hpi
  obtain ⟨hp, hpi⟩ := hpi
  obtain ⟨q, rfl, hq, hb, hc⟩ := hpi trivial
  have hfr := hf a ⟨⟨_, hp.inv⟩, hp.nret⟩
  have hper := period_ge hw
  have hpos := hw.1
  have hle := h.le
  have hge := h.ge
  have hbr := born_le_nRes (t := tr) (a := a)
  unfold popCas at hs
  simp only [next_enc hw, idx_enc hw, enc_add_gen hw] at hs
  split at hs
  · rename_i hcas
    obtain ⟨hcas, -⟩ := hcas
    rw [h.head] at hcas
    have hqe := enc_inj hw hcas (by omega) (by omega)
    subst hqe
    obtain ⟨hlt, hst⟩ := hc rfl
    obtain ⟨rfl, rfl⟩ := Prod.mk.inj hs
    exact .dequeue a hp hlt hst
  · obtain ⟨rfl, rfl⟩ := Prod.mk.inj hs
    exact .silent a _ _ hp trivial ⟨hp, fun _ => ⟨nDeq tr, h.head, Nat.le_refl _, by omega⟩⟩

theorem popTail_sound {tr : Trace V} {s s' : State w V} {evs : List (Event V)} (hw : WellSized w cap)
    (h : Inv True w cap tr s) (hf : Fresh w cap tr) {a : OpId} {b : Backoff} {t : BitVec w}
    (hpc : s.pc a = .popTail b t) (hs : popTail (Params.new w cap) s a b t = (s', evs)) :
    StepR True w cap tr s s' evs := by
  have hpi := h.pcs a
  rw [hpc] at hpi
  obtain ⟨hp, hpi⟩ := hpi
  obtain ⟨q, rfl, hq, hb, pre, hpre, hinv, hpq, hcase⟩ := hpi trivial
  have hfr := hf a ⟨⟨_, hp.inv⟩, hp.nret⟩
  have hper := period_ge hw
  have hpos := hw.1
  have hle := h.le
  have hge := h.ge
  unfold popTail at hs
  rw [h.tail, tailWord_and_not_closed hw] at hs
  split at hs
  · rename_i he
    have hqe := enc_inj hw he (by omega) (by omega)
    have hemp : nDeq tr = nRes tr := by omega
    split at hs
    · rename_i hcl
      have := (closedBit_tailWord hw _ _).1 hcl
      obtain ⟨rfl, rfl⟩ := Prod.mk.inj hs
      exact .retn a _ _ hp ⟨closedB_iff.1 this, .inr ⟨hp.inv, hemp⟩⟩
    · rename_i hcl
      have hnc : ¬ Closed tr := fun hc => hcl ((closedBit_tailWord hw _ _).2 (closedB_iff.2 hc))
      obtain ⟨rfl, rfl⟩ := Prod.mk.inj hs
      exact .retn a _ _ hp ⟨hp.inv, fun _ => ⟨tr, List.prefix_refl _, ⟨_, hp.inv⟩, .inl ⟨hemp.symm, .inl hnc⟩⟩⟩
  · rename_i he
    have hlt : IsEmpty pre → nRes pre < nRes tr := fun hemp => by
      have h1 : nRes pre = nDeq pre := hemp
      have h2 : nRes pre ≤ nRes tr := by obtain ⟨u, rfl⟩ := hpre; simp
      have h3 : nRes tr ≠ q := fun e => he (by rw [e])
      omega
    split at hs
    · obtain ⟨rfl, rfl⟩ := Prod.mk.inj hs
      exact .retn a _ _ hp ⟨hp.inv, fun _ => ⟨pre, hpre, hinv, hcase.imp_left fun h => ⟨h, .inr (hlt h)⟩⟩⟩
    · obtain ⟨rfl, rfl⟩ := Prod.mk.inj hs
      exact .silent a _ _ hp trivial hp

theorem nRes_mono {pre tr : Trace V} (h : pre <+: tr) : nRes pre ≤ nRes tr := by
  obtain ⟨u, rfl⟩ := h; simp

theorem nDeq_mono {pre tr : Trace V} (h : pre <+: tr) : nDeq pre ≤ nDeq tr := by
  obtain ⟨u, rfl⟩ := h; simp

/-- The number computed by `len` from two positions. -/
theorem lenOf_enc (hw : WellSized w cap) {t h : Nat} (h1 : h ≤ t) (h2 : t ≤ h + cap) :
    lenOf (Params.new w cap) cap (enc w cap t) (enc w cap h) = t - h := by
  have hpos := hw.1
  have hper := period_ge hw
  have a := Nat.div_add_mod t cap
  have b := Nat.div_add_mod h cap
  have hmt := Nat.mod_lt t hpos
  have hmh := Nat.mod_lt h hpos
  have hdle : h / cap ≤ t / cap := Nat.div_le_div_right h1
  have hdge : t / cap ≤ h / cap + 1 := by
    have := Nat.div_le_div_right (c := cap) h2
    rwa [Nat.add_div_right _ hpos] at this
  have hd : t / cap = h / cap ∨ t / cap = h / cap + 1 := by omega
  unfold lenOf
  simp only [idx_enc hw]
  rcases hd with hd | hd
  · rw [hd] at a
    split
    · omega
    · split
      · omega
      · have : t = h := by omega
        subst this
        simp
  · rw [hd, Nat.mul_add, Nat.mul_one] at a
    split
    · omega
    · split
      · omega
      · split
        · rename_i he
          have := enc_inj hw he (by omega) (by omega)
          omega
        · omega

theorem lenOf_le (hw : WellSized w cap) {t h : Nat} (c : Bool) :
    lenOf (Params.new w cap) cap (tailWord w cap t c) (enc w cap h) ≤ cap := by
  have hpos := hw.1
  have hmt := Nat.mod_lt t hpos
  have hmh := Nat.mod_lt h hpos
  unfold lenOf
  simp only [idx_enc hw, idx_tailWord hw]
  repeat' split
  all_goals omega

theorem step_sound {tr : Trace V} {s s' : State w V} {act : Act V} {evs : List (Event V)}
    (hw : WellSized w cap) (h : Inv True w cap tr s) (hf : Fresh w cap tr)
    (hs : step cap s act = some (s', evs)) : StepR True w cap tr s s' evs := by
  have hper := period_ge hw
  have hpos := hw.1
  have hle := h.le
  have hge := h.ge
  cases act with
  | invoke a op =>
    simp only [step] at hs
    split at hs
    · rename_i hpc
      obtain ⟨rfl, rfl⟩ := Prod.mk.inj (Option.some.inj hs)
      exact .invoke a op hpc
    · cases hs
  | run a =>
    simp only [step, runStep] at hs
    split at hs
    all_goals try contradiction
    all_goals rename_i hpc
    all_goals have hpi := h.pcs a
    all_goals rw [hpc] at hpi
    · obtain ⟨rfl, rfl⟩ := Prod.mk.inj (Option.some.inj hs)
      exact .silent a _ _ hpi trivial
        ⟨hpi, fun _ => ⟨nRes tr, closedB tr, h.tail, Nat.le_refl _, born_le_nRes, id, openAt_now hpi⟩⟩
    · exact push_sound hw h hf hpc (Option.some.inj hs)
    · exact pushCas_sound hw h hf hpc (Option.some.inj hs)
    · exact pushHead_sound hw h hf hpc (Option.some.inj hs)
    · obtain ⟨rfl, rfl⟩ := Prod.mk.inj (Option.some.inj hs)
      exact .silent a _ _ hpi trivial
        ⟨hpi, fun _ => ⟨nRes tr, closedB tr, h.tail, Nat.le_refl _, born_le_nRes, id, openAt_now hpi⟩⟩
    · obtain ⟨rfl, rfl⟩ := Prod.mk.inj (Option.some.inj hs)
      have hbr := born_le_nRes (t := tr) (a := a)
      exact .silent a _ _ hpi trivial ⟨hpi, fun _ => ⟨nDeq tr, h.head, Nat.le_refl _, by omega⟩⟩
    · exact pop_sound hw h hf hpc (Option.some.inj hs)
    · exact popCas_sound hw h hf hpc (Option.some.inj hs)
    · exact popTail_sound hw h hf hpc (Option.some.inj hs)
    · obtain ⟨rfl, rfl⟩ := Prod.mk.inj (Option.some.inj hs)
      have hbr := born_le_nRes (t := tr) (a := a)
      exact .silent a _ _ hpi trivial ⟨hpi, fun _ => ⟨nDeq tr, h.head, Nat.le_refl _, by omega⟩⟩
    · obtain ⟨rfl, rfl⟩ := Prod.mk.inj (Option.some.inj hs)
      exact .silent a _ _ hpi trivial
        ⟨hpi, fun _ => ⟨nRes tr, closedB tr, h.tail, Nat.le_refl _, born_le_nRes, id⟩⟩
    · obtain ⟨rfl, rfl⟩ := Prod.mk.inj (Option.some.inj hs)
      obtain ⟨hp, hpi⟩ := hpi
      obtain ⟨q, c, rfl, hq, hb, hc⟩ := hpi trivial
      exact .silent a _ _ hp trivial ⟨hp, fun _ => ⟨q, c, tr, rfl, List.prefix_refl _, ⟨_, hp.inv⟩, h.head,
        hq, hge, hle, hb⟩⟩
    · obtain ⟨hp, hpi⟩ := hpi
      obtain ⟨q, c, pre, rfl, hpre, hinv, rfl, hq, hg, hl, hb⟩ := hpi trivial
      have hfr := hf a ⟨⟨_, hp.inv⟩, hp.nret⟩
      have hm := nRes_mono hpre
      split at hs
      · rename_i he
        obtain ⟨rfl, rfl⟩ := Prod.mk.inj (Option.some.inj hs)
        rw [h.tail] at he
        obtain ⟨he, hcc⟩ := tailWord_inj hw he
        have := enc_inj hw he (by omega) (by omega)
        refine .retn a _ _ hp ⟨hp.inv, lenOf_le hw c, fun _ => ⟨pre, hpre, hinv, fun hnc => ?_⟩⟩
        have hcf : c = false := by
          rw [← hcc]
          cases hx : closedB tr
          · rfl
          · exact absurd (closedB_iff.1 hx) hnc
        subst hcf
        rw [tailWord_false, lenOf_enc hw (by omega) (by omega)]
        omega
      · obtain ⟨rfl, rfl⟩ := Prod.mk.inj (Option.some.inj hs)
        exact .silent a _ _ hp trivial hp
    · rename_i p
      have hs := Option.some.inj hs
      unfold closeStep at hs
      cases p with
      | true =>
        simp only [if_true] at hs
        obtain ⟨rfl, rfl⟩ := Prod.mk.inj hs
        exact .retn a _ _ hpi ⟨hpi.inv, rfl⟩
      | false =>
        simp only [Bool.false_eq_true, if_false] at hs
        rw [h.tail, tailWord_or_closed] at hs
        have e : (decide (tailWord w cap (nRes tr) (closedB tr) &&& (Params.new w cap).closed = 0#w))
            = (decide (closedB tr = false)) := by
          have := closedBit_tailWord hw (nRes tr) (closedB tr)
          cases hx : closedB tr
          · rw [hx] at this
            simp only [ne_eq, Bool.false_eq_true, iff_false, Decidable.not_not] at this
            simp [this]
          · rw [hx] at this
            simpa using this
        rw [e] at hs
        obtain ⟨rfl, rfl⟩ := Prod.mk.inj hs
        exact .close a hpi
  | spurious a =>
    simp only [step] at hs
    split at hs
    · rename_i hpc
      exact pushCas_sound hw h hf hpc (Option.some.inj hs)
    · rename_i hpc
      exact popCas_sound hw h hf hpc (Option.some.inj hs)
    · cases hs
  | elem a v =>
    simp only [step] at hs
    split at hs
    · rename_i hpc
      have hpi := h.pcs a
      rw [hpc] at hpi
      obtain ⟨p, ho, hnr, rfl, hl⟩ := hpi
      have hs := Option.some.inj hs
      unfold pushElem at hs
      simp only [idx_enc hw, enc_succ_checked hw] at hs
      obtain ⟨rfl, rfl⟩ := Prod.mk.inj hs
      refine .elem a p v _ hpc ho hnr hl ?_
      by_cases hg : p / cap % numGens w cap = 0
      · left
        exact ⟨hg, by rw [if_pos ((gen_eq_zero hw p).2 hg)]⟩
      · right
        exact ⟨hg, by rw [if_neg (fun hx => hg ((gen_eq_zero hw p).1 hx))]⟩
    · cases hs
  | elemPanic a v =>
    simp only [step] at hs
    split at hs
    · rename_i hpc
      have hpi := h.pcs a
      rw [hpc] at hpi
      obtain ⟨p, ho, hnr, rfl, hl⟩ := hpi
      have hs := Option.some.inj hs
      unfold pushElemPanic at hs
      simp only [idx_enc hw] at hs
      split at hs
      · rename_i hg
        obtain ⟨rfl, rfl⟩ := Prod.mk.inj hs
        exact .elemPanic0 a p hpc ho hnr ((gen_eq_zero hw p).1 hg)
      · rename_i hg
        obtain ⟨rfl, rfl⟩ := Prod.mk.inj hs
        exact .elemPanic1 a p v hpc ho hnr (fun hx => hg ((gen_eq_zero hw p).2 hx)) hl
    · cases hs
  | read a =>
    simp only [step] at hs
    split at hs
    · rename_i hpc
      obtain ⟨rfl, rfl⟩ := Prod.mk.inj (Option.some.inj hs)
      exact .read a _ _ (.inl hpc)
    · rename_i hpc
      obtain ⟨rfl, rfl⟩ := Prod.mk.inj (Option.some.inj hs)
      exact .read a _ _ (.inr hpc)
    · cases hs
  | write a v =>
    simp only [step] at hs
    split at hs
    · rename_i hpc
      obtain ⟨rfl, rfl⟩ := Prod.mk.inj (Option.some.inj hs)
      exact .write a _ _ v (.inl hpc)
    · rename_i hpc
      obtain ⟨rfl, rfl⟩ := Prod.mk.inj (Option.some.inj hs)
      exact .write a _ _ v (.inr hpc)
    · cases hs
  | dropRef a =>
    simp only [step] at hs
    split at hs
    · rename_i hpc
      have hpi := h.pcs a
      rw [hpc] at hpi
      obtain ⟨p, ho, hr, rfl, rfl, -⟩ := hpi
      obtain ⟨rfl, rfl⟩ := Prod.mk.inj (Option.some.inj hs)
      exact .commit a p hpc ho
    · rename_i hpc
      have hpi := h.pcs a
      rw [hpc] at hpi
      obtain ⟨p, ho, rfl, rfl, -⟩ := hpi
      obtain ⟨rfl, rfl⟩ := Prod.mk.inj (Option.some.inj hs)
      exact .release a p hpc ho
    · cases hs

end Thingbuf
