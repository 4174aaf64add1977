import Verif.RelAcqStep
/-
The invariant holds in every execution of the release/acquire machine.
-/
namespace Thingbuf.RA

variable {w cap : Nat} {V : Type}

/-- The owner of a slot sees the element as it was last written. -/
theorem RInv.visible_last {tr : List (REv V)} {s : RState w V} (hi : RInv w cap tr s) {a : OpId}
    {i n : Nat} {x : Option V} (hown : elemOf (Params.new w cap) (s.pc a) = some i)
    (h : s.visible a i n = some x) : x = s.core.val i := by
  unfold RState.visible at h
  split at h
  · rename_i hc
    obtain ⟨hn, hd⟩ := hc
    have hx := Option.some.inj h
    have hdrop : (s.cont i).drop n = [] := by
      cases hl : (s.cont i).drop n with
      | nil => rfl
      | cons e l =>
        exfalso
        have he : e ∈ (s.cont i).drop n := by rw [hl]; exact List.mem_cons_self ..
        exact hd e he ((hi.own a i hown).2 _ (hi.cont i e (List.mem_of_mem_drop he)))
    have hlen : (s.cont i).length = n := by
      have := List.drop_eq_nil_iff.1 hdrop
      omega
    rw [← hx]
    show _ = (s.cont i).getLast?.map Prod.snd
    rw [List.getLast?_eq_getElem?, hlen]
    split
    · rename_i h0
      have : s.cont i = [] := List.length_eq_zero_iff.1 (by omega)
      rw [this]; rfl
    · rfl
  · cases h

theorem RInv.init (hw : WellSized w cap) : RInv w cap ([] : List (REv V)) (RState.init w V) := by
  have hcore : (RState.init w V).core = State.init w V := rfl
  refine ⟨rfl, rfl, rfl, ⟨?_, ?_, InvY.init, trivial, fun i => by rw [show (RState.init w V).core = State.init w V from rfl]; simp [State.init, evsOf, createdSlots]⟩, ?_, fun _ => trivial, ?_, ?_, ?_, ?_, ?_⟩
  · rw [hcore]; exact Inv.init hw
  · rw [hcore]; exact InvX.init
  · refine ⟨?_, ?_, ?_, ?_, ?_, ?_, ?_⟩
    · intro l j k m m' hjk h1 h2
      have := lt_of_getElem?_some h2
      simp only [RState.init, List.length_singleton] at this
      omega
    · intro l _ k m m' h1 h2
      have := lt_of_getElem?_some h2
      simp only [RState.init, List.length_singleton] at this
      omega
    · intro l m hm
      rw [List.mem_singleton.1 hm]
      exact Nat.le_refl _
    · intro m hm
      rw [List.mem_singleton.1 hm]
      refine ⟨false, ?_, Nat.zero_le _, by simp⟩
      show 0#w = enc w cap 0
      rw [enc_of_lt hw.1]
    · intro m hm
      rw [List.mem_singleton.1 hm]
      refine ⟨?_, Nat.zero_le _, Nat.zero_le _⟩
      show 0#w = enc w cap 0
      rw [enc_of_lt hw.1]
    · intro i hic j m hm
      have := lt_of_getElem?_some hm
      simp only [RState.init, List.length_singleton] at this
      have hj : j = 0 := by omega
      subst hj
      rw [← Option.some.inj hm]
      refine ⟨?_, Nat.zero_le _, ?_, Nat.zero_le _⟩
      · show BitVec.ofNat w i = enc w cap (i + 0 * cap)
        rw [Nat.zero_mul, Nat.add_zero, enc_of_lt hic]
      · show i + 0 * cap ≤ 0 + cap
        rw [Nat.zero_mul]; omega
    · intro i hic j m hm
      have := lt_of_getElem?_some hm
      simp only [RState.init, List.length_singleton] at this
      omega
  · intro p _ h2
    have h2 : p < cap := by simpa [evsOf] using h2
    refine ⟨fun h => by simp [evsOf] at h, fun _ => .inl ⟨?_, ?_⟩⟩
    · rw [Nat.mod_eq_of_lt h2, enc_of_lt h2]; rfl
    · rw [Nat.div_eq_of_lt h2]; rfl
  · rintro p _ m _ n ⟨e, h, -⟩
    simp at h
  · intro a i h
    simp [RState.init, elemOf] at h
  · intro i e he
    simp [RState.init] at he
  · rintro p q i e' _ ⟨e, h, -⟩
    simp at h

/-- The `Ref` of a push is dropped. -/
theorem RInv.commit {o : Orders} {tr : List (REv V)} {s : RState w V} {a : OpId} {i wr : Nat} {ns : BitVec w}
    (hw : WellSized w cap) (ho : Synchronised o) (hi : RInv w cap tr s) (hpc : s.pc a = .pushHeld i ns)
    (hts : (s.view a).ts (.slot i) < wr) :
    RInv w cap (tr ++ (RA.drop s a i wr ns o.dropRef.rel (.commit a i (s.core.val i))).2)
      (RA.drop s a i wr ns o.dropRef.rel (.commit a i (s.core.val i))).1 := by
  have hpi := hi.base.inv.pcs a
  rw [show s.core.pc a = _ from hpc] at hpi
  obtain ⟨p, hpa, -, rfl, rfl, v, -⟩ := hpi
  have hge := hi.base.inv.ge
  have hlen := (hi.len p hpa.nd (by have := hpa.lt; omega)).1 hpa.lt
  have hl : (s.mem (.slot (p % cap))).length = 2 * (p / cap) + 1 := by
    rcases hlen with h | h
    · exact h.2
    · exact absurd ⟨p, rfl, .inl hpa⟩ (pub_not_own hw hi.base.inv hpa.nd hpa.lt h.1 a)
  rw [ho.dropRef]
  refine hi.drop hw (by rw [hpc]; rfl) hts hpa.nd (by have := hpa.lt; omega) (fun _ => ⟨rfl, hl⟩) ?_ ?_ rfl rfl
    rfl (.commit a p hpc hpa)
  · intro h; have := hpa.lt; omega
  · intro h; rw [h] at hl; simp at hl

/-- The `Ref` of a pop is dropped. -/
theorem RInv.release {o : Orders} {tr : List (REv V)} {s : RState w V} {a : OpId} {i wr : Nat}
    {ns : BitVec w}
    (hw : WellSized w cap) (ho : Synchronised o) (hi : RInv w cap tr s) (hpc : s.pc a = .popHeld i ns)
    (hts : (s.view a).ts (.slot i) < wr) :
    RInv w cap (tr ++ (RA.drop s a i wr ns o.dropRef.rel (.release a i (s.core.val i))).2)
      (RA.drop s a i wr ns o.dropRef.rel (.release a i (s.core.val i))).1 := by
  have hpi := hi.base.inv.pcs a
  rw [show s.core.pc a = _ from hpc] at hpi
  obtain ⟨p, hpa, rfl, rfl, v, -⟩ := hpi
  have hle := hi.base.inv.le
  have hge := hi.base.inv.ge
  have hlt := hpa.lt
  have hnr := hpa.nr
  have hpos := hw.1
  have hm : (p + cap) % cap = p % cap := Nat.add_mod_right ..
  have hlen := (hi.len (p + cap) (by omega) (by omega)).2 hnr
  rw [hm] at hlen
  have hl : (s.mem (.slot (p % cap))).length = 2 * ((p + cap) / cap) := by
    rcases hlen with h | h
    · have hno := hi.base.inv.free_not_own hw hnr (by omega) (by rw [hm]; exact h.1) a
      rw [hm] at hno
      exact absurd ⟨p, rfl, .inr hpa⟩ hno
    · exact h.2.2
  rw [ho.dropRef, ← hm]
  rw [← hm] at hl hts
  refine hi.drop hw (by rw [hpc, hm]; rfl) hts (by omega) (by omega) ?_ (fun _ => ⟨rfl, hl⟩) ?_ rfl rfl
    (by rw [hm]; rfl) ?_
  · intro h; omega
  · intro h
    rw [h, add_cap_div hpos] at hl
    simp at hl
  · rw [hm]
    exact .release a p hpc hpa

theorem RInv.pres {o : Orders} {tr evs : List (REv V)} {s s' : RState w V} {act : RAct V}
    (hw : WellSized w cap) (ho : Synchronised o) (hi : RInv w cap tr s) (ht : Timely w cap tr s)
    (hs : rstep o cap s act = some (s', evs)) (ht' : Timely w cap (tr ++ evs) s') :
    RInv w cap (tr ++ evs) s' := by
  have hpos := hw.1
  cases act with
  | invoke a op =>
    simp only [rstep] at hs
    obtain ⟨k, hk, he⟩ := Option.map_eq_some_iff.1 hs
    simp only [step] at hk
    by_cases hpc : s.pc a = .idle
    · rw [if_pos (show (s.snap none 0#w).pc a = .idle from hpc)] at hk
      obtain rfl := Option.some.inj hk
      obtain ⟨rfl, rfl⟩ := Prod.mk.inj he
      rw [goto_pc_self]
      have hbase := hi.base.inv.pcs a
      have hi2 : RInv w cap tr { s with oldest := upd s.oldest a s.res } := by
        refine ⟨hi.now, hi.res, hi.deq, hi.base, hi.mem.mono (fun _ => rfl) (Nat.le_refl _) (Nat.le_refl _) id, ?_,
          hi.len, hi.free, hi.own, hi.cont, hi.race⟩
        intro b
        show WordOk _ _ _ _ b (s.pc b)
        by_cases h : b = a
        · subst h; rw [hpc]; trivial
        · have hx : Ext s { s with oldest := upd s.oldest a s.res } :=
            ⟨fun _ _ _ h => h, fun _ => View.le_refl _⟩
          refine (hi.words b).ext hx ?_ (Nat.le_refl _) (Nat.le_refl _) id
          exact Nat.le_of_eq (upd_ne _ _ h)
      refine hi2.noAccess hw (.invoke a op hpc) rfl rfl (noAcc_of rfl) ?_ ?_
      · cases op <;> rfl
      · cases op <;> trivial
    · rw [if_neg (show ¬ (s.snap none 0#w).pc a = .idle from hpc)] at hk
      cases hk
  | run a rd wr =>
    simp only [rstep] at hs
    cases hpc : s.pc a with
    | pushStart => exact run_pushStart hw hi hpc hs
    | pushLoop b t => exact run_pushLoop hw ho hi hpc hs ht'
    | pushCas b t => exact run_pushCas hw hi ht hpc hs
    | pushHead b t => exact run_pushHead hw hi ht hpc hs
    | pushReload b => exact run_pushReload hw hi hpc hs
    | popStart => exact run_popStart hw hi hpc hs
    | popLoop b t => exact run_popLoop hw ho hi hpc hs ht'
    | popCas b t => exact run_popCas hw hi ht hpc hs
    | popTail b t => exact run_popTail hw hi ht hpc hs
    | popReload b => exact run_popReload hw hi hpc hs
    | lenStart => exact run_lenStart hw hi hpc hs
    | lenHead t => exact run_lenHead hw hi hpc hs
    | lenTail t h => exact run_lenTail hw hi hpc hs
    | closeStart p => exact run_closeStart hw hi hpc hs
    | _ =>
      obtain ⟨k, hk, -⟩ := run_none (by rw [hpc]; rfl) hs
      simp only [runStep, pc_snap, hpc] at hk
      cases hk
  | spurious a rd =>
    simp only [rstep] at hs
    cases hpc : s.pc a with
    | pushCas b t =>
      simp only [hpc, Orders.acc] at hs
      split at hs
      · cases hs
      · rename_i m hm
        obtain ⟨k, hk, he⟩ := Option.map_eq_some_iff.1 hs
        simp only [step, pc_snap, hpc, Option.some.injEq] at hk
        subst hk
        have := pushCas_fail (od := o.pushCasFail) (sp := true) hw hi hpc hm (.inr rfl)
        rw [he] at this
        exact this
    | popCas b t =>
      simp only [hpc, Orders.acc] at hs
      split at hs
      · cases hs
      · rename_i m hm
        obtain ⟨k, hk, he⟩ := Option.map_eq_some_iff.1 hs
        simp only [step, pc_snap, hpc, Option.some.injEq] at hk
        subst hk
        have := popCas_fail (od := o.popCasFail) (sp := true) hw hi hpc hm (.inr rfl)
        rw [he] at this
        exact this
    | pushLoop b t =>
      simp only [hpc, Orders.acc] at hs
      split at hs
      · rename_i h
        split at h
        · cases h
        · split at h <;> cases h
      · cases hs
    | popLoop b t =>
      simp only [hpc, Orders.acc] at hs
      split at hs
      · rename_i h; split at h <;> cases h
      · cases hs
    | closeStart p =>
      simp only [hpc, Orders.acc] at hs
      split at hs
      · rename_i h; split at h <;> cases h
      · cases hs
    | _ =>
      simp only [hpc, Orders.acc] at hs
      cases hs
  | elem a v n =>
    simp only [rstep] at hs
    split at hs
    · cases hs
    · rename_i i hel
      split at hs
      · cases hs
      · rename_i x hvis
        have hx := hi.visible_last hel hvis
        obtain ⟨k, hk, he⟩ := Option.map_eq_some_iff.1 hs
        simp only [step] at hk
        split at hk
        · rename_i t hpc0
          have hpc : s.pc a = .pushInit t := hpc0
          clear hpc0
          have hpi := hi.base.inv.pcs a
          rw [show s.core.pc a = _ from hpc] at hpi
          obtain ⟨p, hpa, hnr, rfl, hl⟩ := hpi
          have hpc' : s.core.pc a = .pushInit (enc w cap p) := hpc
          rw [hpc] at hel
          simp only [elemOf, idx_enc hw, Option.some.injEq] at hel
          subst hel
          have hv : (s.snapVal (p % cap) x).val (p % cap) = s.core.val (p % cap) := by
            rw [← hx]; exact if_pos rfl
          have hk := Option.some.inj hk
          unfold pushElem at hk
          simp only [idx_enc hw, enc_succ_checked hw, hv] at hk
          subst hk
          obtain ⟨rfl, rfl⟩ := Prod.mk.inj he
          rw [goto_pc_self]
          refine hi.access hw (by rw [hpc]; simp only [elemOf, idx_enc hw]) (.inr ⟨v, rfl⟩) ?_ ?_ rfl rfl
            (noAcc_ret _ _) ?_
          · intro j hj; simpa [elemOf] using hj.symm
          · intro T s; trivial
          · rw [core_putVal]
            refine .elem a p v _ hpc' hpa hnr hl ?_
            by_cases hg : p / cap % numGens w cap = 0
            · exact .inl ⟨hg, if_pos ((gen_eq_zero hw p).2 hg)⟩
            · exact .inr ⟨hg, if_neg (fun h => hg ((gen_eq_zero hw p).1 h))⟩
        · cases hk
  | elemPanic a v n =>
    simp only [rstep] at hs
    split at hs
    · cases hs
    · rename_i i hel
      split at hs
      · cases hs
      · rename_i x hvis
        have hx := hi.visible_last hel hvis
        obtain ⟨k, hk, he⟩ := Option.map_eq_some_iff.1 hs
        simp only [step] at hk
        split at hk
        · rename_i t hpc0
          have hpc : s.pc a = .pushInit t := hpc0
          clear hpc0
          have hpi := hi.base.inv.pcs a
          rw [show s.core.pc a = _ from hpc] at hpi
          obtain ⟨p, hpa, hnr, rfl, hl⟩ := hpi
          have hpc' : s.core.pc a = .pushInit (enc w cap p) := hpc
          have hel' := hel
          rw [hpc] at hel'
          simp only [elemOf, idx_enc hw, Option.some.injEq] at hel'
          subst hel'
          have hv : (s.snapVal (p % cap) x).val (p % cap) = s.core.val (p % cap) := by
            rw [← hx]; exact if_pos rfl
          have hk := Option.some.inj hk
          unfold pushElemPanic at hk
          simp only [idx_enc hw, hv] at hk
          have hfr : fresh (Params.new w cap) (s.pc a) =
              decide (((Params.new w cap).idxGen (enc w cap p)).2 = 0#w) := by rw [hpc]; rfl
          rw [hfr] at he
          by_cases hg : p / cap % numGens w cap = 0
          · have hg' := (gen_eq_zero hw p).2 hg
            rw [if_pos hg'] at hk
            subst hk
            rw [if_pos (decide_eq_true hg')] at he
            obtain ⟨rfl, rfl⟩ := Prod.mk.inj he
            rw [goto_pc_self]
            refine hi.noAccess hw (.elemPanic0 a p hpc' hpa hnr hg) rfl rfl (noAcc_ret _ _) rfl trivial
          · have hg' : ¬ ((Params.new w cap).idxGen (enc w cap p)).2 = 0#w :=
              fun h => hg ((gen_eq_zero hw p).1 h)
            rw [if_neg hg'] at hk
            subst hk
            rw [if_neg (by simpa using hg')] at he
            obtain ⟨rfl, rfl⟩ := Prod.mk.inj he
            rw [goto_pc_self]
            refine hi.access hw hel (.inr ⟨v, rfl⟩) ?_ ?_ rfl rfl (noAcc_ret _ _) ?_
            · intro j hj; simp [elemOf] at hj
            · intro T s; trivial
            · rw [core_putVal]
              exact .elemPanic1 a p v hpc' hpa hnr hg hl
        · cases hk
  | read a n =>
    simp only [rstep] at hs
    split at hs
    · cases hs
    · rename_i i hel
      split at hs
      · cases hs
      · rename_i x hvis
        have hx := hi.visible_last hel hvis
        obtain ⟨k, hk, he⟩ := Option.map_eq_some_iff.1 hs
        have hgoto : s.core.goto a (s.pc a) = s.core := by
          unfold State.goto
          rw [show upd s.core.pc a (s.pc a) = s.core.pc from ?_]
          funext b
          by_cases h : b = a
          · subst h; exact upd_self ..
          · exact upd_ne _ _ h
        have key : ∀ ns, (s.pc a = .pushHeld i ns ∨ s.pc a = .popHeld i ns) →
            k = (s.snapVal i x, [.access a i (.read ((s.snapVal i x).val i))]) →
            RInv w cap (tr ++ evs) s' := by
          intro ns hh hk
          subst hk
          have hv : (s.snapVal i x).val i = s.core.val i := by rw [← hx]; exact if_pos rfl
          rw [hv] at he
          obtain ⟨rfl, rfl⟩ := Prod.mk.inj he
          refine hi.access hw hel (.inl rfl) ?_ ?_ rfl rfl noAcc_nil ?_
          · intro j hj
            rw [show (s.snapVal i x).pc a = s.pc a from rfl, hel] at hj
            exact (Option.some.inj hj).symm
          · intro T s2
            rw [show (s.snapVal i x).pc a = s.pc a from rfl]
            rcases hh with hh | hh <;> rw [hh] <;> trivial
          · rw [show (s.snapVal i x).pc a = s.pc a from rfl, hgoto]
            exact .read a i ns hh
        simp only [step] at hk
        split at hk
        · rename_i j ns hpc0
          have hpc : s.pc a = _ := hpc0
          have hel' := hel
          rw [hpc] at hel'
          simp only [elemOf, Option.some.injEq] at hel'
          subst hel'
          exact key ns (.inl hpc) (Option.some.inj hk).symm
        · rename_i j ns hpc0
          have hpc : s.pc a = _ := hpc0
          have hel' := hel
          rw [hpc] at hel'
          simp only [elemOf, Option.some.injEq] at hel'
          subst hel'
          exact key ns (.inr hpc) (Option.some.inj hk).symm
        · cases hk
  | write a v =>
    simp only [rstep] at hs
    split at hs
    · cases hs
    · rename_i i hel
      obtain ⟨k, hk, he⟩ := Option.map_eq_some_iff.1 hs
      have hgoto : s.core.goto a (s.pc a) = s.core := by
        unfold State.goto
        rw [show upd s.core.pc a (s.pc a) = s.core.pc from ?_]
        funext b
        by_cases h : b = a
        · subst h; exact upd_self ..
        · exact upd_ne _ _ h
      have key : ∀ ns, (s.pc a = .pushHeld i ns ∨ s.pc a = .popHeld i ns) →
          k.1.pc a = s.pc a → k.2 = [.access a i (.write v)] →
          RInv w cap (tr ++ evs) s' := by
        intro ns hh hk1 hk2
        rw [hk1, hk2] at he
        obtain ⟨rfl, rfl⟩ := Prod.mk.inj he
        refine hi.access hw hel (.inr ⟨v, rfl⟩) ?_ ?_ rfl rfl noAcc_nil ?_
        · intro j hj
          rw [hel] at hj
          exact (Option.some.inj hj).symm
        · intro T s2
          rcases hh with hh | hh <;> rw [hh] <;> trivial
        · rw [core_putVal]
          have e : ({ s.core with val := upd s.core.val i (some v) } : State w V).goto a (s.pc a) =
              { s.core.goto a (s.pc a) with val := upd s.core.val i (some v) } := rfl
          rw [e, hgoto]
          exact .write a i ns v hh
      simp only [step] at hk
      split at hk
      · rename_i j ns hpc0
        have hpc : s.pc a = _ := hpc0
        have hel' := hel
        rw [hpc] at hel'
        simp only [elemOf, Option.some.injEq] at hel'
        subst hel'
        obtain rfl := Option.some.inj hk
        exact key ns (.inl hpc) rfl rfl
      · rename_i j ns hpc0
        have hpc : s.pc a = _ := hpc0
        have hel' := hel
        rw [hpc] at hel'
        simp only [elemOf, Option.some.injEq] at hel'
        subst hel'
        obtain rfl := Option.some.inj hk
        exact key ns (.inr hpc) rfl rfl
      · cases hk
  | dropRef a wr =>
    simp only [rstep] at hs
    split at hs
    · cases hs
    · rename_i i hel
      split at hs
      · rename_i hc
        obtain ⟨hts, -⟩ := hc
        obtain ⟨k, hk, he⟩ := Option.map_eq_some_iff.1 hs
        simp only [step] at hk
        split at hk
        · rename_i j ns hpc0
          have hpc : s.pc a = _ := hpc0
          have hel' := hel
          rw [hpc] at hel'
          simp only [elemOf, Option.some.injEq] at hel'
          subst hel'
          obtain rfl := Option.some.inj hk
          have hdone : ((s.snap none 0#w).goto a PC.done).pc a = .done := goto_pc_self ..
          have hcell : cell ({ (s.snap none 0#w).goto a PC.done with
            st := upd (s.snap none 0#w).st j ns } : State w V) (.slot j) = ns := upd_self ..
          simp only [hcell] at he
          rw [show ({ (s.snap none 0#w).goto a PC.done with
            st := upd (s.snap none 0#w).st j ns } : State w V).pc a = .done from hdone] at he
          have := hi.commit hw ho hpc hts
          unfold RA.drop at this
          rw [← (Prod.mk.inj he).1, ← (Prod.mk.inj he).2]
          exact this
        · rename_i j ns hpc0
          have hpc : s.pc a = _ := hpc0
          have hel' := hel
          rw [hpc] at hel'
          simp only [elemOf, Option.some.injEq] at hel'
          subst hel'
          obtain rfl := Option.some.inj hk
          have hdone : ((s.snap none 0#w).goto a PC.done).pc a = .done := goto_pc_self ..
          have hcell : cell ({ (s.snap none 0#w).goto a PC.done with
            st := upd (s.snap none 0#w).st j ns } : State w V) (.slot j) = ns := upd_self ..
          simp only [hcell] at he
          rw [show ({ (s.snap none 0#w).goto a PC.done with
            st := upd (s.snap none 0#w).st j ns } : State w V).pc a = .done from hdone] at he
          have := hi.release hw ho hpc hts
          unfold RA.drop at this
          rw [← (Prod.mk.inj he).1, ← (Prod.mk.inj he).2]
          exact this
        · cases hk
      · cases hs
  | sync a b =>
    simp only [rstep, Option.some.injEq] at hs
    obtain ⟨rfl, rfl⟩ := Prod.mk.inj hs
    have hx : Ext s { s with view := upd s.view b ((s.view b).join (s.view a)) } := by
      refine ⟨fun _ _ _ h => h, fun c => ?_⟩
      show (s.view c).le (upd s.view b ((s.view b).join (s.view a)) c)
      by_cases h : c = b
      · subst h; rw [upd_self]; exact View.le_join_left ..
      · rw [upd_ne _ _ h]; exact View.le_refl _
    refine hi.quiet (hb := []) (n := 0) (evs := []) hw rfl rfl rfl (.inr ⟨rfl, rfl⟩) rfl rfl noAcc_nil ?_ ?_ (fun _ => rfl) hx.view
      (fun _ _ h => h) rfl
    · rw [List.append_nil]
      exact hi.mem.mono (fun _ => rfl) (Nat.le_refl _) (Nat.le_refl _) id
    · rw [List.append_nil]
      intro c
      exact (hi.words c).ext hx (Nat.le_refl _) (Nat.le_refl _) (Nat.le_refl _) id

theorem RExec.timely {o : Orders} {tr : List (REv V)} {s : RState w V} (h : RExec o w cap tr s) :
    Timely w cap tr s := by
  cases h with
  | init => rintro a ⟨⟨op, h⟩, -⟩; simp [evsOf] at h
  | step _ _ h => exact h

theorem RExec.inv {o : Orders} {tr : List (REv V)} {s : RState w V} (hw : WellSized w cap)
    (ho : Synchronised o) (h : RExec o w cap tr s) : RInv w cap tr s := by
  induction h with
  | init => exact RInv.init hw
  | step h1 h2 h3 ih => exact ih.pres hw ho h1.timely h2 h3

end Thingbuf.RA
