import Verif.CoreStep
/-
The invariant is preserved by every position-level step, hence holds in every execution.
-/
namespace Thingbuf

variable {w cap : Nat} {V : Type}
variable {m : Prop}

/-- Events of operation `a` say nothing about operation `b`. -/
structure NoEv (evs : Trace V) (b : OpId) : Prop where
  inv : ¬ Invoked evs b
  ret : ¬ Returned evs b
  res : b ∉ resOps evs
  deq : b ∉ deqOps evs
  com : ¬ Committed evs b
  rel : ¬ Released evs b

theorem NoEv.of_actor {evs : Trace V} {a b : OpId} (h : ∀ e ∈ evs, e.actor = a) (hb : b ≠ a) :
    NoEv evs b where
  inv := fun ⟨_, hm⟩ => hb (h _ hm)
  ret := fun ⟨_, hm⟩ => hb (h _ hm)
  res := fun hm => by obtain ⟨_, hm⟩ := mem_resOps.1 hm; exact hb (h _ hm)
  deq := fun hm => by obtain ⟨_, _, hm⟩ := mem_deqOps.1 hm; exact hb (h _ hm)
  com := fun ⟨_, _, hm⟩ => hb (h _ hm)
  rel := fun ⟨_, _, hm⟩ => hb (h _ hm)

theorem Pend.append {tr evs : Trace V} {b : OpId} {op : Op} (h : Pend tr b op) (hn : NoEv evs b) :
    Pend (tr ++ evs) b op where
  inv := List.mem_append_left _ h.inv
  uniq := fun op' hm => (List.mem_append.1 hm).elim (h.uniq op') (fun hm => absurd ⟨_, hm⟩ hn.inv)
  nret := fun hr => (Returned.append.1 hr).elim h.nret hn.ret
  nres := by rw [resOps_append, List.mem_append]; exact fun hr => hr.elim h.nres hn.res
  ndeq := by rw [deqOps_append, List.mem_append]; exact fun hr => hr.elim h.ndeq hn.deq
  ncom := fun hr => (Committed.append.1 hr).elim h.ncom hn.com
  nrel := fun hr => (Released.append.1 hr).elim h.nrel hn.rel

theorem PushAt.append {tr evs : Trace V} {b : OpId} {p : Nat} (h : PushAt tr b p) (hn : NoEv evs b)
    (hd : nDeq (tr ++ evs) ≤ p) : PushAt (tr ++ evs) b p where
  res := by rw [resOps_append]; exact getElem?_append_of_some h.res
  nd := hd
  inv := List.mem_append_left _ h.inv
  ndeq := by rw [deqOps_append, List.mem_append]; exact fun hr => hr.elim h.ndeq hn.deq
  ncom := fun hr => (Committed.append.1 hr).elim h.ncom hn.com
  nrel := fun hr => (Released.append.1 hr).elim h.nrel hn.rel

theorem PopAt.append {tr evs : Trace V} {b : OpId} {p : Nat} (h : PopAt cap tr b p) (hn : NoEv evs b)
    (hd : nRes (tr ++ evs) ≤ p + cap) : PopAt cap (tr ++ evs) b p where
  deq := by rw [deqOps_append]; exact getElem?_append_of_some h.deq
  nr := hd
  inv := List.mem_append_left _ h.inv
  ret := Returned.append.2 (.inl h.ret)
  nres := by rw [resOps_append, List.mem_append]; exact fun hr => hr.elim h.nres hn.res
  ncom := fun hr => (Committed.append.1 hr).elim h.ncom hn.com
  nrel := fun hr => (Released.append.1 hr).elim h.nrel hn.rel

theorem Left.append {tr evs : Trace V} {s s' : State w V} {p : Nat} (h : Left cap tr s p)
    (hv : cap ≤ p → s'.val (p % cap) = s.val (p % cap)) : Left cap (tr ++ evs) s' p := by
  intro hp
  obtain ⟨v, b, h1, h2, h3⟩ := h hp
  refine ⟨v, b, ?_, by rw [hv hp]; exact h2, List.mem_append_left _ h3⟩
  rw [deqOps_append]; exact getElem?_append_of_some h1

/-- The part of the invariant that concerns an operation that does not move. -/
theorem pcInv_frame {tr evs : Trace V} {s s' : State w V} {b : OpId} {pc : PC w}
    (h : pcInv m w cap tr s b pc) (hn : NoEv evs b)
    (hPush : ∀ p, PushAt tr b p → nDeq (tr ++ evs) ≤ p)
    (hPop : ∀ p, PopAt cap tr b p → nRes (tr ++ evs) ≤ p + cap)
    (hInit : ∀ p, PushAt tr b p → pc = .pushInit (enc w cap p) → s'.val (p % cap) = s.val (p % cap))
    (hVal : ∀ i v, s.val i = some v → ∃ v', s'.val i = some v')
    (hCas : ∀ q, q ≤ nRes tr → q = nRes (tr ++ evs) → q < nDeq tr + cap →
      s.st (q % cap) = enc w cap q → q < nDeq (tr ++ evs) + cap ∧ s'.st (q % cap) = enc w cap q)
    (hCas' : ∀ q, q ≤ nDeq tr → q = nDeq (tr ++ evs) → q < nRes tr →
      s.st (q % cap) = enc w cap q + 1#w →
      q < nRes (tr ++ evs) ∧ s'.st (q % cap) = enc w cap q + 1#w) :
    pcInv m w cap (tr ++ evs) s' b pc := by
  have hb : ∀ {op}, Pend tr b op → born b (tr ++ evs) = born b tr := fun hp =>
    born_append ⟨_, hp.inv⟩
  cases pc with
  | idle =>
    obtain ⟨h1, h2, h3, h4, h5, h6⟩ := h
    refine ⟨?_, ?_, ?_, ?_, ?_, ?_⟩
    · exact fun hr => (Invoked.append.1 hr).elim h1 hn.inv
    · exact fun hr => (Returned.append.1 hr).elim h2 hn.ret
    · rw [resOps_append, List.mem_append]; exact fun hr => hr.elim h3 hn.res
    · rw [deqOps_append, List.mem_append]; exact fun hr => hr.elim h4 hn.deq
    · exact fun hr => (Committed.append.1 hr).elim h5 hn.com
    · exact fun hr => (Released.append.1 hr).elim h6 hn.rel
  | done =>
    obtain ⟨h1, h2, h3, h4⟩ := h
    refine ⟨Invoked.append.2 (.inl h1), Returned.append.2 (.inl h2), ?_, ?_⟩
    · rw [resOps_append, List.mem_append]
      exact fun hr => hr.elim (fun hr => Committed.append.2 (.inl (h3 hr))) (fun hr => absurd hr hn.res)
    · rw [deqOps_append, List.mem_append]
      exact fun hr => hr.elim (fun hr => Released.append.2 (.inl (h4 hr))) (fun hr => absurd hr hn.deq)
  | pushStart => exact Pend.append h hn
  | pushReload _ => exact Pend.append h hn
  | popStart => exact Pend.append h hn
  | popReload _ => exact Pend.append h hn
  | lenStart => exact Pend.append h hn
  | closeStart _ => exact Pend.append h hn
  | pushLoop _ t =>
    obtain ⟨hp, h⟩ := h
    refine ⟨hp.append hn, fun hm => ?_⟩
    obtain ⟨q, c, h1, h2, h3, h4, h5⟩ := h hm
    refine ⟨q, c, h1, by rw [nRes_append]; omega, by rw [hb hp]; exact h3, ?_, ?_⟩
    · intro hc; simp [h4 hc]
    · exact fun hc => let ⟨pre, h⟩ := h5 hc
        ⟨pre, h.1.trans (List.prefix_append _ _), h.2⟩
  | pushCas _ t =>
    obtain ⟨hp, h⟩ := h
    refine ⟨hp.append hn, fun hm => ?_⟩
    obtain ⟨q, h1, h2, h3, h4⟩ := h hm
    refine ⟨q, h1, by rw [nRes_append]; omega, by rw [hb hp]; exact h3, ?_⟩
    intro hq
    have : q = nRes tr := by rw [nRes_append] at hq; omega
    exact hCas q h2 hq (h4 this).1 (h4 this).2
  | pushHead _ t =>
    obtain ⟨hp, h⟩ := h
    refine ⟨hp.append hn, fun hm => ?_⟩
    obtain ⟨⟨q, h1, h2, h3⟩, pre, h4, h5⟩ := h hm
    exact ⟨⟨q, h1, by rw [nRes_append]; omega, by rw [hb hp]; exact h3⟩, pre,
      h4.trans (List.prefix_append _ _), h5⟩
  | pushInit t =>
    obtain ⟨p, hp, hnr, rfl, hl⟩ := h
    exact ⟨p, hp.append hn (hPush p hp), fun hr => (Returned.append.1 hr).elim hnr hn.ret, rfl,
      hl.append (fun _ => hInit p hp rfl)⟩
  | pushHeld i ns =>
    obtain ⟨p, hp, hr, h1, h2, v, hv⟩ := h
    exact ⟨p, hp.append hn (hPush p hp), Returned.append.2 (.inl hr), h1, h2, hVal i v hv⟩
  | pushPanicked i =>
    obtain ⟨p, hp, hr, h1⟩ := h
    exact ⟨p, hp.append hn (hPush p hp), Returned.append.2 (.inl hr), h1⟩
  | popLoop _ t =>
    obtain ⟨hp, h⟩ := h
    refine ⟨hp.append hn, fun hm => ?_⟩
    obtain ⟨q, h1, h2, h3⟩ := h hm
    exact ⟨q, h1, by rw [nDeq_append]; omega, by rw [hb hp]; exact h3⟩
  | popCas _ t =>
    obtain ⟨hp, h⟩ := h
    refine ⟨hp.append hn, fun hm => ?_⟩
    obtain ⟨q, h1, h2, h3, h4⟩ := h hm
    refine ⟨q, h1, by rw [nDeq_append]; omega, by rw [hb hp]; exact h3, ?_⟩
    intro hq
    have : q = nDeq tr := by rw [nDeq_append] at hq; omega
    exact hCas' q h2 hq (h4 this).1 (h4 this).2
  | popTail _ t =>
    obtain ⟨hp, h⟩ := h
    refine ⟨hp.append hn, fun hm => ?_⟩
    obtain ⟨q, h1, h2, h3, pre, h4, h5⟩ := h hm
    exact ⟨q, h1, by rw [nDeq_append]; omega, by rw [hb hp]; exact h3, pre,
      h4.trans (List.prefix_append _ _), h5⟩
  | popHeld i ns =>
    obtain ⟨p, hp, h1, h2, v, hv⟩ := h
    exact ⟨p, hp.append hn (hPop p hp), h1, h2, hVal i v hv⟩
  | lenHead t =>
    obtain ⟨hp, h⟩ := h
    refine ⟨hp.append hn, fun hm => ?_⟩
    obtain ⟨q, c, h1, h2, h3, h4⟩ := h hm
    refine ⟨q, c, h1, by rw [nRes_append]; omega, by rw [hb hp]; exact h3, ?_⟩
    intro hc; simp [h4 hc]
  | lenTail t _ =>
    obtain ⟨hp, h⟩ := h
    refine ⟨hp.append hn, fun hm => ?_⟩
    obtain ⟨q, c, pre, h1, h2, h3, h4, h5, h6, h7, h8⟩ := h hm
    exact ⟨q, c, pre, h1, h2.trans (List.prefix_append _ _), h3, h4, h5, h6, h7,
      by rw [hb hp]; exact h8⟩
  | crashed _ => exact h.elim

theorem PushAt.lt {tr : Trace V} {a : OpId} {p : Nat} (h : PushAt tr a p) : p < nRes tr :=
  lt_of_getElem?_some h.res

theorem PopAt.lt {tr : Trace V} {a : OpId} {p : Nat} (h : PopAt cap tr a p) : p < nDeq tr :=
  lt_of_getElem?_some h.deq

theorem PushAt.unique {tr : Trace V} {s : State w V} (hi : Inv m w cap tr s) {a b : OpId} {p q : Nat}
    (h : PushAt tr a p) (h' : PushAt tr b q) (hm : p % cap = q % cap) : p = q ∧ a = b := by
  have h1 := h.lt; have h2 := h'.lt; have h3 := h.nd; have h4 := h'.nd; have h5 := hi.ge
  have : p = q := mod_inj_window hm h3 (by omega) h4 (by omega)
  subst this
  exact ⟨rfl, Option.some.inj (h.res.symm.trans h'.res)⟩

theorem PopAt.unique {tr : Trace V} {s : State w V} (hi : Inv m w cap tr s) {a b : OpId} {p q : Nat}
    (h : PopAt cap tr a p) (h' : PopAt cap tr b q) (hm : p % cap = q % cap) : p = q ∧ a = b := by
  have h1 := h.lt; have h2 := h'.lt; have h3 := h.nr; have h4 := h'.nr; have h5 := hi.le
  have h6 : p + cap = q + cap := mod_inj_window (cap := cap) (H := nDeq tr) (by simp [hm])
    (by omega) (by omega) (by omega) (by omega)
  have : p = q := by omega
  subst this
  exact ⟨rfl, Option.some.inj (h.deq.symm.trans h'.deq)⟩

theorem PushAt.ne_pop {tr : Trace V} {s : State w V} (hi : Inv m w cap tr s) {a b : OpId} {p q : Nat}
    (h : PushAt tr a p) (h' : PopAt cap tr b q) (hm : p % cap = q % cap) : False := by
  have h1 := h.lt; have h2 := h'.lt; have h3 := h.nd; have h4 := h'.nr; have h5 := hi.ge
  have h6 : p = q + cap := mod_inj_window (cap := cap) (H := nDeq tr) (by simp [hm])
    (by omega) (by omega) (by omega) (by omega)
  omega

theorem OwnsPush.pos_eq {tr : Trace V} {s : State w V} (hw : WellSized w cap) (hi : Inv m w cap tr s)
    {p q : Nat} {pc : PC w} (h1 : OwnsPush w cap p pc) (h2 : OwnsPush w cap q pc)
    (hp : nDeq tr ≤ p) (hp' : p < nRes tr) (hq : nDeq tr ≤ q) (hq' : q < nRes tr) : p = q := by
  have := period_ge hw
  have := hi.ge
  have hpos := hw.1
  rcases h1 with rfl | rfl | rfl <;> rcases h2 with h2 | h2 | h2 <;>
    simp only [PC.pushInit.injEq, PC.pushHeld.injEq, PC.pushPanicked.injEq, reduceCtorEq] at h2
  · exact enc_inj hw h2 (by omega) (by omega)
  · exact mod_inj_window h2.1 hp (by omega) hq (by omega)
  · exact mod_inj_window h2 hp (by omega) hq (by omega)

/-- Steps that change nothing but the program counter of an operation that owns nothing. -/
theorem Inv.quietT {tr evs : Trace V} {s : State w V} {a : OpId} {pc' : PC w} {t : BitVec w} (hi : Inv m w cap tr s)
    (hact : ∀ e ∈ evs, e.actor = a) (hr : resOps evs = []) (hd : deqOps evs = [])
    (ht : t = tailWord w cap (nRes tr) (closedB tr || closedB evs)) (har : a ∉ resOps tr) (had : a ∉ deqOps tr)
    (hpc : pcInv m w cap (tr ++ evs) { s.goto a pc' with tail := t } a pc') :
    Inv m w cap (tr ++ evs) { s.goto a pc' with tail := t } := by
  have er : nRes (tr ++ evs) = nRes tr := by simp [nRes, hr]
  have ed : nDeq (tr ++ evs) = nDeq tr := by simp [nDeq, hd]
  refine ⟨?_, ?_, ?_, ?_, ?_, ?_, ?_⟩
  · rw [er, closedB_append]; exact ht
  · rw [ed]; exact hi.head
  · rw [er, ed]; exact hi.le
  · rw [er, ed]; exact hi.ge
  · intro p b hp hb
    rw [ed] at hp
    rw [resOps_append, hr, List.append_nil] at hb
    have hne : b ≠ a := by
      rintro rfl; exact har (List.mem_of_getElem? hb)
    rcases hi.busy p b hp hb with ⟨h1, v, h2, h3⟩ | ⟨h1, h2, h3⟩
    · exact .inl ⟨h1, v, h2, List.mem_append_left _ h3⟩
    · refine .inr ⟨h1, ?_, fun hc => (Committed.append.1 hc).elim h3 (NoEv.of_actor hact hne).com⟩
      show OwnsPush w cap p (upd s.pc a pc' b)
      rw [upd_ne _ _ hne]; exact h2
  · intro p hp1 hp2
    rw [er] at hp1; rw [ed] at hp2
    rcases hi.free p hp1 hp2 with ⟨h1, h2⟩ | ⟨h1, h2, b, h3, h4⟩
    · exact .inl ⟨h1, h2.append (fun _ => rfl)⟩
    · refine .inr ⟨h1, h2, b, by rw [deqOps_append]; exact getElem?_append_of_some h3, ?_⟩
      have hne : b ≠ a := by
        rintro rfl; exact had (List.mem_of_getElem? h3)
      show upd s.pc a pc' b = _
      rw [upd_ne _ _ hne]; exact h4
  · intro b
    show pcInv m w cap _ _ b (upd s.pc a pc' b)
    by_cases hne : b = a
    · subst hne; rw [upd_self]; exact hpc
    · rw [upd_ne _ _ hne]
      refine pcInv_frame (hi.pcs b) (NoEv.of_actor hact hne) ?_ ?_ ?_ ?_ ?_ ?_
      · intro p hp; rw [ed]; exact hp.nd
      · intro p hp; rw [er]; exact hp.nr
      · intro p hp _; rfl
      · intro i v hv; exact ⟨v, hv⟩
      · intro q _ _ h1 h2; rw [ed]; exact ⟨h1, h2⟩
      · intro q _ _ h1 h2; rw [er]; exact ⟨h1, h2⟩

theorem Inv.quiet {tr evs : Trace V} {s : State w V} {a : OpId} {pc' : PC w} (hi : Inv m w cap tr s)
    (hact : ∀ e ∈ evs, e.actor = a) (hr : resOps evs = []) (hd : deqOps evs = [])
    (hcl : closedB evs = false) (har : a ∉ resOps tr) (had : a ∉ deqOps tr)
    (hpc : pcInv m w cap (tr ++ evs) (s.goto a pc') a pc') : Inv m w cap (tr ++ evs) (s.goto a pc') :=
  hi.quietT (t := s.tail) hact hr hd (by rw [hcl, Bool.or_false]; exact hi.tail) har had hpc

/-- Steps by which the owner (as a push) of position `p` changes the content of its slot. -/
theorem Inv.pushLike {tr evs : Trace V} {s s' : State w V} {a : OpId} {p : Nat}
    (hw : WellSized w cap) (hi : Inv m w cap tr s)
    (hact : ∀ e ∈ evs, e.actor = a) (hr : resOps evs = []) (hd : deqOps evs = [])
    (hcl : closedB evs = false) (hcom : ¬ Committed evs a)
    (ho : PushAt tr a p) (hown : OwnsPush w cap p (s.pc a)) (hown' : OwnsPush w cap p (s'.pc a))
    (ht : s'.tail = s.tail) (hh : s'.head = s.head) (hst : s'.st = s.st)
    (hv : ∀ i, i ≠ p % cap → s'.val i = s.val i)
    (hv' : ∀ i v, s.val i = some v → ∃ v', s'.val i = some v')
    (hpcs : ∀ b, b ≠ a → s'.pc b = s.pc b)
    (hpc : pcInv m w cap (tr ++ evs) s' a (s'.pc a)) : Inv m w cap (tr ++ evs) s' := by
  have er : nRes (tr ++ evs) = nRes tr := by simp [nRes, hr]
  have ed : nDeq (tr ++ evs) = nDeq tr := by simp [nDeq, hd]
  have hle := hi.le
  have hge := hi.ge
  have hp1 := ho.nd
  have hp2 := ho.lt
  refine ⟨?_, ?_, ?_, ?_, ?_, ?_, ?_⟩
  · rw [ht, er, closedB_append, hcl, Bool.or_false]; exact hi.tail
  · rw [hh, ed]; exact hi.head
  · rw [er, ed]; exact hi.le
  · rw [er, ed]; exact hi.ge
  · intro p' b hp hb
    rw [ed] at hp
    rw [resOps_append, hr, List.append_nil] at hb
    have hlt : p' < nRes tr := lt_of_getElem?_some hb
    by_cases hpp : p' = p
    · subst hpp
      have : b = a := Option.some.inj (hb.symm.trans ho.res)
      subst this
      rcases hi.busy p' b hp hb with ⟨h1, v, h2, h3⟩ | ⟨h1, h2, h3⟩
      · exact absurd ⟨_, _, h3⟩ ho.ncom
      · exact .inr ⟨by rw [hst]; exact h1, hown',
          fun hc => (Committed.append.1 hc).elim h3 hcom⟩
    · have hslot : p' % cap ≠ p % cap := fun hm =>
        hpp (mod_inj_window hm hp (by omega) hp1 (by omega))
      rcases hi.busy p' b hp hb with ⟨h1, v, h2, h3⟩ | ⟨h1, h2, h3⟩
      · exact .inl ⟨by rw [hst]; exact h1, v, by rw [hv _ hslot]; exact h2,
          List.mem_append_left _ h3⟩
      · have hne : b ≠ a := by
          rintro rfl
          exact hpp (OwnsPush.pos_eq hw hi h2 hown hp hlt hp1 hp2)
        exact .inr ⟨by rw [hst]; exact h1, by rw [hpcs b hne]; exact h2,
          fun hc => (Committed.append.1 hc).elim h3 (NoEv.of_actor hact hne).com⟩
  · intro p' hq1 hq2
    rw [er] at hq1; rw [ed] at hq2
    have hslot : p' % cap ≠ p % cap := fun hm => by
      have := mod_inj_window (H := nDeq tr) hm (by omega) (by omega) hp1 (by omega)
      omega
    rcases hi.free p' hq1 hq2 with ⟨h1, h2⟩ | ⟨h1, h2, b, h3, h4⟩
    · exact .inl ⟨by rw [hst]; exact h1, h2.append (fun _ => hv _ hslot)⟩
    · refine .inr ⟨h1, by rw [hst]; exact h2, b,
        by rw [deqOps_append]; exact getElem?_append_of_some h3, ?_⟩
      have hne : b ≠ a := by
        rintro rfl; exact ho.ndeq (List.mem_of_getElem? h3)
      rw [hpcs b hne]; exact h4
  · intro b
    by_cases hne : b = a
    · subst hne; exact hpc
    · rw [hpcs b hne]
      refine pcInv_frame (hi.pcs b) (NoEv.of_actor hact hne) ?_ ?_ ?_ hv' ?_ ?_
      · intro p hp; rw [ed]; exact hp.nd
      · intro p hp; rw [er]; exact hp.nr
      · intro p' hp' _
        exact hv _ (fun hm => hne (PushAt.unique hi hp' ho hm).2)
      · intro q _ _ h1 h2; rw [ed, hst]; exact ⟨h1, h2⟩
      · intro q _ _ h1 h2; rw [er, hst]; exact ⟨h1, h2⟩

/-- The user writes through the `Ref` of a pop. -/
theorem Inv.popLike {tr evs : Trace V} {s s' : State w V} {a : OpId} {p : Nat}
    (hi : Inv m w cap tr s)
    (hact : ∀ e ∈ evs, e.actor = a) (hr : resOps evs = []) (hd : deqOps evs = [])
    (hcl : closedB evs = false)
    (ho : PopAt cap tr a p)
    (ht : s'.tail = s.tail) (hh : s'.head = s.head) (hst : s'.st = s.st)
    (hv : ∀ i, i ≠ p % cap → s'.val i = s.val i)
    (hv' : ∀ i v, s.val i = some v → ∃ v', s'.val i = some v')
    (hpcs : s'.pc = s.pc)
    (hpc : pcInv m w cap (tr ++ evs) s' a (s'.pc a)) : Inv m w cap (tr ++ evs) s' := by
  have er : nRes (tr ++ evs) = nRes tr := by simp [nRes, hr]
  have ed : nDeq (tr ++ evs) = nDeq tr := by simp [nDeq, hd]
  have hle := hi.le
  have hge := hi.ge
  have hp1 := ho.nr
  have hp2 := ho.lt
  refine ⟨?_, ?_, ?_, ?_, ?_, ?_, ?_⟩
  · rw [ht, er, closedB_append, hcl, Bool.or_false]; exact hi.tail
  · rw [hh, ed]; exact hi.head
  · rw [er, ed]; exact hi.le
  · rw [er, ed]; exact hi.ge
  · intro p' b hp hb
    rw [ed] at hp
    rw [resOps_append, hr, List.append_nil] at hb
    have hlt : p' < nRes tr := lt_of_getElem?_some hb
    have hslot : p' % cap ≠ p % cap := fun hm => by
      have := mod_inj_window (cap := cap) (H := nDeq tr) (p := p') (q := p + cap) (by simp [hm]) hp (by omega)
        (by omega) (by omega)
      omega
    rcases hi.busy p' b hp hb with ⟨h1, v, h2, h3⟩ | ⟨h1, h2, h3⟩
    · exact .inl ⟨by rw [hst]; exact h1, v, by rw [hv _ hslot]; exact h2, List.mem_append_left _ h3⟩
    · have hne : b ≠ a := by
        rintro rfl
        exact ho.nres (List.mem_of_getElem? hb)
      exact .inr ⟨by rw [hst]; exact h1, by rw [hpcs]; exact h2,
        fun hc => (Committed.append.1 hc).elim h3 (NoEv.of_actor hact hne).com⟩
  · intro p' hq1 hq2
    rw [er] at hq1; rw [ed] at hq2
    rcases hi.free p' hq1 hq2 with ⟨h1, h2⟩ | ⟨h1, h2, b, h3, h4⟩
    · refine .inl ⟨by rw [hst]; exact h1, ?_⟩
      by_cases hpp : p' = p + cap
      · subst hpp
        obtain ⟨v, b, h3, -, h5⟩ := h2 (by omega)
        rw [Nat.add_sub_cancel] at h3
        have : b = a := Option.some.inj (h3.symm.trans ho.deq)
        subst this
        exact absurd ⟨_, _, h5⟩ ho.nrel
      · refine h2.append (fun _ => hv _ (fun hm => hpp ?_))
        exact mod_inj_window (cap := cap) (H := nDeq tr) (by simp [hm]) (by omega) (by omega) (by omega) (by omega)
    · exact .inr ⟨h1, by rw [hst]; exact h2, b,
        by rw [deqOps_append]; exact getElem?_append_of_some h3, by rw [hpcs]; exact h4⟩
  · intro b
    by_cases hne : b = a
    · subst hne; exact hpc
    · rw [hpcs]
      refine pcInv_frame (hi.pcs b) (NoEv.of_actor hact hne) ?_ ?_ ?_ hv' ?_ ?_
      · intro p hp; rw [ed]; exact hp.nd
      · intro p hp; rw [er]; exact hp.nr
      · intro p' hp' _
        exact hv _ (fun hm => PushAt.ne_pop hi hp' ho hm)
      · intro q _ _ h1 h2; rw [ed, hst]; exact ⟨h1, h2⟩
      · intro q _ _ h1 h2; rw [er, hst]; exact ⟨h1, h2⟩

theorem Inv.init (hw : WellSized w cap) : Inv m w cap ([] : Trace V) (State.init w V) where
  tail := by
    show 0#w = tailWord w cap 0 false
    rw [tailWord_false, enc_of_lt hw.1]
  head := by
    show 0#w = enc w cap 0
    rw [enc_of_lt hw.1]
  le := Nat.le_refl _
  ge := by simp
  busy := by intro p a _ h; simp at h
  free := by
    intro p _ hp
    simp at hp
    left
    refine ⟨?_, fun hcp => by omega⟩
    rw [Nat.mod_eq_of_lt hp, enc_of_lt hp]
    rfl
  pcs := by
    intro a
    show pcInv m w cap [] _ a .idle
    refine ⟨?_, ?_, by simp, by simp, ?_, ?_⟩ <;> simp [Invoked, Returned, Committed, Released]

theorem goto_pc_self (s : State w V) (a : OpId) (pc : PC w) : (s.goto a pc).pc a = pc := upd_self ..

theorem goto_pc_ne (s : State w V) {a b : OpId} (pc : PC w) (h : b ≠ a) :
    (s.goto a pc).pc b = s.pc b := upd_ne _ _ h

theorem Inv.reserve {tr : Trace V} {s : State w V} (hw : WellSized w cap) (hi : Inv m w cap tr s)
    {a : OpId} (hp : Pend tr a .push) (hc : closedB tr = false) (hlt : nRes tr < nDeq tr + cap)
    (hst : s.st (nRes tr % cap) = enc w cap (nRes tr)) :
    Inv m w cap (tr ++ [.reserve a (nRes tr % cap)])
      { s.goto a (.pushInit (enc w cap (nRes tr))) with tail := enc w cap (nRes tr + 1) } := by
  have hact : ∀ e ∈ [Event.reserve (V := V) a (nRes tr % cap)], e.actor = a := by simp [Event.actor]
  have er : nRes (tr ++ [.reserve a (nRes tr % cap)]) = nRes tr + 1 := by simp [nRes, resOps]
  have ed : nDeq (tr ++ [.reserve a (nRes tr % cap)]) = nDeq tr := by simp [nDeq, deqOps]
  have er' : resOps (tr ++ [.reserve a (nRes tr % cap)]) = resOps tr ++ [a] := by simp [resOps]
  have hle := hi.le
  have hge := hi.ge
  have hleft : Left cap tr s (nRes tr) := by
    rcases hi.free (nRes tr) (Nat.le_refl _) hlt with ⟨_, h⟩ | ⟨h1, h2, _⟩
    · exact h
    · refine absurd (hst.symm.trans h2) (enc_ne_enc_succ hw ?_)
      rw [sub_mod_self h1]
  refine ⟨?_, ?_, ?_, ?_, ?_, ?_, ?_⟩
  · rw [er, closedB_append, hc]; rfl
  · rw [ed]; exact hi.head
  · rw [er, ed]; omega
  · rw [er, ed]; omega
  · intro p b hp' hb
    rw [ed] at hp'
    rw [er'] at hb
    by_cases hpe : p < nRes tr
    · rw [List.getElem?_append_left hpe] at hb
      have hne : b ≠ a := by
        rintro rfl; exact hp.nres (List.mem_of_getElem? hb)
      rcases hi.busy p b hp' hb with ⟨h1, v, h2, h3⟩ | ⟨h1, h2, h3⟩
      · exact .inl ⟨h1, v, h2, List.mem_append_left _ h3⟩
      · refine .inr ⟨h1, ?_, fun hc => (Committed.append.1 hc).elim h3 (NoEv.of_actor hact hne).com⟩
        show OwnsPush w cap p ((s.goto a _).pc b)
        rw [goto_pc_ne _ _ hne]; exact h2
    · have hpe' : nRes tr ≤ p := by omega
      rw [List.getElem?_append_right hpe'] at hb
      have hpn : p = nRes tr := by
        have := lt_of_getElem?_some hb
        simp at this
        show p = (resOps tr).length
        have h' : (resOps tr).length ≤ p := hpe'
        omega
      subst hpn
      have hba : b = a := by
        have e : nRes tr - (resOps tr).length = 0 := by simp [nRes]
        rw [e] at hb
        simpa using hb.symm
      subst hba
      refine .inr ⟨hst, ?_, fun hc => (Committed.append.1 hc).elim hp.ncom ?_⟩
      · show OwnsPush w cap (nRes tr) ((s.goto b _).pc b)
        rw [goto_pc_self]; exact .inl rfl
      · simp [Committed]
  · intro p hp1 hp2
    rw [er] at hp1; rw [ed] at hp2
    rcases hi.free p (by omega) hp2 with ⟨h1, h2⟩ | ⟨h1, h2, b, h3, h4⟩
    · exact .inl ⟨h1, h2.append (fun _ => rfl)⟩
    · refine .inr ⟨h1, h2, b, by rw [deqOps_append]; exact getElem?_append_of_some h3, ?_⟩
      have hne : b ≠ a := by
        rintro rfl; exact hp.ndeq (List.mem_of_getElem? h3)
      show (s.goto a _).pc b = _
      rw [goto_pc_ne _ _ hne]; exact h4
  · intro b
    show pcInv m w cap _ _ b ((s.goto a _).pc b)
    by_cases hne : b = a
    · subst hne; rw [goto_pc_self]
      refine ⟨nRes tr, ⟨?_, by rw [ed]; exact hle, List.mem_append_left _ hp.inv, ?_, ?_, ?_⟩, ?_, rfl,
        hleft.append (fun _ => rfl)⟩
      · rw [er']; simp [nRes]
      · rw [deqOps_append, List.mem_append]; exact fun h => h.elim hp.ndeq (by simp [deqOps])
      · exact fun hc => (Committed.append.1 hc).elim hp.ncom (by simp [Committed])
      · exact fun hc => (Released.append.1 hc).elim hp.nrel (by simp [Released])
      · exact fun hc => (Returned.append.1 hc).elim hp.nret (by simp [Returned])
    · rw [goto_pc_ne _ _ hne]
      refine pcInv_frame (hi.pcs b) (NoEv.of_actor hact hne) ?_ ?_ ?_ ?_ ?_ ?_
      · intro p hp; rw [ed]; exact hp.nd
      · intro p hpp; rw [er]
        have h1 := hpp.nr
        by_cases he : nRes tr = p + cap
        · obtain ⟨v, b', h3, -, h5⟩ := hleft (by omega)
          rw [show nRes tr - cap = p by omega] at h3
          have : b' = b := Option.some.inj (h3.symm.trans hpp.deq)
          subst this
          exact absurd ⟨_, _, h5⟩ hpp.nrel
        · omega
      · intro p hp _; rfl
      · intro i v hv; exact ⟨v, hv⟩
      · intro q h1 h2; rw [er] at h2; omega
      · intro q _ _ h1 h2; rw [er]; exact ⟨by omega, h2⟩

theorem Inv.dequeue {tr : Trace V} {s : State w V} (hw : WellSized w cap) (hi : Inv m w cap tr s)
    {a : OpId} (hp : Pend tr a .pop)
    (hlt : nDeq tr < nRes tr) (hst : s.st (nDeq tr % cap) = enc w cap (nDeq tr) + 1#w) :
    Inv m w cap (tr ++ [.dequeue a (nDeq tr % cap) (s.val (nDeq tr % cap)), .ret a .popped])
        { s.goto a (.popHeld (nDeq tr % cap) (enc w cap (nDeq tr + cap))) with
          head := enc w cap (nDeq tr + 1) } := by
  generalize hevs : [Event.dequeue a (nDeq tr % cap) (s.val (nDeq tr % cap)), .ret a .popped] = evs
  have hact : ∀ e ∈ evs, e.actor = a := by subst hevs; simp [Event.actor]
  have er : nRes (tr ++ evs) = nRes tr := by subst hevs; simp [nRes, resOps]
  have ed : nDeq (tr ++ evs) = nDeq tr + 1 := by subst hevs; simp [nDeq, deqOps]
  have er' : resOps (tr ++ evs) = resOps tr := by subst hevs; simp [resOps]
  have ed' : deqOps (tr ++ evs) = deqOps tr ++ [a] := by subst hevs; simp [deqOps]
  have ecl : closedB evs = false := by subst hevs; simp [closedB]
  have hle := hi.le
  have hge := hi.ge
  have hpos := hw.1
  obtain ⟨a0, ha0⟩ : ∃ a0, (resOps tr)[nDeq tr]? = some a0 := ⟨_, List.getElem?_eq_getElem hlt⟩
  obtain ⟨v0, hv0, hc0⟩ : ∃ v, s.val (nDeq tr % cap) = some v ∧
      Event.commit a0 (nDeq tr % cap) (some v) ∈ tr := by
    rcases hi.busy _ a0 (Nat.le_refl _) ha0 with ⟨h1, v, h2, h3⟩ | ⟨h1, h2, h3⟩
    · exact ⟨v, h2, h3⟩
    · exact absurd (h1.symm.trans hst) (enc_ne_enc_succ hw rfl)
  refine ⟨?_, ?_, ?_, ?_, ?_, ?_, ?_⟩
  · rw [er, closedB_append, ecl, Bool.or_false]; exact hi.tail
  · rw [ed]
  · rw [er, ed]; omega
  · rw [er, ed]; omega
  · intro p b hp' hb
    rw [ed] at hp'
    rw [er'] at hb
    have hne : b ≠ a := by
      rintro rfl; exact hp.nres (List.mem_of_getElem? hb)
    rcases hi.busy p b (by omega) hb with ⟨h1, v, h2, h3⟩ | ⟨h1, h2, h3⟩
    · exact .inl ⟨h1, v, h2, List.mem_append_left _ h3⟩
    · refine .inr ⟨h1, ?_, fun hc => (Committed.append.1 hc).elim h3 (NoEv.of_actor hact hne).com⟩
      show OwnsPush w cap p ((s.goto a _).pc b)
      rw [goto_pc_ne _ _ hne]; exact h2
  · intro p hp1 hp2
    rw [er] at hp1; rw [ed] at hp2
    by_cases hpe : p < nDeq tr + cap
    · rcases hi.free p (by omega) hpe with ⟨h1, h2⟩ | ⟨h1, h2, b, h3, h4⟩
      · exact .inl ⟨h1, h2.append (fun _ => rfl)⟩
      · refine .inr ⟨h1, h2, b, by rw [deqOps_append]; exact getElem?_append_of_some h3, ?_⟩
        have hne : b ≠ a := by
          rintro rfl; exact hp.ndeq (List.mem_of_getElem? h3)
        show (s.goto a _).pc b = _
        rw [goto_pc_ne _ _ hne]; exact h4
    · have hpn : p = nDeq tr + cap := by omega
      subst hpn
      refine .inr ⟨by omega, ?_, a, ?_, ?_⟩
      · rw [Nat.add_sub_cancel, Nat.add_mod_right]; exact hst
      · rw [Nat.add_sub_cancel, ed']; simp [nDeq]
      · show (s.goto a _).pc a = _
        rw [goto_pc_self, Nat.add_mod_right]
  · intro b
    show pcInv m w cap _ _ b ((s.goto a _).pc b)
    by_cases hne : b = a
    · subst hne; rw [goto_pc_self]
      refine ⟨nDeq tr, ⟨?_, by rw [er]; exact hge, List.mem_append_left _ hp.inv, ?_, ?_, ?_, ?_⟩,
        rfl, rfl, v0, hv0⟩
      · rw [ed']; simp [nDeq]
      · exact Returned.append.2 (.inr ⟨.popped, by subst hevs; simp⟩)
      · rw [er']; exact hp.nres
      · exact fun hc => (Committed.append.1 hc).elim hp.ncom (by subst hevs; simp [Committed])
      · exact fun hc => (Released.append.1 hc).elim hp.nrel (by subst hevs; simp [Released])
    · rw [goto_pc_ne _ _ hne]
      refine pcInv_frame (hi.pcs b) (NoEv.of_actor hact hne) ?_ ?_ ?_ ?_ ?_ ?_
      · intro p hpp; rw [ed]
        have h1 := hpp.nd
        by_cases he : p = nDeq tr
        · subst he
          have : a0 = b := Option.some.inj (ha0.symm.trans hpp.res)
          subst this
          exact absurd ⟨_, _, hc0⟩ hpp.ncom
        · omega
      · intro p hp; rw [er]; exact hp.nr
      · intro p hp _; rfl
      · intro i v hv; exact ⟨v, hv⟩
      · intro q _ _ h1 h2; rw [ed]; exact ⟨by omega, h2⟩
      · intro q h1 h2; rw [ed] at h2; omega

theorem Inv.commit {tr : Trace V} {s : State w V} (hw : WellSized w cap) (hi : Inv m w cap tr s)
    {a : OpId} {p : Nat} (hpc : s.pc a = .pushHeld (p % cap) (enc w cap p + 1#w))
    (ho : PushAt tr a p) :
    Inv m w cap (tr ++ [.commit a (p % cap) (s.val (p % cap))])
        { s.goto a .done with st := upd s.st (p % cap) (enc w cap p + 1#w) } := by
  generalize hevs : [Event.commit a (p % cap) (s.val (p % cap))] = evs
  have hact : ∀ e ∈ evs, e.actor = a := by subst hevs; simp [Event.actor]
  have er : nRes (tr ++ evs) = nRes tr := by subst hevs; simp [nRes, resOps]
  have ed : nDeq (tr ++ evs) = nDeq tr := by subst hevs; simp [nDeq, deqOps]
  have er' : resOps (tr ++ evs) = resOps tr := by subst hevs; simp [resOps]
  have ed' : deqOps (tr ++ evs) = deqOps tr := by subst hevs; simp [deqOps]
  have ecl : closedB evs = false := by subst hevs; simp [closedB]
  have hle := hi.le
  have hge := hi.ge
  have hp1 := ho.nd
  have hp2 := ho.lt
  have hown : OwnsPush w cap p (s.pc a) := .inr (.inl hpc)
  have hpi := hi.pcs a
  rw [hpc] at hpi
  obtain ⟨p0, ho0, hret, hm0, -, v0, hv0⟩ := hpi
  refine ⟨?_, ?_, ?_, ?_, ?_, ?_, ?_⟩
  · rw [er, closedB_append, ecl, Bool.or_false]; exact hi.tail
  · rw [ed]; exact hi.head
  · rw [er, ed]; exact hle
  · rw [er, ed]; exact hge
  · intro p' b hp hb
    rw [ed] at hp
    rw [er'] at hb
    have hlt : p' < nRes tr := lt_of_getElem?_some hb
    by_cases hpp : p' = p
    · subst hpp
      have : b = a := Option.some.inj (hb.symm.trans ho.res)
      subst this
      refine .inl ⟨upd_self .., v0, hv0, List.mem_append_right _ ?_⟩
      subst hevs; simp [hv0]
    · have hslot : p' % cap ≠ p % cap := fun hm =>
        hpp (mod_inj_window hm hp (by omega) hp1 (by omega))
      rcases hi.busy p' b hp hb with ⟨h1, v, h2, h3⟩ | ⟨h1, h2, h3⟩
      · exact .inl ⟨(upd_ne _ _ hslot).trans h1, v, h2, List.mem_append_left _ h3⟩
      · have hne : b ≠ a := by
          rintro rfl
          exact hpp (OwnsPush.pos_eq hw hi h2 hown hp hlt hp1 hp2)
        refine .inr ⟨(upd_ne _ _ hslot).trans h1, ?_,
          fun hc => (Committed.append.1 hc).elim h3 (NoEv.of_actor hact hne).com⟩
        show OwnsPush w cap p' ((s.goto a _).pc b)
        rw [goto_pc_ne _ _ hne]; exact h2
  · intro p' hq1 hq2
    rw [er] at hq1; rw [ed] at hq2
    have hslot : p' % cap ≠ p % cap := fun hm => by
      have := mod_inj_window (H := nDeq tr) hm (by omega) (by omega) hp1 (by omega)
      omega
    rcases hi.free p' hq1 hq2 with ⟨h1, h2⟩ | ⟨h1, h2, b, h3, h4⟩
    · exact .inl ⟨(upd_ne _ _ hslot).trans h1, h2.append (fun _ => rfl)⟩
    · refine .inr ⟨h1, (upd_ne _ _ hslot).trans h2, b, by rw [ed']; exact h3, ?_⟩
      have hne : b ≠ a := by
        rintro rfl; exact ho.ndeq (List.mem_of_getElem? h3)
      show (s.goto a _).pc b = _
      rw [goto_pc_ne _ _ hne]; exact h4
  · intro b
    show pcInv m w cap _ _ b ((s.goto a _).pc b)
    by_cases hne : b = a
    · subst hne; rw [goto_pc_self]
      refine ⟨⟨_, List.mem_append_left _ ho.inv⟩, Returned.append.2 (.inl hret), fun _ => ?_, fun h => ?_⟩
      · exact Committed.append.2 (.inr ⟨_, _, by subst hevs; exact List.mem_singleton.2 rfl⟩)
      · rw [ed'] at h; exact absurd h ho.ndeq
    · rw [goto_pc_ne _ _ hne]
      refine pcInv_frame (hi.pcs b) (NoEv.of_actor hact hne) ?_ ?_ ?_ ?_ ?_ ?_
      · intro p hp; rw [ed]; exact hp.nd
      · intro p hp; rw [er]; exact hp.nr
      · intro p hp _; rfl
      · intro i v hv; exact ⟨v, hv⟩
      · intro q _ h0 h1 h2
        rw [er] at h0
        rw [ed]
        refine ⟨h1, ?_⟩
        have hslot : q % cap ≠ p % cap := fun hm => by
          have := mod_inj_window (H := nDeq tr) hm (by omega) (by omega) hp1 (by omega)
          omega
        exact (upd_ne _ _ hslot).trans h2
      · intro q _ h0 h1 h2
        rw [ed] at h0
        rw [er]
        refine ⟨h1, ?_⟩
        show upd s.st (p % cap) _ (q % cap) = _
        by_cases hm : q % cap = p % cap
        · have : q = p := mod_inj_window (H := nDeq tr) hm (by omega) (by omega) hp1 (by omega)
          subst this
          rw [upd_self]
        · rw [upd_ne _ _ hm]; exact h2

theorem Inv.release {tr : Trace V} {s : State w V} (hi : Inv m w cap tr s)
    {a : OpId} {p : Nat} (hpc : s.pc a = .popHeld (p % cap) (enc w cap (p + cap)))
    (ho : PopAt cap tr a p) :
    Inv m w cap (tr ++ [.release a (p % cap) (s.val (p % cap))])
        { s.goto a .done with st := upd s.st (p % cap) (enc w cap (p + cap)) } := by
  generalize hevs : [Event.release a (p % cap) (s.val (p % cap))] = evs
  have hact : ∀ e ∈ evs, e.actor = a := by subst hevs; simp [Event.actor]
  have er : nRes (tr ++ evs) = nRes tr := by subst hevs; simp [nRes, resOps]
  have ed : nDeq (tr ++ evs) = nDeq tr := by subst hevs; simp [nDeq, deqOps]
  have er' : resOps (tr ++ evs) = resOps tr := by subst hevs; simp [resOps]
  have ed' : deqOps (tr ++ evs) = deqOps tr := by subst hevs; simp [deqOps]
  have ecl : closedB evs = false := by subst hevs; simp [closedB]
  have hle := hi.le
  have hge := hi.ge
  have hp1 := ho.nr
  have hp2 := ho.lt
  have hpi := hi.pcs a
  rw [hpc] at hpi
  obtain ⟨p0, ho0, hm0, -, v0, hv0⟩ := hpi
  refine ⟨?_, ?_, ?_, ?_, ?_, ?_, ?_⟩
  · rw [er, closedB_append, ecl, Bool.or_false]; exact hi.tail
  · rw [ed]; exact hi.head
  · rw [er, ed]; exact hle
  · rw [er, ed]; exact hge
  · intro p' b hp hb
    rw [ed] at hp
    rw [er'] at hb
    have hlt : p' < nRes tr := lt_of_getElem?_some hb
    have hslot : p' % cap ≠ p % cap := fun hm => by
      have := mod_inj_window (cap := cap) (H := nDeq tr) (p := p') (q := p + cap) (by simp [hm]) hp
        (by omega) (by omega) (by omega)
      omega
    have hne : b ≠ a := by
      rintro rfl
      exact ho.nres (List.mem_of_getElem? hb)
    rcases hi.busy p' b hp hb with ⟨h1, v, h2, h3⟩ | ⟨h1, h2, h3⟩
    · exact .inl ⟨(upd_ne _ _ hslot).trans h1, v, h2, List.mem_append_left _ h3⟩
    · refine .inr ⟨(upd_ne _ _ hslot).trans h1, ?_,
        fun hc => (Committed.append.1 hc).elim h3 (NoEv.of_actor hact hne).com⟩
      show OwnsPush w cap p' ((s.goto a _).pc b)
      rw [goto_pc_ne _ _ hne]; exact h2
  · intro p' hq1 hq2
    rw [er] at hq1; rw [ed] at hq2
    by_cases hpp : p' = p + cap
    · subst hpp
      refine .inl ⟨?_, fun _ => ⟨v0, a, ?_, ?_, List.mem_append_right _ ?_⟩⟩
      · show upd s.st (p % cap) _ ((p + cap) % cap) = _
        rw [Nat.add_mod_right, upd_self]
      · rw [Nat.add_sub_cancel, ed']; exact ho.deq
      · rw [Nat.add_mod_right]; exact hv0
      · subst hevs; rw [Nat.add_mod_right, hv0]; exact List.mem_singleton.2 rfl
    · have hslot : p' % cap ≠ p % cap := fun hm => hpp
        (mod_inj_window (cap := cap) (H := nDeq tr) (by simp [hm]) (by omega) (by omega) (by omega)
          (by omega))
      rcases hi.free p' hq1 hq2 with ⟨h1, h2⟩ | ⟨h1, h2, b, h3, h4⟩
      · exact .inl ⟨(upd_ne _ _ hslot).trans h1, h2.append (fun _ => rfl)⟩
      · refine .inr ⟨h1, (upd_ne _ _ hslot).trans h2, b, by rw [ed']; exact h3, ?_⟩
        have hne : b ≠ a := by
          rintro rfl
          rw [hpc] at h4
          injection h4 with h5 _
          exact hslot h5.symm
        show (s.goto a _).pc b = _
        rw [goto_pc_ne _ _ hne]; exact h4
  · intro b
    show pcInv m w cap _ _ b ((s.goto a _).pc b)
    by_cases hne : b = a
    · subst hne; rw [goto_pc_self]
      refine ⟨⟨_, List.mem_append_left _ ho.inv⟩, Returned.append.2 (.inl ho.ret), fun h => ?_,
        fun _ => ?_⟩
      · rw [er'] at h; exact absurd h ho.nres
      · exact Released.append.2 (.inr ⟨_, _, by subst hevs; exact List.mem_singleton.2 rfl⟩)
    · rw [goto_pc_ne _ _ hne]
      refine pcInv_frame (hi.pcs b) (NoEv.of_actor hact hne) ?_ ?_ ?_ ?_ ?_ ?_
      · intro p hp; rw [ed]; exact hp.nd
      · intro p hp; rw [er]; exact hp.nr
      · intro p hp _; rfl
      · intro i v hv; exact ⟨v, hv⟩
      · intro q _ h0 h1 h2
        rw [er] at h0
        rw [ed]
        refine ⟨h1, ?_⟩
        show upd s.st (p % cap) _ (q % cap) = _
        by_cases hm : q % cap = p % cap
        · have : q = p + cap := mod_inj_window (cap := cap) (H := nDeq tr) (by simp [hm])
            (by omega) (by omega) (by omega) (by omega)
          subst this
          rw [hm, upd_self]
        · rw [upd_ne _ _ hm]; exact h2
      · intro q _ h0 h1 h2
        rw [ed] at h0
        rw [er]
        refine ⟨h1, ?_⟩
        have hslot : q % cap ≠ p % cap := fun hm => by
          have := mod_inj_window (cap := cap) (H := nDeq tr) (p := q) (q := p + cap) (by simp [hm])
            (by omega) (by omega) (by omega) (by omega)
          omega
        exact (upd_ne _ _ hslot).trans h2

theorem Inv.pres {tr evs : Trace V} {s s' : State w V} (hw : WellSized w cap) (hi : Inv m w cap tr s)
    (hs : StepR m w cap tr s s' evs) : Inv m w cap (tr ++ evs) s' := by
  cases hs with
  | invoke a op h =>
    have hpi := hi.pcs a
    rw [h] at hpi
    obtain ⟨h1, h2, h3, h4, h5, h6⟩ := hpi
    have hp : Pend (tr ++ [.invoke a op]) a op := by
      refine ⟨by simp, ?_, ?_, ?_, ?_, ?_, ?_⟩
      · intro op' hm
        rcases List.mem_append.1 hm with hm | hm
        · exact absurd ⟨_, hm⟩ h1
        · simpa using hm
      · exact fun hr => (Returned.append.1 hr).elim h2 (by simp [Returned])
      · rw [resOps_append, List.mem_append]; exact fun h => h.elim h3 (by simp [resOps])
      · rw [deqOps_append, List.mem_append]; exact fun h => h.elim h4 (by simp [deqOps])
      · exact fun hr => (Committed.append.1 hr).elim h5 (by simp [Committed])
      · exact fun hr => (Released.append.1 hr).elim h6 (by simp [Released])
    refine hi.quiet (a := a) (by simp [Event.actor]) rfl rfl rfl h3 h4 ?_
    cases op <;> exact hp
  | silent a pc' op hp hn' h =>
    refine hi.quiet (a := a) (by simp) rfl rfl rfl hp.nres hp.ndeq ?_
    rw [List.append_nil]
    cases pc' <;> first | exact h | exact hn'.elim
  | retn a r op hp hr =>
    refine hi.quiet (a := a) (by simp [Event.actor]) rfl rfl rfl hp.nres hp.ndeq ?_
    refine ⟨⟨_, List.mem_append_left _ hp.inv⟩, ⟨r, by simp⟩, ?_, ?_⟩
    · rw [resOps_append, List.mem_append]
      exact fun h => absurd h (fun h => h.elim hp.nres (by simp [resOps]))
    · rw [deqOps_append, List.mem_append]
      exact fun h => absurd h (fun h => h.elim hp.ndeq (by simp [deqOps]))
  | reserve a hp hc hlt hst => exact hi.reserve hw hp hc hlt hst
  | dequeue a hp hlt hst => exact hi.dequeue hw hp hlt hst
  | elem a p v acc hpc ho hnr hl hacc =>
    have hn : ¬ Committed [Event.access a (p % cap) acc, .ret a .pushed] a := by simp [Committed]
    have hn' : ¬ Released [Event.access a (p % cap) acc, .ret a .pushed] a := by simp [Released]
    refine hi.pushLike hw (a := a) (p := p) (by simp [Event.actor]) rfl rfl rfl hn ho
      (.inl hpc) ?_ rfl rfl rfl ?_ ?_ ?_ ?_
    · rw [goto_pc_self]; exact .inr (.inl rfl)
    · intro i hne; exact upd_ne _ _ hne
    · intro i v' hv'
      show ∃ x, upd s.val (p % cap) (some v) i = some x
      rw [upd_apply]
      split
      · exact ⟨_, rfl⟩
      · exact ⟨_, hv'⟩
    · intro b hne; exact goto_pc_ne _ _ hne
    · rw [goto_pc_self]
      refine ⟨p, ⟨?_, ?_, List.mem_append_left _ ho.inv, ?_, ?_, ?_⟩, Returned.append.2 (.inr ?_), rfl,
        rfl, v, upd_self ..⟩
      · rw [resOps_append]; exact getElem?_append_of_some ho.res
      · have := ho.nd; simpa [nDeq, deqOps] using this
      · rw [deqOps_append, List.mem_append]; exact fun h => h.elim ho.ndeq (by simp [deqOps])
      · exact fun h => (Committed.append.1 h).elim ho.ncom hn
      · exact fun h => (Released.append.1 h).elim ho.nrel hn'
      · exact ⟨_, List.mem_cons_of_mem _ (List.mem_singleton.2 rfl)⟩
  | elemPanic0 a p hpc ho hnr hg =>
    have hn : ¬ Committed [Event.ret (V := V) a .panicked] a := by simp [Committed]
    have hn' : ¬ Released [Event.ret (V := V) a .panicked] a := by simp [Released]
    refine hi.pushLike hw (a := a) (p := p) (by simp [Event.actor]) rfl rfl rfl hn ho
      (.inl hpc) ?_ rfl rfl rfl ?_ ?_ ?_ ?_
    · rw [goto_pc_self]; exact .inr (.inr rfl)
    · intro i hne; rfl
    · intro i v' hv'; exact ⟨_, hv'⟩
    · intro b hne; exact goto_pc_ne _ _ hne
    · rw [goto_pc_self]
      refine ⟨p, ⟨?_, ?_, List.mem_append_left _ ho.inv, ?_, ?_, ?_⟩, Returned.append.2 (.inr ?_), rfl⟩
      · rw [resOps_append]; exact getElem?_append_of_some ho.res
      · have := ho.nd; simpa [nDeq, deqOps] using this
      · rw [deqOps_append, List.mem_append]; exact fun h => h.elim ho.ndeq (by simp [deqOps])
      · exact fun h => (Committed.append.1 h).elim ho.ncom hn
      · exact fun h => (Released.append.1 h).elim ho.nrel hn'
      · exact ⟨_, List.mem_singleton.2 rfl⟩
  | elemPanic1 a p v hpc ho hnr hg hl =>
    generalize hevs : [Event.access a (p % cap) (.recyclePanic (s.val (p % cap))), .ret a .panicked]
      = evs
    have hn : ¬ Committed evs a := by subst hevs; simp [Committed]
    have hn' : ¬ Released evs a := by subst hevs; simp [Released]
    refine hi.pushLike hw (a := a) (p := p) (by subst hevs; simp [Event.actor])
      (by subst hevs; rfl) (by subst hevs; rfl) (by subst hevs; rfl) hn ho
      (.inl hpc) ?_ rfl rfl rfl ?_ ?_ ?_ ?_
    · rw [goto_pc_self]; exact .inr (.inr rfl)
    · intro i hne; exact upd_ne _ _ hne
    · intro i v' hv'
      show ∃ x, upd s.val (p % cap) (some v) i = some x
      rw [upd_apply]
      split
      · exact ⟨_, rfl⟩
      · exact ⟨_, hv'⟩
    · intro b hne; exact goto_pc_ne _ _ hne
    · rw [goto_pc_self]
      refine ⟨p, ⟨?_, ?_, List.mem_append_left _ ho.inv, ?_, ?_, ?_⟩, Returned.append.2 (.inr ?_), rfl⟩
      · rw [resOps_append]; exact getElem?_append_of_some ho.res
      · have := ho.nd; subst hevs; simpa [nDeq, deqOps] using this
      · rw [deqOps_append, List.mem_append]
        exact fun h => h.elim ho.ndeq (by subst hevs; simp [deqOps])
      · exact fun h => (Committed.append.1 h).elim ho.ncom hn
      · exact fun h => (Released.append.1 h).elim ho.nrel hn'
      · subst hevs; exact ⟨_, List.mem_cons_of_mem _ (List.mem_singleton.2 rfl)⟩
  | read a i ns hpc =>
    have hpi := hi.pcs a
    rcases hpc with hpc | hpc
    · rw [hpc] at hpi
      obtain ⟨p, ho, hr, rfl, rfl, hv⟩ := hpi
      have hn : ¬ Committed [Event.access a (p % cap) (.read (s.val (p % cap)))] a := by
        simp [Committed]
      refine hi.pushLike hw (a := a) (p := p) (by simp [Event.actor]) rfl rfl rfl hn ho
        (.inr (.inl hpc)) (.inr (.inl hpc)) rfl rfl rfl (fun _ _ => rfl) (fun _ v h => ⟨v, h⟩)
        (fun _ _ => rfl) ?_
      rw [hpc]
      refine ⟨p, ⟨?_, ?_, List.mem_append_left _ ho.inv, ?_, ?_, ?_⟩, Returned.append.2 (.inl hr), rfl,
        rfl, hv⟩
      · rw [resOps_append]; exact getElem?_append_of_some ho.res
      · have := ho.nd; simpa [nDeq, deqOps] using this
      · rw [deqOps_append, List.mem_append]; exact fun h => h.elim ho.ndeq (by simp [deqOps])
      · exact fun h => (Committed.append.1 h).elim ho.ncom hn
      · exact fun h => (Released.append.1 h).elim ho.nrel (by simp [Released])
    · rw [hpc] at hpi
      obtain ⟨p, ho, rfl, rfl, hv⟩ := hpi
      refine hi.popLike (a := a) (p := p) (by simp [Event.actor]) rfl rfl rfl ho
        rfl rfl rfl (fun _ _ => rfl) (fun _ v h => ⟨v, h⟩) rfl ?_
      rw [hpc]
      refine ⟨p, ⟨?_, ?_, List.mem_append_left _ ho.inv, Returned.append.2 (.inl ho.ret), ?_, ?_, ?_⟩,
        rfl, rfl, hv⟩
      · rw [deqOps_append]; exact getElem?_append_of_some ho.deq
      · have := ho.nr; simpa [nRes, resOps] using this
      · rw [resOps_append, List.mem_append]; exact fun h => h.elim ho.nres (by simp [resOps])
      · exact fun h => (Committed.append.1 h).elim ho.ncom (by simp [Committed])
      · exact fun h => (Released.append.1 h).elim ho.nrel (by simp [Released])
  | write a i ns v hpc =>
    have hpi := hi.pcs a
    have hvm : ∀ j x, s.val j = some x → ∃ x', upd s.val i (some v) j = some x' := by
      intro j x hx
      rw [upd_apply]
      split
      · exact ⟨_, rfl⟩
      · exact ⟨_, hx⟩
    rcases hpc with hpc | hpc
    · rw [hpc] at hpi
      obtain ⟨p, ho, hr, rfl, rfl, hv⟩ := hpi
      have hn : ¬ Committed [Event.access a (p % cap) (.write v)] a := by
        simp [Committed]
      refine hi.pushLike hw (a := a) (p := p) (by simp [Event.actor]) rfl rfl rfl hn ho
        (.inr (.inl hpc)) (.inr (.inl hpc)) rfl rfl rfl (fun _ h => upd_ne _ _ h) hvm
        (fun _ _ => rfl) ?_
      show pcInv m w cap _ _ a (s.pc a)
      rw [hpc]
      refine ⟨p, ⟨?_, ?_, List.mem_append_left _ ho.inv, ?_, ?_, ?_⟩, Returned.append.2 (.inl hr), rfl,
        rfl, v, upd_self ..⟩
      · rw [resOps_append]; exact getElem?_append_of_some ho.res
      · have := ho.nd; simpa [nDeq, deqOps] using this
      · rw [deqOps_append, List.mem_append]; exact fun h => h.elim ho.ndeq (by simp [deqOps])
      · exact fun h => (Committed.append.1 h).elim ho.ncom hn
      · exact fun h => (Released.append.1 h).elim ho.nrel (by simp [Released])
    · rw [hpc] at hpi
      obtain ⟨p, ho, rfl, rfl, hv⟩ := hpi
      refine hi.popLike (a := a) (p := p) (by simp [Event.actor]) rfl rfl rfl ho
        rfl rfl rfl (fun _ h => upd_ne _ _ h) hvm rfl ?_
      show pcInv m w cap _ _ a (s.pc a)
      rw [hpc]
      refine ⟨p, ⟨?_, ?_, List.mem_append_left _ ho.inv, Returned.append.2 (.inl ho.ret), ?_, ?_, ?_⟩,
        rfl, rfl, v, upd_self ..⟩
      · rw [deqOps_append]; exact getElem?_append_of_some ho.deq
      · have := ho.nr; simpa [nRes, resOps] using this
      · rw [resOps_append, List.mem_append]; exact fun h => h.elim ho.nres (by simp [resOps])
      · exact fun h => (Committed.append.1 h).elim ho.ncom (by simp [Committed])
      · exact fun h => (Released.append.1 h).elim ho.nrel (by simp [Released])
  | commit a p hpc ho => exact hi.commit hw hpc ho
  | release a p hpc ho => exact hi.release hpc ho
  | close a hp =>
    refine hi.quietT (a := a) (by simp [Event.actor]) rfl rfl (by simp [closedB]) hp.nres hp.ndeq ?_
    refine ⟨⟨_, List.mem_append_left _ hp.inv⟩,
      ⟨_, List.mem_append_right _ (List.mem_cons_of_mem _ (List.mem_singleton.2 rfl))⟩, ?_, ?_⟩
    · rw [resOps_append, List.mem_append]
      exact fun h => absurd h (fun h => h.elim hp.nres (by simp [resOps]))
    · rw [deqOps_append, List.mem_append]
      exact fun h => absurd h (fun h => h.elim hp.ndeq (by simp [deqOps]))

theorem Exec.inv {tr : Trace V} {s : State w V} (hw : WellSized w cap) (he : Exec w cap tr s)
    (hn : NoStall w cap tr) : Inv True w cap tr s := by
  induction he with
  | init => exact Inv.init hw
  | step he hs ih =>
    have hn' := NoStall.mono hn
    exact (ih hn').pres hw (step_sound hw (ih hn') hn'.fresh hs)

end Thingbuf
