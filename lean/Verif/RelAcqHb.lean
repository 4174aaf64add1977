import Verif.RelAcqSpec
import Verif.TraceLemmas
/-
What "happens before" means in the release/acquire machine: a strict partial order that contains the
order of the events of each operation.  This holds for all memory orderings.
-/
namespace Thingbuf.RA

variable {w cap : Nat} {V : Type} {o : Orders}

/-- A set of events, closed under "happens before". -/
def Good (tr : List (REv V)) (L : List Nat) : Prop :=
  ∀ p ∈ L, p < tr.length ∧ ∀ e, tr[p]? = some e → ∀ r ∈ e.2, r ∈ L

structure HbInv (tr : List (REv V)) (s : RState w V) : Prop where
  now : s.now = tr.length
  view : ∀ a, Good tr (s.view a).hb
  msg : ∀ l m, m ∈ s.mem l → Good tr m.view.hb
  ord : ∀ (q : Nat) e, tr[q]? = some e → ∀ p ∈ e.2, p < q ∧ ∀ e', tr[p]? = some e' → ∀ r ∈ e'.2, r ∈ e.2
  po : ∀ (q : Nat) e, tr[q]? = some e → q ∈ (s.view (e.1.op)).hb
  own : ∀ (p q : Nat) e e', p < q → tr[p]? = some e → tr[q]? = some e' → e.1.op = e'.1.op → p ∈ e'.2

theorem Good.nil (tr : List (REv V)) : Good tr [] := by intro p hp; simp at hp

theorem Good.union {tr : List (REv V)} {L K : List Nat} (h1 : Good tr L) (h2 : Good tr K) :
    Good tr (L ++ K) := by
  intro p hp
  rcases List.mem_append.1 hp with h | h
  · exact ⟨(h1 p h).1, fun e he r hr => List.mem_append_left _ ((h1 p h).2 e he r hr)⟩
  · exact ⟨(h2 p h).1, fun e he r hr => List.mem_append_right _ ((h2 p h).2 e he r hr)⟩

theorem Good.mono {tr t : List (REv V)} {L : List Nat} (h : Good tr L) : Good (tr ++ t) L := by
  intro p hp
  obtain ⟨h1, h2⟩ := h p hp
  refine ⟨by rw [List.length_append]; omega, fun e he => ?_⟩
  rw [List.getElem?_append_left h1] at he
  exact h2 e he

/-- The positions after `n` events have been stamped. -/
theorem stamp_at {hb : List Nat} {n k : Nat} {evs : List (XEv V)} {e : REv V}
    (h : (stamp hb n evs)[k]? = some e) : ∀ r, r ∈ e.2 ↔ r ∈ hb ∨ (n ≤ r ∧ r < n + k) := by
  induction evs generalizing hb n k with
  | nil => simp [stamp] at h
  | cons x evs ih =>
    cases k with
    | zero =>
      simp only [stamp, List.getElem?_cons_zero, Option.some.injEq] at h
      subst h
      intro r
      constructor
      · exact .inl
      · rintro (h | h)
        · exact h
        · omega
    | succ k =>
      simp only [stamp, List.getElem?_cons_succ] at h
      intro r
      rw [ih h, List.mem_cons]
      constructor
      · rintro ((h | h) | h)
        · exact .inr (by omega)
        · exact .inl h
        · exact .inr (by omega)
      · rintro (h | h)
        · exact .inl (.inr h)
        · rcases Nat.eq_or_lt_of_le h.1 with h' | h'
          · exact .inl (.inl h'.symm)
          · exact .inr (by omega)

theorem stamp_len (hb : List Nat) (n : Nat) (evs : List (XEv V)) :
    (stamp hb n evs).length = evs.length := by
  induction evs generalizing hb n with
  | nil => rfl
  | cons e evs ih => simp [stamp, ih]

theorem stamp_ev {hb : List Nat} {n k : Nat} {evs : List (XEv V)} {e : REv V}
    (h : (stamp hb n evs)[k]? = some e) : evs[k]? = some e.1 := by
  induction evs generalizing hb n k with
  | nil => simp [stamp] at h
  | cons x evs ih =>
    cases k with
    | zero =>
      simp only [stamp, List.getElem?_cons_zero, Option.some.injEq] at h
      subst h; rfl
    | succ k =>
      simp only [stamp, List.getElem?_cons_succ] at h
      exact ih h

theorem HbInv.load {tr : List (REv V)} {s : RState w V} (h : HbInv tr s) {a : OpId} {l : Loc} {m : Msg w}
    (hm : m ∈ s.mem l) (acq : Bool) : HbInv tr (s.load a l m acq) := by
  have hsub : ∀ b n, n ∈ (s.view b).hb → n ∈ ((s.load a l m acq).view b).hb := by
    intro b n hn
    show n ∈ (upd s.view a _ b).hb
    by_cases hb : b = a
    · subst hb
      rw [upd_self]
      split
      · exact List.mem_append_left _ hn
      · exact hn
    · rwa [upd_ne _ _ hb]
  refine ⟨h.now, fun b => ?_, h.msg, h.ord, fun q e he => hsub _ _ (h.po q e he), h.own⟩
  show Good tr (upd s.view a _ b).hb
  by_cases hb : b = a
  · subst hb
    rw [upd_self]
    split
    · exact (h.view b).union (h.msg l m hm)
    · exact h.view b
  · rw [upd_ne _ _ hb]; exact h.view b

theorem HbInv.put {tr : List (REv V)} {s : RState w V} (h : HbInv tr s) {a : OpId} {l : Loc} {f t : Nat}
    {v : BitVec w} {rel : Bool} {base : View} (hb : Good tr base.hb) :
    HbInv tr (s.put a l f t v rel base) := by
  have hv : ∀ b, ((s.put a l f t v rel base).view b).hb = (s.view b).hb := by
    intro b
    show (upd s.view a _ b).hb = _
    by_cases hb : b = a
    · subst hb; rw [upd_self]; rfl
    · rw [upd_ne _ _ hb]
  refine ⟨h.now, fun b => by rw [hv]; exact h.view b, ?_, h.ord,
    fun q e he => by rw [hv]; exact h.po q e he, h.own⟩
  intro k m hm
  have hm : m ∈ (if k = l then s.mem k ++ [_] else s.mem k) := hm
  split at hm
  · rcases List.mem_append.1 hm with hm | hm
    · exact h.msg k m hm
    · rw [List.mem_singleton.1 hm]
      refine Good.union ?_ hb
      split
      · exact h.view a
      · exact Good.nil _
  · exact h.msg k m hm

/-- Operation `a` has the events `evs`. -/
theorem HbInv.stamp {tr : List (REv V)} {s s' : RState w V} (h : HbInv tr s) {a : OpId}
    {evs : List (XEv V)} (ho : ∀ e ∈ evs, e.op = a) (hmem : s'.mem = s.mem)
    (hnow : s'.now = s.now + evs.length)
    (hview : s'.view = upd s.view a ⟨(s.view a).ts, (List.range' s.now evs.length) ++ (s.view a).hb⟩) :
    HbInv (tr ++ RA.stamp (s.view a).hb s.now evs) s' := by
  have hlen : (RA.stamp (s.view a).hb s.now evs).length = evs.length := stamp_len ..
  have hva : ∀ n, n ∈ (s'.view a).hb ↔
      n ∈ (s.view a).hb ∨ (tr.length ≤ n ∧ n < tr.length + evs.length) := by
    intro n
    rw [hview, upd_self]
    show n ∈ List.range' s.now evs.length ++ (s.view a).hb ↔ _
    rw [List.mem_append, h.now]
    constructor
    · rintro (h | h)
      · exact .inr (List.mem_range'_1.1 h)
      · exact .inl h
    · rintro (h | h)
      · exact .inr h
      · exact .inl (List.mem_range'_1.2 h)
  have hvb : ∀ b, b ≠ a → s'.view b = s.view b := fun b hb => by
    rw [hview]; exact upd_ne _ _ hb
  -- the new events
  have hnew : ∀ (q : Nat) e, (tr ++ RA.stamp (s.view a).hb s.now evs)[q]? = some e → tr.length ≤ q →
      e.1.op = a ∧ q < tr.length + evs.length ∧
      ∀ r, r ∈ e.2 ↔ r ∈ (s.view a).hb ∨ (tr.length ≤ r ∧ r < q) := by
    intro q e he hq
    rw [List.getElem?_append_right hq] at he
    have h1 := lt_of_getElem?_some he
    rw [hlen] at h1
    refine ⟨ho _ (List.mem_of_getElem? (stamp_ev he)), by omega, fun r => ?_⟩
    rw [stamp_at he, h.now]
    constructor
    · rintro (h | h)
      · exact .inl h
      · exact .inr (by omega)
    · rintro (h | h)
      · exact .inl h
      · exact .inr (by omega)
  refine ⟨?_, ?_, fun l m hm => (h.msg l m (hmem ▸ hm)).mono, ?_, ?_, ?_⟩
  · rw [hnow, List.length_append, hlen, h.now]
  · intro b
    by_cases hb : b = a
    · subst hb
      intro p hp
      rcases (hva p).1 hp with hp | ⟨hp1, hp2⟩
      · obtain ⟨h1, h2⟩ := (h.view b).mono (t := RA.stamp (s.view b).hb s.now evs) p hp
        exact ⟨h1, fun e he r hr => (hva r).2 (.inl (h2 e he r hr))⟩
      · refine ⟨by rw [List.length_append, hlen]; omega, fun e he r hr => (hva r).2 ?_⟩
        rcases ((hnew p e he hp1).2.2 r).1 hr with h | h
        · exact .inl h
        · exact .inr (by omega)
    · rw [hvb b hb]; exact (h.view b).mono
  · intro q e he p hp
    by_cases hq : q < tr.length
    · rw [List.getElem?_append_left hq] at he
      obtain ⟨h1, h2⟩ := h.ord q e he p hp
      refine ⟨h1, fun e' he' => ?_⟩
      rw [List.getElem?_append_left (by omega)] at he'
      exact h2 e' he'
    · have hk := (hnew q e he (by omega)).2.2
      rcases (hk p).1 hp with hp | hp
      · obtain ⟨h1, h2⟩ := h.view a p hp
        refine ⟨by omega, fun e' he' r hr => (hk r).2 ?_⟩
        rw [List.getElem?_append_left h1] at he'
        exact .inl (h2 e' he' r hr)
      · refine ⟨by omega, fun e' he' r hr => (hk r).2 ?_⟩
        rcases ((hnew p e' he' hp.1).2.2 r).1 hr with h | h
        · exact .inl h
        · exact .inr (by omega)
  · intro q e he
    by_cases hq : q < tr.length
    · rw [List.getElem?_append_left hq] at he
      have := h.po q e he
      by_cases hb : e.1.op = a
      · rw [hb] at this ⊢
        exact (hva q).2 (.inl this)
      · rw [hvb _ hb]; exact this
    · obtain ⟨h1, h2, -⟩ := hnew q e he (by omega)
      rw [h1]
      exact (hva q).2 (.inr (by omega))
  · intro p q e e' hpq hp hq heq
    by_cases hql : q < tr.length
    · rw [List.getElem?_append_left hql] at hq
      rw [List.getElem?_append_left (by omega)] at hp
      exact h.own p q e e' hpq hp hq heq
    · obtain ⟨h1, h2, h3⟩ := hnew q e' hq (by omega)
      refine (h3 p).2 ?_
      by_cases hpl : p < tr.length
      · rw [List.getElem?_append_left hpl] at hp
        left
        have := h.po p e hp
        rwa [heq, h1] at this
      · exact .inr (by omega)

theorem HbInv.emit {tr : List (REv V)} {s : RState w V} (h : HbInv tr s) {a : OpId} {pc : PC w}
    {evs : List (Event V)} (ho : ∀ e ∈ evs, opOf e = a) :
    HbInv (tr ++ (s.emit a pc evs).2) (s.emit a pc evs).1 := by
  refine h.stamp (evs := evs.map .core) ?_ rfl ?_ ?_
  · intro e he
    obtain ⟨x, hx, rfl⟩ := List.mem_map.1 he
    exact ho x hx
  · rw [List.length_map]; rfl
  · rw [List.length_map]; rfl

/-! ### The events of a step belong to the operation that takes it -/

theorem runStep_op {c : Params w} {s : State w V} {a : OpId} {k : State w V × List (Event V)}
    (h : runStep c cap s a = some k) : ∀ e ∈ k.2, opOf e = a := by
  unfold runStep at h
  split at h
  case h_2 => 
    obtain rfl := Option.some.inj h
    unfold pushLoop
    repeat' (first | split | simp [opOf])
  case h_3 =>
    obtain rfl := Option.some.inj h
    unfold pushCas
    repeat' (first | split | simp [opOf])
  case h_4 =>
    obtain rfl := Option.some.inj h
    unfold pushHead
    repeat' (first | split | simp [opOf])
  case h_7 =>
    obtain rfl := Option.some.inj h
    unfold popLoop
    repeat' (first | split | simp [opOf])
  case h_8 =>
    obtain rfl := Option.some.inj h
    unfold popCas
    repeat' (first | split | simp [opOf])
  case h_9 =>
    obtain rfl := Option.some.inj h
    unfold popTail
    repeat' (first | split | simp [opOf])
  case h_13 =>
    split at h
    · obtain rfl := Option.some.inj h
      simp [opOf]
    · obtain rfl := Option.some.inj h
      simp
  case h_14 =>
    obtain rfl := Option.some.inj h
    unfold closeStep
    repeat' (first | split | simp [opOf])
  case h_15 => cases h
  all_goals
    obtain rfl := Option.some.inj h
    simp

/-- The operation that takes a step. -/
def actOp : Act V → OpId
  | .invoke a _ | .run a | .spurious a | .elem a _ | .elemPanic a _ | .read a | .write a _ | .dropRef a => a

theorem step_op {s : State w V} {act : Act V} {k : State w V × List (Event V)}
    (h : step cap s act = some k) : ∀ e ∈ k.2, opOf e = actOp act := by
  cases act with
  | invoke a op =>
    simp only [step] at h
    split at h
    · obtain rfl := Option.some.inj h
      simp [opOf, actOp]
    · cases h
  | run a => exact runStep_op h
  | spurious a =>
    simp only [step] at h
    split at h
    · obtain rfl := Option.some.inj h
      unfold pushCas
      repeat' (first | split | simp [opOf, actOp])
    · obtain rfl := Option.some.inj h
      unfold popCas
      repeat' (first | split | simp [opOf, actOp])
    · cases h
  | elem a v =>
    simp only [step] at h
    split at h
    · obtain rfl := Option.some.inj h
      unfold pushElem
      simp only
      split <;> simp [opOf, actOp]
    · cases h
  | elemPanic a v =>
    simp only [step] at h
    split at h
    · obtain rfl := Option.some.inj h
      unfold pushElemPanic
      simp only
      split <;> simp [opOf, actOp]
    · cases h
  | read a =>
    simp only [step] at h
    split at h
    · obtain rfl := Option.some.inj h; simp [opOf, actOp]
    · obtain rfl := Option.some.inj h; simp [opOf, actOp]
    · cases h
  | write a v =>
    simp only [step] at h
    split at h
    · obtain rfl := Option.some.inj h; simp [opOf, actOp]
    · obtain rfl := Option.some.inj h; simp [opOf, actOp]
    · cases h
  | dropRef a =>
    simp only [step] at h
    split at h
    · obtain rfl := Option.some.inj h; simp [opOf, actOp]
    · obtain rfl := Option.some.inj h; simp [opOf, actOp]
    · cases h

/-! ### The steps of the machine -/

theorem readMsg_mem {s : RState w V} {a : OpId} {l : Loc} {t : Nat} {m : Msg w}
    (h : s.readMsg a l t = some m) : m ∈ s.mem l := by
  unfold RState.readMsg at h
  split at h
  · exact List.mem_of_find?_eq_some h
  · cases h

theorem HbInv.doLoad {tr : List (REv V)} {s : RState w V} (h : HbInv tr s) {a : OpId} {l : Loc} {m : Msg w}
    {od : MOrd} {k : State w V × List (Event V)} (hm : m ∈ s.mem l) (ho : ∀ e ∈ k.2, opOf e = a) :
    HbInv (tr ++ (s.doLoad a l m od k).2) (s.doLoad a l m od k).1 :=
  (h.load hm _).emit ho

theorem HbInv.doRmw {tr : List (REv V)} {s : RState w V} (h : HbInv tr s) {a : OpId} {l : Loc} {m : Msg w}
    {od : MOrd} {wr : Nat} {k : State w V × List (Event V)} (hm : m ∈ s.mem l)
    (ho : ∀ e ∈ k.2, opOf e = a) :
    HbInv (tr ++ (s.doRmw a l m od wr k).2) (s.doRmw a l m od wr k).1 :=
  ((h.load hm _).emit ho).put (h.msg l m hm).mono

theorem HbInv.pres {tr evs : List (REv V)} {s s' : RState w V} {act : RAct V} (h : HbInv tr s)
    (hs : rstep o cap s act = some (s', evs)) : HbInv (tr ++ evs) s' := by
  cases act with
  | invoke a op =>
    simp only [rstep] at hs
    obtain ⟨k, hk, he⟩ := Option.map_eq_some_iff.1 hs
    obtain ⟨rfl, rfl⟩ := Prod.mk.inj he
    have h2 : HbInv tr { s with oldest := upd s.oldest a s.res } :=
      ⟨h.now, h.view, h.msg, h.ord, h.po, h.own⟩
    exact h2.emit (step_op hk)
  | run a rd wr =>
    simp only [rstep, RState.run] at hs
    split at hs
    · obtain ⟨k, hk, he⟩ := Option.map_eq_some_iff.1 hs
      obtain ⟨rfl, rfl⟩ := Prod.mk.inj he
      exact h.emit (runStep_op hk)
    · split at hs
      · cases hs
      · rename_i m hm
        obtain ⟨k, hk, he⟩ := Option.map_eq_some_iff.1 hs
        have := h.doLoad (od := ‹MOrd›) (readMsg_mem hm) (runStep_op hk)
        rw [he] at this
        exact this
    · split at hs
      · cases hs
      · rename_i m hm
        split at hs
        · obtain ⟨k, hk, he⟩ := Option.map_eq_some_iff.1 hs
          have := h.doRmw (od := ‹MOrd›) (wr := wr) (readMsg_mem hm) (runStep_op hk)
          rw [he] at this
          exact this
        · cases hs
    · rename_i l e ok fail hacc
      split at hs
      · cases hs
      · rename_i m hm
        split at hs
        · split at hs
          · obtain ⟨k, hk, he⟩ := Option.map_eq_some_iff.1 hs
            have := h.doRmw (od := ok) (wr := wr) (readMsg_mem hm) (runStep_op hk)
            rw [he] at this
            exact this
          · cases hs
        · obtain ⟨k, hk, he⟩ := Option.map_eq_some_iff.1 hs
          have := h.doLoad (od := fail) (readMsg_mem hm) (runStep_op hk)
          rw [he] at this
          exact this
  | spurious a rd =>
    simp only [rstep] at hs
    split at hs
    · rename_i l e ok fail hacc
      split at hs
      · cases hs
      · rename_i m hm
        obtain ⟨k, hk, he⟩ := Option.map_eq_some_iff.1 hs
        have := h.doLoad (od := fail) (readMsg_mem hm) (step_op hk)
        rw [show actOp (Act.spurious a : Act V) = a from rfl, he] at this
        exact this
    · cases hs
  | elem a v n =>
    simp only [rstep] at hs
    split at hs
    · cases hs
    · split at hs
      · cases hs
      · obtain ⟨k, hk, he⟩ := Option.map_eq_some_iff.1 hs
        obtain ⟨rfl, rfl⟩ := Prod.mk.inj he
        rename_i i _ _ _ _
        have h2 : HbInv tr (s.putVal i v) := ⟨h.now, h.view, h.msg, h.ord, h.po, h.own⟩
        exact h2.emit (step_op hk)
  | elemPanic a v n =>
    simp only [rstep] at hs
    split at hs
    · cases hs
    · split at hs
      · cases hs
      · obtain ⟨k, hk, he⟩ := Option.map_eq_some_iff.1 hs
        obtain ⟨rfl, rfl⟩ := Prod.mk.inj he
        split
        · exact h.emit (step_op hk)
        · rename_i i _ _ _ _ _
          have h2 : HbInv tr (s.putVal i v) := ⟨h.now, h.view, h.msg, h.ord, h.po, h.own⟩
          exact h2.emit (step_op hk)
  | read a n =>
    simp only [rstep] at hs
    split at hs
    · cases hs
    · split at hs
      · cases hs
      · obtain ⟨k, hk, he⟩ := Option.map_eq_some_iff.1 hs
        obtain ⟨rfl, rfl⟩ := Prod.mk.inj he
        exact h.emit (step_op hk)
  | write a v =>
    simp only [rstep] at hs
    split at hs
    · cases hs
    · obtain ⟨k, hk, he⟩ := Option.map_eq_some_iff.1 hs
      obtain ⟨rfl, rfl⟩ := Prod.mk.inj he
      rename_i i _
      have h2 : HbInv tr (s.putVal i v) := ⟨h.now, h.view, h.msg, h.ord, h.po, h.own⟩
      exact h2.emit (step_op hk)
  | dropRef a wr =>
    simp only [rstep] at hs
    split at hs
    · cases hs
    · split at hs
      · obtain ⟨k, hk, he⟩ := Option.map_eq_some_iff.1 hs
        obtain ⟨rfl, rfl⟩ := Prod.mk.inj he
        exact (h.emit (step_op hk)).put (Good.nil _)
      · cases hs
  | sync a b =>
    simp only [rstep, Option.some.injEq] at hs
    obtain ⟨rfl, rfl⟩ := Prod.mk.inj hs
    rw [List.append_nil]
    have hv : ∀ c n, n ∈ (s.view c).hb → n ∈ (upd s.view b ((s.view b).join (s.view a)) c).hb := by
      intro c n hn
      by_cases hc : c = b
      · subst hc
        rw [upd_self]
        exact List.mem_append_left _ hn
      · rwa [upd_ne _ _ hc]
    refine ⟨h.now, fun c => ?_, h.msg, h.ord, fun q e he => hv _ _ (h.po q e he), h.own⟩
    show Good tr (upd s.view b ((s.view b).join (s.view a)) c).hb
    by_cases hc : c = b
    · subst hc
      rw [upd_self]
      exact (h.view c).union (h.view a)
    · rw [upd_ne _ _ hc]; exact h.view c

theorem RExec.hbInv {tr : List (REv V)} {s : RState w V} (h : RExec o w cap tr s) : HbInv tr s := by
  induction h with
  | init =>
    refine ⟨rfl, fun _ => Good.nil _, ?_, ?_, ?_, ?_⟩
    · intro l m hm
      rw [List.mem_singleton.1 hm]
      exact Good.nil _
    all_goals intro _ _; simp
  | step h1 h2 h3 ih => exact ih.pres h2

end Thingbuf.RA
