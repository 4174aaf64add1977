import Verif.RelAcqInv
/-
Preservation of the invariant of the release/acquire machine: the steps that do not move the queue.
-/
namespace Thingbuf.RA

variable {w cap : Nat} {V : Type}

theorem Base.pres {T evs : Trace V} {s s' : State w V} (hw : WellSized w cap) (h : Base w cap T s)
    (hs : StepR False w cap T s s' evs) : Base w cap (T ++ evs) s' where
  inv := h.inv.pres hw hs
  x := h.x.pres hw h.inv hs
  y := h.y.pres hs
  evs := h.evs.append (hs.evOk hw h.inv h.x h.y)
  val := hs.val_created h.inv h.val

/-- `s'` has more messages and larger views than `s`. -/
structure Ext (s s' : RState w V) : Prop where
  mem : ∀ l (k : Nat) m, (s.mem l)[k]? = some m → (s'.mem l)[k]? = some m
  view : ∀ b, (s.view b).le (s'.view b)

theorem Ext.trans {s s' s'' : RState w V} (h : Ext s s') (h' : Ext s' s'') : Ext s s'' :=
  ⟨fun l k m hm => h'.mem l k m (h.mem l k m hm), fun b => (h.view b).trans (h'.view b)⟩

theorem Ext.load (s : RState w V) (a : OpId) (l : Loc) (m : Msg w) (q : Bool) : Ext s (s.load a l m q) where
  mem := fun _ _ _ h => h
  view := by
    intro b
    simp only [RState.load]
    by_cases h : b = a
    · subst h
      rw [upd_self]
      split
      · exact (View.le_see _ _ _).trans (View.le_join_left _ _)
      · exact View.le_see ..
    · rw [upd_ne _ _ h]; exact View.le_refl _

theorem load_acq (s : RState w V) (a : OpId) (l : Loc) (m : Msg w) :
    m.view.le ((s.load a l m true).view a) := by
  simp only [RState.load, upd_self, if_true]
  exact View.le_join_right ..

theorem Ext.emit (s : RState w V) (a : OpId) (pc : PC w) (evs : List (Event V)) :
    Ext s (s.emit a pc evs).1 where
  mem := fun _ _ _ h => h
  view := by
    intro b
    simp only [RState.emit]
    by_cases h : b = a
    · subst h
      rw [upd_self]
      exact ⟨fun _ => Nat.le_refl _, fun _ hn => List.mem_append_right _ hn⟩
    · rw [upd_ne _ _ h]; exact View.le_refl _

/-- An operation knows its own events. -/
theorem emit_hb (s : RState w V) (a : OpId) (pc : PC w) (evs : List (Event V)) {n : Nat}
    (h1 : s.now ≤ n) (h2 : n < s.now + evs.length) : n ∈ ((s.emit a pc evs).1.view a).hb := by
  simp only [RState.emit, upd_self]
  exact List.mem_append_left _ (List.mem_range'_1.2 ⟨h1, h2⟩)

theorem Ext.put (s : RState w V) (a : OpId) (l : Loc) (f t : Nat) (v : BitVec w) (rel : Bool)
    (base : View) : Ext s (s.put a l f t v rel base) where
  mem := by
    intro k j m h
    by_cases hk : k = l
    · subst hk
      obtain ⟨x, hx, -⟩ := put_mem_self s a k f t v rel base
      rw [hx]
      exact getElem?_append_of_some h
    · rw [put_mem_ne _ _ _ _ _ _ _ hk]; exact h
  view := by
    intro b
    simp only [RState.put]
    by_cases h : b = a
    · subst h
      rw [upd_self]
      exact View.le_see ..
    · rw [upd_ne _ _ h]; exact View.le_refl _

theorem Ext.putVal (s : RState w V) (i : Nat) (v : V) : Ext s (s.putVal i v) :=
  ⟨fun _ _ _ h => h, fun _ => View.le_refl _⟩

theorem Has.ext {s s' : RState w V} (h : Ext s s') {a : OpId} {i k : Nat} (hh : Has s a i k) :
    Has s' a i k := by
  obtain ⟨m, h1, h2⟩ := hh
  exact ⟨m, h.mem _ _ _ h1, h2.trans (h.view a)⟩

theorem WordOk.ext {T T' : Trace V} {s s' : RState w V} {a : OpId} {pc : PC w} (h : Ext s s')
    (ho : s'.oldest a ≤ s.oldest a) (h1 : nRes T ≤ nRes T') (h2 : nDeq T ≤ nDeq T')
    (h3 : closedB T = true → closedB T' = true) (hk : WordOk w cap T s a pc) :
    WordOk w cap T' s' a pc := by
  cases pc <;> simp only [WordOk] at hk ⊢
  case pushLoop b t =>
    obtain ⟨q, c, r, hq, hol, hc⟩ := hk
    exact ⟨q, c, r, by omega, by omega, fun x => h3 (hc x)⟩
  case pushCas b t =>
    obtain ⟨q, r, hq, hol, hc⟩ := hk
    exact ⟨q, r, by omega, by omega, hc.ext h⟩
  case pushHead b t =>
    obtain ⟨q, r, hq, hol⟩ := hk
    exact ⟨q, r, by omega, by omega⟩
  case popLoop b t =>
    obtain ⟨q, r, hq, hol⟩ := hk
    exact ⟨q, r, by omega, by omega⟩
  case popCas b t =>
    obtain ⟨q, r, hq, hol, hc⟩ := hk
    exact ⟨q, r, by omega, by omega, hc.ext h⟩
  case popTail b t =>
    obtain ⟨q, r, hq, hol⟩ := hk
    exact ⟨q, r, by omega, by omega⟩
  all_goals exact hk

theorem Mem.mono {T T' : Trace V} {s s' : RState w V} (h : Mem w cap T s) (hm : ∀ l, s'.mem l = s.mem l)
    (h1 : nRes T ≤ nRes T') (h2 : nDeq T ≤ nDeq T') (h3 : closedB T = true → closedB T' = true) :
    Mem w cap T' s' where
  sorted := by intro l; rw [hm]; exact h.sorted l
  chain := by intro l; rw [hm]; exact h.chain l
  viewTs := by intro l; rw [hm]; exact h.viewTs l
  tail := by
    intro m; rw [hm]; intro hx
    obtain ⟨c, e1, e2, e3⟩ := h.tail m hx
    exact ⟨c, e1, by omega, fun x => h3 (e3 x)⟩
  head := by
    intro m; rw [hm]; intro hx
    obtain ⟨e1, e2, e3⟩ := h.head m hx
    exact ⟨e1, by omega, e3⟩
  even := by
    intro i hi j m; rw [hm]; intro hx
    obtain ⟨e1, e2, e3, e4⟩ := h.even i hi j m hx
    exact ⟨e1, e2, e3, by omega⟩
  odd := by
    intro i hi j m; rw [hm]; intro hx
    obtain ⟨e1, e2, e3, e4⟩ := h.odd i hi j m hx
    exact ⟨e1, e2, e3, by omega⟩

theorem Mem.ts_le_last {T : Trace V} {s : RState w V} (h : Mem w cap T s) {l : Loc} {m x : Msg w}
    (hl : (s.mem l).getLast? = some x) (hm : m ∈ s.mem l) : m.ts ≤ x.ts := by
  obtain ⟨k, hk⟩ := getElem?_of_mem' hm
  have hlt := lt_of_getElem?_some hk
  rw [List.getLast?_eq_getElem?] at hl
  by_cases he : k = (s.mem l).length - 1
  · subst he
    rw [hk] at hl
    cases hl
    exact Nat.le_refl _
  · exact Nat.le_of_lt (h.sorted l k _ _ _ (by omega) hk hl)

/-- A message is written after all the others. -/
theorem Mem.snoc {T : Trace V} {s s' : RState w V} (h : Mem w cap T s) {l : Loc} {x y : Msg w}
    (hself : s'.mem l = s.mem l ++ [x]) (hne : ∀ k, k ≠ l → s'.mem k = s.mem k)
    (hlast : (s.mem l).getLast? = some y) (hts : y.ts < x.ts)
    (hfrm : l = .head ∨ l = .tail → x.frm = y.ts) (hview : x.ts ≤ x.view.ts l)
    (htail : l = .tail → ∃ c, x.val = tailWord w cap x.born c ∧ x.born ≤ nRes T ∧
      (c = true → closedB T = true))
    (hhead : l = .head → x.val = enc w cap x.deqs ∧ x.deqs ≤ nDeq T ∧ x.born ≤ x.deqs + cap)
    (heven : ∀ i j, l = .slot i → i < cap → (s.mem l).length = 2 * j →
      x.val = enc w cap (i + j * cap) ∧ x.born ≤ i + j * cap ∧ i + j * cap ≤ x.born + cap ∧ x.born ≤ nRes T)
    (hodd : ∀ i j, l = .slot i → i < cap → (s.mem l).length = 2 * j + 1 →
      x.val = enc w cap (i + j * cap) + 1#w ∧ i + j * cap < x.born ∧ x.born ≤ i + j * cap + cap ∧
      x.born ≤ nRes T) :
    Mem w cap T s' where
  sorted := by
    intro k
    by_cases hk : k = l
    · subst hk
      rw [hself]
      intro a b m m' hab hm hm'
      rcases snoc_some hm' with h1 | ⟨h1, rfl⟩
      · rcases snoc_some hm with h2 | ⟨h2, rfl⟩
        · exact h.sorted _ _ _ _ _ hab h2 h1
        · have := lt_of_getElem?_some h1; omega
      · rcases snoc_some hm with h2 | ⟨h2, rfl⟩
        · have := h.ts_le_last hlast (List.mem_of_getElem? h2); omega
        · omega
    · rw [hne k hk]; exact h.sorted k
  chain := by
    intro k hkk
    by_cases hk : k = l
    · subst hk
      rw [hself]
      intro a m m' hm hm'
      rcases snoc_some hm with h2 | ⟨h2, rfl⟩
      · rcases snoc_some hm' with h1 | ⟨h1, rfl⟩
        · exact h.chain _ hkk _ _ _ h2 h1
        · rw [hfrm hkk]
          rw [List.getLast?_eq_getElem?, ← h1, Nat.add_sub_cancel, h2] at hlast
          cases hlast
          rfl
      · have := lt_of_getElem?_some hm'
        simp at this
        omega
    · rw [hne k hk]; exact h.chain k hkk
  viewTs := by
    intro k m
    by_cases hk : k = l
    · subst hk
      rw [hself]
      intro hm
      rcases List.mem_append.1 hm with hm | hm
      · exact h.viewTs _ _ hm
      · rw [List.mem_singleton.1 hm]; exact hview
    · rw [hne k hk]; exact h.viewTs k m
  tail := by
    intro m
    by_cases hk : Loc.tail = l
    · subst hk
      rw [hself]
      intro hm
      rcases List.mem_append.1 hm with hm | hm
      · exact h.tail _ hm
      · rw [List.mem_singleton.1 hm]; exact htail rfl
    · rw [hne _ hk]; exact h.tail m
  head := by
    intro m
    by_cases hk : Loc.head = l
    · subst hk
      rw [hself]
      intro hm
      rcases List.mem_append.1 hm with hm | hm
      · exact h.head _ hm
      · rw [List.mem_singleton.1 hm]; exact hhead rfl
    · rw [hne _ hk]; exact h.head m
  even := by
    intro i hi j m
    by_cases hk : Loc.slot i = l
    · subst hk
      rw [hself]
      intro hm
      rcases snoc_some hm with h1 | ⟨h1, rfl⟩
      · exact h.even i hi j m h1
      · exact heven i j rfl hi h1.symm
    · rw [hne _ hk]; exact h.even i hi j m
  odd := by
    intro i hi j m
    by_cases hk : Loc.slot i = l
    · subst hk
      rw [hself]
      intro hm
      rcases snoc_some hm with h1 | ⟨h1, rfl⟩
      · exact h.odd i hi j m h1
      · exact hodd i j rfl hi h1.symm
    · rw [hne _ hk]; exact h.odd i hi j m

theorem race_append {tr : List (REv V)} {hb : List Nat} {n : Nat} {evs : List (Event V)}
    (h : ∀ p q i e, p < q → AccAt tr p i → tr[q]? = some e → e.1.touched = some i → p ∈ e.2)
    (hn : NoAcc evs) : ∀ p q i e, p < q → AccAt (tr ++ cstamp hb n evs) p i →
      (tr ++ cstamp hb n evs)[q]? = some e → e.1.touched = some i → p ∈ e.2 := by
  intro p q i e hpq hp hq hx
  rw [List.getElem?_append] at hq
  split at hq
  · exact h p q i e hpq (hp.of_noAcc hn) hq hx
  · obtain ⟨x, h1, h2⟩ := stamp_fst hq
    rw [h2, XEv.touched, hn _ (List.mem_of_getElem? h1)] at hx
    cases hx

/-- Steps that move neither end of the queue and touch no slot. -/
theorem RInv.quiet {tr : List (REv V)} {s s' : RState w V} {evs : List (Event V)} {hb : List Nat}
    {n : Nat} (hw : WellSized w cap) (hi : RInv w cap tr s)
    (hnow : s'.now = s.now + evs.length) (hres : s'.res = s.res + nRes evs)
    (hdeq : s'.deq = s.deq + nDeq evs)
    (hstep : StepR False w cap (evsOf tr) s.core s'.core evs ∨ (evs = [] ∧ s'.core = s.core))
    (hr : nRes evs = 0) (hd : nDeq evs = 0) (hna : NoAcc evs)
    (hmem : Mem w cap (evsOf tr ++ evs) s')
    (hwords : ∀ a, WordOk w cap (evsOf tr ++ evs) s' a (s'.pc a))
    (hslot : ∀ i, s'.mem (.slot i) = s.mem (.slot i))
    (hview : ∀ b, (s.view b).le (s'.view b))
    (hpc : ∀ b i, elemOf (Params.new w cap) (s'.pc b) = some i →
      elemOf (Params.new w cap) (s.pc b) = some i)
    (hcont : s'.cont = s.cont) :
    RInv w cap (tr ++ cstamp hb n evs) s' := by
  have hT : evsOf (tr ++ cstamp hb n evs) = evsOf tr ++ evs := by rw [evsOf_append, evsOf_stamp]
  have hR : nRes (evsOf tr ++ evs) = nRes (evsOf tr) := by rw [nRes_append, hr]; rfl
  have hD : nDeq (evsOf tr ++ evs) = nDeq (evsOf tr) := by rw [nDeq_append, hd]; rfl
  have hlast : ∀ i, s'.last (.slot i) = s.last (.slot i) := fun i => by
    unfold RState.last; rw [hslot]
  refine ⟨?_, ?_, ?_, ?_, ?_, ?_, ?_, ?_, ?_, ?_, ?_⟩
  · rw [hnow, hi.now, List.length_append, stamp_length]
  · rw [hT, hres, hi.res, nRes_append]
  · rw [hT, hdeq, hi.deq, nDeq_append]
  · rw [hT]
    rcases hstep with h | ⟨rfl, h⟩
    · exact hi.base.pres hw h
    · rw [h, List.append_nil]; exact hi.base
  · rw [hT]; exact hmem
  · rw [hT]; exact hwords
  · rw [hT]
    unfold SlotLen
    simp only [hR, hD, hslot, hlast]
    exact hi.len
  · intro p hp m hm k hk
    rw [hT] at hp
    unfold Idle at hp
    simp only [hR, hD, hlast] at hp
    rw [hslot] at hm
    exact hi.free p hp m hm k (hk.of_noAcc hna)
  · intro b i hbi
    obtain ⟨h1, h2⟩ := hi.own b i (hpc b i hbi)
    rw [hslot]
    exact ⟨fun m hm => Nat.le_trans (h1 m hm) ((hview b).1 _),
      fun k hk => (hview b).2 _ (h2 k (hk.of_noAcc hna))⟩
  · intro i e he
    rw [hcont] at he
    exact (hi.cont i e he).mono
  · exact race_append hi.race hna

/-- The words of the other operations. -/
theorem RInv.words_of {tr : List (REv V)} {s s' : RState w V} {evs : List (Event V)} {a : OpId}
    (hi : RInv w cap tr s) (hx : Ext s s') (hpc : ∀ b, b ≠ a → s'.pc b = s.pc b)
    (ho : ∀ b, b ≠ a → s'.oldest b = s.oldest b)
    (ha : WordOk w cap (evsOf tr ++ evs) s' a (s'.pc a)) :
    ∀ b, WordOk w cap (evsOf tr ++ evs) s' b (s'.pc b) := by
  intro b
  by_cases h : b = a
  · subst h; exact ha
  · rw [hpc b h]
    refine (hi.words b).ext hx (by rw [ho b h]; exact Nat.le_refl _) ?_ ?_ ?_
    · rw [nRes_append]; omega
    · rw [nDeq_append]; omega
    · intro hc; rw [closedB_append, hc]; rfl

/-- A load. -/
theorem RInv.doLoad {tr : List (REv V)} {s : RState w V} {a : OpId} {l : Loc} {m : Msg w} {o : MOrd}
    {k : State w V × List (Event V)} (hw : WellSized w cap) (hi : RInv w cap tr s)
    (hstep : StepR False w cap (evsOf tr) s.core (s.core.goto a (k.1.pc a)) k.2)
    (hr : nRes k.2 = 0) (hd : nDeq k.2 = 0) (hna : NoAcc k.2)
    (hpc : elemOf (Params.new w cap) (k.1.pc a) = none)
    (ha : WordOk w cap (evsOf tr ++ k.2) (s.load a l m o.acq) a (k.1.pc a)) :
    RInv w cap (tr ++ (s.doLoad a l m o k).2) (s.doLoad a l m o k).1 := by
  have hx : Ext s (s.doLoad a l m o k).1 := (Ext.load ..).trans (Ext.emit ..)
  unfold RState.doLoad
  refine hi.quiet hw rfl rfl rfl (.inl hstep) hr hd hna ?_ ?_ (fun _ => rfl) hx.view ?_ rfl
  · refine hi.mem.mono (fun _ => rfl) ?_ ?_ ?_
    · rw [nRes_append]; omega
    · rw [nDeq_append]; omega
    · intro hc; rw [closedB_append, hc]; rfl
  · refine hi.words_of (a := a) hx ?_ ?_ ?_
    · intro b h; exact upd_ne _ _ h
    · intro b h; exact upd_ne _ _ h
    · have e : (s.doLoad a l m o k).1.pc a = k.1.pc a := upd_self ..
      unfold RState.doLoad at e
      rw [e]
      exact ha.ext (Ext.emit ..) (Nat.le_refl _) (Nat.le_refl _) (Nat.le_refl _) id
  · intro b i hb
    by_cases h : b = a
    · subst h
      have e : (s.doLoad b l m o k).1.pc b = k.1.pc b := upd_self ..
      unfold RState.doLoad at e
      rw [e, hpc] at hb
      cases hb
    · have e : (s.doLoad a l m o k).1.pc b = s.pc b := upd_ne _ _ h
      unfold RState.doLoad at e
      rw [e] at hb
      exact hb

/-- A step without any access. -/
theorem RInv.noAccess {tr : List (REv V)} {s : RState w V} {a : OpId} {pc : PC w}
    {evs : List (Event V)} (hw : WellSized w cap) (hi : RInv w cap tr s)
    (hstep : StepR False w cap (evsOf tr) s.core (s.core.goto a pc) evs)
    (hr : nRes evs = 0) (hd : nDeq evs = 0) (hna : NoAcc evs)
    (hpc : elemOf (Params.new w cap) pc = none)
    (ha : WordOk w cap (evsOf tr ++ evs) s a pc) :
    RInv w cap (tr ++ (s.emit a pc evs).2) (s.emit a pc evs).1 := by
  have hx : Ext s (s.emit a pc evs).1 := Ext.emit ..
  refine hi.quiet hw rfl rfl rfl (.inl hstep) hr hd hna ?_ ?_ (fun _ => rfl) hx.view ?_ rfl
  · refine hi.mem.mono (fun _ => rfl) ?_ ?_ ?_
    · rw [nRes_append]; omega
    · rw [nDeq_append]; omega
    · intro hc; rw [closedB_append, hc]; rfl
  · refine hi.words_of (a := a) hx ?_ ?_ ?_
    · intro b h; exact upd_ne _ _ h
    · intro b h; rfl
    · have e : (s.emit a pc evs).1.pc a = pc := upd_self ..
      rw [e]
      exact ha.ext (Ext.emit ..) (Nat.le_refl _) (Nat.le_refl _) (Nat.le_refl _) id
  · intro b i hb
    by_cases h : b = a
    · subst h
      have e : (s.emit b pc evs).1.pc b = pc := upd_self ..
      rw [e, hpc] at hb
      cases hb
    · have e : (s.emit a pc evs).1.pc b = s.pc b := upd_ne _ _ h
      rw [e] at hb
      exact hb

/-- A read-modify-write of `head` or `tail` that moves neither end of the queue. -/
theorem RInv.doRmw {tr : List (REv V)} {s : RState w V} {a : OpId} {l : Loc} {m : Msg w} {o : MOrd}
    {wr : Nat} {k : State w V × List (Event V)} {c' : State w V} (hw : WellSized w cap)
    (hi : RInv w cap tr s)
    (hl : l = .head ∨ l = .tail) (hm : m ∈ s.mem l) (hf : s.fits l m.ts wr = true)
    (hstep : StepR False w cap (evsOf tr) s.core c' k.2)
    (hc' : (s.doRmw a l m o wr k).1.core = c')
    (hr : nRes k.2 = 0) (hd : nDeq k.2 = 0) (hna : NoAcc k.2)
    (hpc : elemOf (Params.new w cap) (k.1.pc a) = none)
    (htail : l = .tail → ∃ c, cell k.1 l = tailWord w cap (nRes (evsOf tr)) c ∧
      (c = true → closedB (evsOf tr ++ k.2) = true))
    (hhead : l = .head → cell k.1 l = enc w cap (nDeq (evsOf tr)))
    (ha : WordOk w cap (evsOf tr ++ k.2) (s.load a l m o.acq) a (k.1.pc a)) :
    RInv w cap (tr ++ (s.doRmw a l m o wr k).2) (s.doRmw a l m o wr k).1 := by
  have hx : Ext s (s.doRmw a l m o wr k).1 := ((Ext.load ..).trans (Ext.emit ..)).trans (Ext.put ..)
  have hR : nRes (evsOf tr ++ k.2) = nRes (evsOf tr) := by rw [nRes_append, hr]; rfl
  have hD : nDeq (evsOf tr ++ k.2) = nDeq (evsOf tr) := by rw [nDeq_append, hd]; rfl
  obtain ⟨hlast, hlt⟩ := hi.mem.rmw_last hl hm hf
  obtain ⟨x, hx1, hx2, hx3, hx4, hx5, hx5', hx6, -⟩ := put_mem_self
    ((s.load a l m o.acq).emit a (k.1.pc a) k.2).1 a l m.ts wr (cell k.1 l) o.rel m.view
  have hne : ∀ j, j ≠ l → (s.doRmw a l m o wr k).1.mem j = s.mem j := fun j hj => put_mem_ne _ _ _ _ _ _ _ hj
  have hpa : (s.doRmw a l m o wr k).1.pc a = k.1.pc a := upd_self ..
  have hpb : ∀ b, b ≠ a → (s.doRmw a l m o wr k).1.pc b = s.pc b := fun b h => upd_ne _ _ h
  have hbase := hi.base.inv
  have hborn : x.born = nRes (evsOf tr) := by
    rw [hx5]
    show s.res + nRes k.2 = _
    rw [hr, hi.res]; rfl
  have hdeqs : x.deqs = nDeq (evsOf tr) := by
    rw [hx5']
    show s.deq + nDeq k.2 = _
    rw [hd, hi.deq]; rfl
  refine hi.quiet hw rfl rfl rfl (.inl (hc' ▸ hstep)) hr hd hna ?_ ?_ ?_ hx.view ?_ rfl
  · have hmm : Mem w cap (evsOf tr ++ k.2) s := by
      refine hi.mem.mono (fun _ => rfl) (Nat.le_of_eq hR.symm) (Nat.le_of_eq hD.symm) ?_
      intro hc; rw [closedB_append, hc]; rfl
    refine hmm.snoc (l := l) (x := x) (y := m) hx1 hne hlast (by omega) (fun _ => hx2) (by omega) ?_ ?_ ?_ ?_
    · intro h
      obtain ⟨c, e1, e2⟩ := htail h
      exact ⟨c, by rw [hx4, hborn, e1], by omega, e2⟩
    · intro h
      refine ⟨by rw [hx4, hdeqs]; exact hhead h, by omega, ?_⟩
      have := hbase.ge
      omega
    · intro i j h; rcases hl with rfl | rfl <;> cases h
    · intro i j h; rcases hl with rfl | rfl <;> cases h
  · refine hi.words_of (a := a) hx hpb ?_ ?_
    · intro b h; exact upd_ne _ _ h
    · rw [hpa]
      exact ha.ext ((Ext.emit ..).trans (Ext.put ..)) (Nat.le_refl _) (Nat.le_refl _) (Nat.le_refl _) id
  · intro i
    exact hne _ (by rcases hl with rfl | rfl <;> simp)
  · intro b i hb
    by_cases h : b = a
    · subst h
      rw [hpa, hpc] at hb
      cases hb
    · rw [hpb b h] at hb
      exact hb

end Thingbuf.RA
