import Verif.CoreProps
/-
`Core::drop_slots` and the `Drop` implementations that call it: C08.
-/
namespace Thingbuf

variable {w cap : Nat} {V : Type} {tr : Trace V} {s : State w V}

/-- What `drop_slots` does. /repo/src/lib.rs lines 388-409. -/
inductive DropOutcome (V : Type) where
  /-- `drop_in_place` was called on these slots, in this order, with this content -/
  | dropped (l : List (Nat × Option V))
  /-- the `debug_assert!` on `has_dropped_slots` or the slice bounds check failed -/
  | panicked
deriving DecidableEq, Repr

/-- `Core::drop_slots` (/repo/src/lib.rs lines 388-409) on the shared memory `s`.  `&mut self`
means that no call is in progress, so there is only one thread.  The flag `has_dropped_slots`
is passed in; every `Drop` implementation calls `drop_slots` once, with the flag `false` from `Core::new`
(/repo/src/thingbuf.rs 496-500, /repo/src/static_thingbuf.rs 526-530, /repo/src/mpsc/async_impl.rs
602-606, /repo/src/mpsc/blocking.rs 1592-1596).  A second call, which cannot happen, fails the `debug_assert`; in a
build without debug assertions it would return without dropping anything. -/
def dropSlots (cap : Nat) (s : State w V) (hasDropped : Bool) : DropOutcome V :=
  if hasDropped then .panicked
  else
    let c := Params.new w cap
    let (idx, gen) := c.idxGen s.tail
    let numInitialized := if gen ≠ 0#w then cap else idx.toNat
    if numInitialized ≤ cap then
      .dropped ((List.range numInitialized).map fun i => (i, s.val i))
    else .panicked

/-- `Recycle::new_element` never panicked: whenever user code panicked inside a push it was
`recycle`. An assumption about the user code called at /repo/src/lib.rs line 234. Scaffolding of the model, no
counterpart in the source. -/
def NewElementNeverPanicked (tr : Trace V) : Prop :=
  ∀ a, Event.ret a .panicked ∈ tr → ∃ i o, Event.access a i (.recyclePanic o) ∈ tr

/-- A slot is initialised exactly if `new_element` stored an element in it. -/
theorem Run.val_created (h : Run w cap tr s) : ∀ i, s.val i ≠ none ↔ i ∈ createdSlots tr := by
  obtain ⟨hw, he, hn⟩ := h
  induction he with
  | init => intro i; simp [State.init, createdSlots]
  | @step tr s s' act evs he hs ih =>
    have hn' := NoStall.mono hn
    have hi := (he.all hw hn').1
    exact (step_sound hw hi hn'.fresh hs).val_created hi (ih hn')

/-- `new_element` is called exactly in the slots of the first lap. -/
theorem Facts.created_iff {m : Prop} (h : Facts m w cap tr) (hq : ∀ a, ¬ Pending tr a)
    (hnp : NewElementNeverPanicked tr) (i : Nat) :
    i ∈ createdSlots tr ↔ i < cap ∧ i < nRes tr := by
  have hpos := h.sized.1
  constructor
  · intro hi
    obtain ⟨a, v, hm⟩ := mem_createdSlots.1 hi
    obtain ⟨pre, post, htr⟩ := mem_split hm
    have hpre : pre <+: tr := ⟨_, htr.symm⟩
    obtain ⟨_, hnr, hini, p, hp, rfl, hg⟩ := h.evOk htr
    have h1 : p < nRes tr := Nat.lt_of_lt_of_le (lt_of_getElem?_some hp) (nRes_mono hpre)
    have := Nat.mod_le p cap
    exact ⟨Nat.mod_lt _ hpos, by omega⟩
  · rintro ⟨h1, h2⟩
    obtain ⟨a, ha⟩ : ∃ a, (resOps tr)[i]? = some a := ⟨_, List.getElem?_eq_getElem h2⟩
    have hres : a ∈ resOps tr := List.mem_of_getElem? ha
    -- an initialisation made by `a` is in slot `i` and creates the element
    have key : ∀ j k, Event.access a j k ∈ tr → (∀ v, k ≠ .read v) → (∀ v, k ≠ .write v) →
        i ∈ createdSlots tr := by
      intro j k hm hk1 hk2
      obtain ⟨pre, post, htr⟩ := mem_split hm
      have hpre : pre <+: tr := ⟨_, htr.symm⟩
      have he := h.evOk htr
      cases k with
      | create v =>
        obtain ⟨_, _, _, p, hp, rfl, _⟩ := he
        have : p = i := nodup_idx h.nodup_res (getElem?_prefix (resOps_prefix hpre) hp) ha
        subst this
        exact mem_createdSlots.2 ⟨a, v, by rwa [Nat.mod_eq_of_lt h1] at hm⟩
      | recycle o v =>
        obtain ⟨_, _, _, _, p, b, x, hp, _, _, hge, _⟩ := he
        have : p = i := nodup_idx h.nodup_res (getElem?_prefix (resOps_prefix hpre) hp) ha
        omega
      | recyclePanic o =>
        obtain ⟨_, _, _, _, p, b, x, hp, _, _, hge, _⟩ := he
        have : p = i := nodup_idx h.nodup_res (getElem?_prefix (resOps_prefix hpre) hp) ha
        omega
      | read v => exact absurd rfl (hk1 v)
      | write v => exact absurd rfl (hk2 v)
    have hinv : Event.invoke a .push ∈ tr := by
      obtain ⟨j, hm⟩ := mem_resOps.1 hres
      obtain ⟨pre, post, htr⟩ := mem_split hm
      have := (h.evOk htr).1.inv
      rw [htr]; exact List.mem_append_left _ this
    obtain ⟨r, hr⟩ : Returned tr a := Classical.byContradiction fun hc => hq a ⟨⟨_, hinv⟩, hc⟩
    obtain ⟨pre, post, htr⟩ := mem_split hr
    have hpre : pre <+: tr := ⟨_, htr.symm⟩
    have he := h.evOk htr
    -- a call that reserved can only return `pushed` or `panicked`
    have notres : ¬ a ∉ resOps pre := by
      intro hn
      obtain ⟨j, hm⟩ := mem_resOps.1 hres
      rw [htr] at hm
      rcases List.mem_append.1 hm with hm | hm
      · exact hn (mem_resOps.2 ⟨_, hm⟩)
      · simp only [List.mem_cons, reduceCtorEq, false_or] at hm
        obtain ⟨y1, y2, rfl⟩ := mem_split hm
        have he' := h.evOk (pre := pre ++ .ret a r :: y1) (e := .reserve a j) (post := y2)
          (by rw [htr]; simp)
        exact he'.1.nret ⟨r, by simp⟩
    cases r with
    | pushed =>
      have hl := h.invY.pushed a hr
      obtain ⟨x, hx⟩ := List.length_eq_one_iff.1 hl
      have hx' : x ∈ inits a tr := by rw [hx]; simp
      obtain ⟨e, hem, hex⟩ := List.mem_filterMap.1 hx'
      cases e with
      | access b j k =>
        cases k with
        | create v => simp at hex; exact key j _ (hex.1 ▸ hem) (by simp) (by simp)
        | recycle o v => simp at hex; exact key j _ (hex.1 ▸ hem) (by simp) (by simp)
        | recyclePanic o => simp at hex; exact key j _ (hex.1 ▸ hem) (by simp) (by simp)
        | _ => simp at hex
      | _ => simp at hex
    | panicked =>
      obtain ⟨j, o, hm⟩ := hnp a hr
      exact key j _ hm (by simp) (by simp)
    | popped =>
      exact absurd (h.invoke_unique hinv (hpre.subset he.2.2.2)) (by simp)
    | closeRet b =>
      rcases he.2.2 with ⟨hm, _⟩ | ⟨hm, _⟩ <;>
        exact absurd (h.invoke_unique hinv (hpre.subset hm)) (by simp)
    | _ => exact absurd he.2.2.1 notres

/-- The generation is zero in the first lap of each period. -/
theorem gen_zero_iff {w cap n : Nat} (hpos : 0 < cap) : n / cap % numGens w cap = 0 ↔ n % period w cap < cap := by
  rw [period, Nat.mod_mul, ]
  have := Nat.mod_lt n hpos
  constructor
  · intro h; rw [h]; omega
  · intro h
    rcases Nat.eq_zero_or_pos (n / cap % numGens w cap) with h1 | h1
    · exact h1
    · have := Nat.le_mul_of_pos_right cap h1
      omega

/-- What `drop_slots` does, from what is known of the state. -/
theorem drop_exact {m : Prop} (h : Facts m w cap tr) (hi : Inv m w cap tr s) (hvc : ∀ i, s.val i ≠ none ↔ i ∈ createdSlots tr)
    (hq : ∀ a, ¬ Pending tr a) (hnp : NewElementNeverPanicked tr) (hwrap : nRes tr < period w cap ∨ cap ≤ nRes tr % period w cap) :
    ∃ l, dropSlots cap s false = .dropped l ∧ (l.map Prod.fst).Nodup ∧
      (∀ i, i ∈ l.map Prod.fst ↔ i ∈ createdSlots tr) ∧
      (∀ i v, (i, v) ∈ l → v = s.val i ∧ v ≠ none) ∧
      (∀ i, i ∉ l.map Prod.fst → s.val i = none) := by
  have hpos := h.sized.1
  have hci := h.created_iff hq hnp
  -- the number of initialised slots
  have hnum : (if ((Params.new w cap).idxGen s.tail).2 ≠ 0#w then cap
      else ((Params.new w cap).idxGen s.tail).1.toNat) = min cap (nRes tr) := by
    rw [hi.tail, idx_tailWord h.sized]
    have hg : ((Params.new w cap).idxGen (tailWord w cap (nRes tr) (closedB tr))).2 ≠ 0#w ↔
        cap ≤ nRes tr := by
      have e : ((Params.new w cap).idxGen (tailWord w cap (nRes tr) (closedB tr))).2 =
          ((Params.new w cap).idxGen (enc w cap (nRes tr))).2 :=
        BitVec.eq_of_toNat_eq (by rw [gen_tailWord_toNat h.sized, gen_enc_toNat h.sized])
      rw [e, Ne, gen_eq_zero h.sized]
      refine ⟨fun hx => ?_, fun hc hx => ?_⟩
      · apply Classical.byContradiction
        intro hn
        exact hx (by rw [Nat.div_eq_of_lt (by omega), Nat.zero_mod])
      · rcases hwrap with hwrap | hwrap
        · rw [Nat.mod_eq_of_lt (Nat.div_lt_of_lt_mul (show nRes tr < period w cap from hwrap)), Nat.div_eq_zero_iff] at hx
          omega
        · have := (gen_zero_iff hpos).1 hx
          omega
    by_cases hc : cap ≤ nRes tr
    · rw [if_pos (hg.2 hc), Nat.min_eq_left hc]
    · rw [if_neg (fun hx => hc (hg.1 hx)), Nat.mod_eq_of_lt (by omega), Nat.min_eq_right (by omega)]
  refine ⟨(List.range (min cap (nRes tr))).map fun i => (i, s.val i), ?_, ?_, ?_, ?_, ?_⟩
  · simp only [dropSlots, Bool.false_eq_true, if_false, hnum]
    rw [if_pos (Nat.min_le_left _ _)]
  · rw [List.map_map]
    simpa [Function.comp_def] using List.nodup_range
  · intro i
    rw [List.map_map, hci]
    simp [Function.comp_def]; omega
  · intro i v hm
    simp only [List.mem_map, List.mem_range, Prod.mk.injEq] at hm
    obtain ⟨j, hj, rfl, rfl⟩ := hm
    exact ⟨rfl, (hvc _).2 ((hci _).2 (by omega))⟩
  · intro i hm
    rw [List.map_map] at hm
    simp [Function.comp_def] at hm
    apply Classical.byContradiction
    intro hc
    have := (hci i).1 ((hvc i).1 hc)
    omega

/-- **C08** Dropping the queue.  Take any execution in which no call is in progress any more (some
`Ref`s may have been leaked), `new_element` never panicked, and the position counter is not in the
first lap after it has wrapped.  Then dropping the queue calls `drop_in_place` on exactly the slots in which an
element was created, once each, and every one of them is initialised; the other slots are
uninitialised.

Missing from the full property: executions in which `new_element` panicked
(`C08_uninit_drop_after_panic` shows that it fails there) and those in which the position counter is in its first
lap after it has wrapped (`C08_leak_exact_after_wrap` shows that it fails in all of them, `C08_leak_after_wrap` that there are some). -/
theorem C08_drop_exact_partial (h : Run w cap tr s) (hq : ∀ a, ¬ Pending tr a)
    (hnp : NewElementNeverPanicked tr) (hwrap : nRes tr < period w cap ∨ cap ≤ nRes tr % period w cap) :
    ∃ l, dropSlots cap s false = .dropped l ∧ (l.map Prod.fst).Nodup ∧
      (∀ i, i ∈ l.map Prod.fst ↔ i ∈ createdSlots tr) ∧
      (∀ i v, (i, v) ∈ l → v = s.val i ∧ v ≠ none) ∧
      (∀ i, i ∉ l.map Prod.fst → s.val i = none) := by
  exact drop_exact h.facts h.inv h.val_created hq hnp hwrap

/-- **C08** is violated in the first lap after the position counter has wrapped: every slot is initialised, and only those
that have been used again since are dropped. The others are leaked. -/
theorem C08_leak_exact_after_wrap (h : Run w cap tr s) (hq : ∀ a, ¬ Pending tr a) (hnp : NewElementNeverPanicked tr)
    (hwrap : period w cap ≤ nRes tr) (hlap : nRes tr % period w cap < cap) :
    (∀ i, i < cap → s.val i ≠ none) ∧
      ∃ l, dropSlots cap s false = .dropped l ∧ ∀ i, i ∈ l.map Prod.fst ↔ i < nRes tr % period w cap := by
  have hpos := h.sized.1
  have hp := period_ge h.sized
  refine ⟨fun i hi => (h.val_created i).2 ((h.facts.created_iff hq hnp i).2 ⟨hi, by omega⟩), ?_⟩
  have hg : ((Params.new w cap).idxGen s.tail).2 = 0#w := by
    rw [h.inv.tail, show ((Params.new w cap).idxGen (tailWord w cap (nRes tr) (closedB tr))).2 =
        ((Params.new w cap).idxGen (enc w cap (nRes tr))).2 from
      BitVec.eq_of_toNat_eq (by rw [gen_tailWord_toNat h.sized, gen_enc_toNat h.sized])]
    exact (gen_eq_zero h.sized _).2 ((gen_zero_iff hpos).2 hlap)
  have hix : ((Params.new w cap).idxGen s.tail).1.toNat = nRes tr % period w cap := by
    rw [h.inv.tail, idx_tailWord h.sized]
    rw [← Nat.mod_eq_of_lt hlap, period, Nat.mod_mul_right_mod]
  refine ⟨(List.range (nRes tr % period w cap)).map fun i => (i, s.val i), ?_, fun i => ?_⟩
  · simp only [dropSlots, hg, hix, ne_eq, not_true_eq_false, Bool.false_eq_true, if_false]
    rw [if_pos (by omega)]
  · rw [List.map_map]
    simp [Function.comp_def]

/-- **C08**: dropping twice is caught, so no element is dropped twice. -/
theorem C08_drop_once (s : State w V) : dropSlots cap s true = .panicked := rfl

/-- Three slots, two used; one `Ref` leaked by push 1. A concrete case. Scaffolding of the model, no counterpart in
the source. -/
def leakActs : List (Act Nat) := pushActs 0 10 ++ [.dropRef 0] ++ pushActs 1 11

/-- The hypotheses of `C08_drop_exact_partial` are met with a leaked `Ref`, and slots 0 and 1 are
dropped while slot 2 is not. -/
example : ∃ (tr : Trace Nat) (s : State 8 Nat), Run 8 3 tr s ∧ (∀ a, ¬ Pending tr a) ∧
    NewElementNeverPanicked tr ∧ nRes tr < period 8 3 ∧ Holds tr 1 1 ∧
    dropSlots 3 s false = .dropped [(0, some 10), (1, some 11)] := by
  have hr : (runActs 3 (State.init 8 Nat) leakActs).map Prod.snd = some
    [.invoke 0 .push, .reserve 0 0, .access 0 0 (.create 10), .ret 0 .pushed, .commit 0 0 (some 10),
     .invoke 1 .push, .reserve 1 1, .access 1 1 (.create 11), .ret 1 .pushed] := by decide +kernel
  have hd : (runActs 3 (State.init 8 Nat) leakActs).map (fun r => dropSlots 3 r.1 false) =
    some (.dropped [(0, some 10), (1, some 11)]) := by decide +kernel
  cases hrun : runActs 3 (State.init 8 Nat) leakActs with
  | none => rw [hrun] at hr; simp at hr
  | some r =>
    obtain ⟨s, evs⟩ := r
    rw [hrun] at hr hd
    simp only [Option.map_some, Option.some.injEq] at hr hd
    subst hr
    refine ⟨_, s, ⟨by decide, by simpa using Exec.init.of_runActs hrun, NoStall.of_few (by decide)⟩,
      ?_, ?_, by decide, ⟨.inl (by simp), ?_, ?_⟩, hd⟩
    · rintro a ⟨⟨op, hop⟩, hr⟩
      simp at hop
      rcases hop with ⟨rfl, rfl⟩ | ⟨rfl, rfl⟩
      · exact hr ⟨.pushed, by simp⟩
      · exact hr ⟨.pushed, by simp⟩
    · intro a ha; simp at ha
    · rintro ⟨i, v, hm⟩; simp at hm
    · rintro ⟨i, v, hm⟩; simp at hm

/-- **C08** is violated when `new_element` panics: the slot has been reserved but not initialised, and
dropping the queue runs `drop_in_place` on uninitialised memory. -/
theorem C08_uninit_drop_after_panic : ∃ (tr : Trace Nat) (s : State 8 Nat), Run 8 2 tr s ∧
    (∀ a, ¬ Pending tr a) ∧ nRes tr = 1 ∧ dropSlots 2 s false = .dropped [(0, none)] := by
  have hr : (runActs 2 (State.init 8 Nat) [.invoke 0 .push, .run 0, .run 0, .run 0, .elemPanic 0 0]).map
    Prod.snd = some [.invoke 0 .push, .reserve 0 0, .ret 0 .panicked] := by decide +kernel
  have hd : (runActs 2 (State.init 8 Nat) [.invoke 0 .push, .run 0, .run 0, .run 0, .elemPanic 0 0]).map
    (fun r => dropSlots 2 r.1 false) = some (.dropped [(0, none)]) := by decide +kernel
  cases hrun : runActs 2 (State.init 8 Nat) [.invoke 0 .push, .run 0, .run 0, .run 0, .elemPanic 0 0] with
  | none => rw [hrun] at hr; simp at hr
  | some r =>
    obtain ⟨s, evs⟩ := r
    rw [hrun] at hr hd
    simp only [Option.map_some, Option.some.injEq] at hr hd
    subst hr
    refine ⟨_, s, ⟨by decide, by simpa using Exec.init.of_runActs hrun, NoStall.of_few (by decide)⟩,
      ?_, by decide, hd⟩
    rintro a ⟨⟨op, hop⟩, hr⟩
    simp at hop
    obtain ⟨rfl, rfl⟩ := hop
    exact hr ⟨.panicked, by simp⟩

end Thingbuf
