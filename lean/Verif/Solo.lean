import Verif.CoreProps
import Verif.StepLemmas
/-
Calls that run alone: C15 (completion) and C16 (exactly when `push_ref`/`pop_ref` hang).
-/
namespace Thingbuf

variable {w cap : Nat} {V : Type} {tr : Trace V} {s : State w V}

/-- Nothing is going on: no call is in progress and no `Ref` is alive. Scaffolding of the model, no counterpart in
the source. -/
def Quiescent (tr : Trace V) : Prop := (∀ a, ¬ Pending tr a) ∧ ∀ a i, ¬ Holds tr a i

/-- The call `op` by `a`, followed by `k` steps of `a` alone. Scaffolding of the model, no counterpart in the
source. -/
def soloActs (a : OpId) (op : Op) (k : Nat) : List (Act V) := .invoke a op :: List.replicate k (.run a)

theorem Run.idle (h : Run w cap tr s) {a : OpId} (ha : ¬ Invoked tr a) : s.pc a = .idle := by
  have := h.inv.pcs a
  cases hpc : s.pc a <;> rw [hpc] at this <;> simp only [pcInv] at this
  case done => exact absurd this.1 ha
  case pushStart => exact absurd ⟨_, this.inv⟩ ha
  case pushReload => exact absurd ⟨_, this.inv⟩ ha
  case pushLoop => exact absurd ⟨_, this.1.inv⟩ ha
  case pushCas => exact absurd ⟨_, this.1.inv⟩ ha
  case pushHead => exact absurd ⟨_, this.1.inv⟩ ha
  case pushInit => obtain ⟨p, h1, _⟩ := this; exact absurd ⟨_, h1.inv⟩ ha
  case pushHeld => obtain ⟨p, h1, _⟩ := this; exact absurd ⟨_, h1.inv⟩ ha
  case pushPanicked => obtain ⟨p, h1, _⟩ := this; exact absurd ⟨_, h1.inv⟩ ha
  case popStart => exact absurd ⟨_, this.inv⟩ ha
  case popReload => exact absurd ⟨_, this.inv⟩ ha
  case popLoop => exact absurd ⟨_, this.1.inv⟩ ha
  case popCas => exact absurd ⟨_, this.1.inv⟩ ha
  case popTail => exact absurd ⟨_, this.1.inv⟩ ha
  case popHeld => obtain ⟨p, h1, _⟩ := this; exact absurd ⟨_, h1.inv⟩ ha
  case lenStart => exact absurd ⟨_, this.inv⟩ ha
  case lenHead => exact absurd ⟨_, this.1.inv⟩ ha
  case lenTail => exact absurd ⟨_, this.1.inv⟩ ha
  case closeStart => exact absurd ⟨_, this.inv⟩ ha

/-- The slot that the next push needs, when there is room: free, or held by the pop of the
previous lap. -/
theorem Run.slot_room (h : Run w cap tr s) (hlt : nRes tr < nDeq tr + cap) :
    ((¬ ∃ b, Holds tr b (nRes tr % cap)) ∧ s.st (nRes tr % cap) = enc w cap (nRes tr)) ∨
    ((∃ b, Holds tr b (nRes tr % cap)) ∧ cap ≤ nRes tr ∧
      s.st (nRes tr % cap) = enc w cap (nRes tr - cap) + 1#w) := by
  have hi := h.inv
  rcases hi.free _ (Nat.le_refl _) hlt with ⟨h1, _⟩ | ⟨h1, h2, b, hb, hpc⟩
  · left
    refine ⟨?_, h1⟩
    rintro ⟨b, hb⟩
    have hb1 := hb
    obtain ⟨p, hm, hpos⟩ := h.holds_pos (List.prefix_refl _) hb
    have hle := hi.le
    have e1 : nRes tr = (resOps tr).length := rfl
    have e2 : nDeq tr = (deqOps tr).length := rfl
    rcases hpos with ⟨h3, h4⟩ | ⟨h3, h4⟩
    · have h5 := lt_of_getElem?_some h3
      have := mod_inj_window (H := nDeq tr) hm (by omega) (by omega) h4 (by omega)
      omega
    · have h5 := lt_of_getElem?_some h3
      have : nRes tr = p + cap := mod_inj_window (cap := cap) (H := nDeq tr) (by simp [hm]) (by omega)
        (by omega) (by omega) (by omega)
      rcases hi.free _ (Nat.le_refl _) hlt with ⟨_, hl⟩ | ⟨hcp, hst', _⟩
      · obtain ⟨v, b', hb', -, hr⟩ := hl (by omega)
        rw [show nRes tr - cap = p by omega] at hb'
        have : b' = b := Option.some.inj (hb'.symm.trans h3)
        subst this
        exact hb1.2.2 ⟨_, _, hr⟩
      · exact enc_ne_enc_succ h.sized (by rw [sub_mod_self hcp]) (h1.symm.trans hst')
  · right
    refine ⟨⟨b, h.own_holds (List.prefix_refl _) (hi.own_held (.inr hpc))⟩, h1, h2⟩

/-- The slot of a queued element: published, or held by its push. -/
theorem Run.slot_queued (h : Run w cap tr s) {p : Nat} (h1 : nDeq tr ≤ p) (h2 : p < nRes tr) :
    ((¬ ∃ b, Holds tr b (p % cap)) ∧ s.st (p % cap) = enc w cap p + 1#w) ∨
    ((∃ b, Holds tr b (p % cap)) ∧ s.st (p % cap) = enc w cap p) := by
  have hi := h.inv
  obtain ⟨a, ha⟩ : ∃ a, (resOps tr)[p]? = some a := ⟨_, List.getElem?_eq_getElem h2⟩
  have e1 : nRes tr = (resOps tr).length := rfl
  have e2 : nDeq tr = (deqOps tr).length := rfl
  have hge := hi.ge
  rcases hi.busy p a h1 ha with ⟨hst, v, hv, hc⟩ | ⟨hst, ho, hnc⟩
  · left
    refine ⟨?_, hst⟩
    rintro ⟨b, hb⟩
    have hb1 := hb
    obtain ⟨q, hm, hpos⟩ := h.holds_pos (List.prefix_refl _) hb
    rcases hpos with ⟨h3, h4⟩ | ⟨h3, h4⟩
    · have h5 := lt_of_getElem?_some h3
      have : p = q := mod_inj_window (H := nDeq tr) hm h1 (by omega) h4 (by omega)
      subst this
      have : b = a := Option.some.inj (h3.symm.trans ha)
      subst this
      exact hb1.2.1 ⟨_, _, hc⟩
    · have h5 := lt_of_getElem?_some h3
      have : p = q + cap := mod_inj_window (cap := cap) (H := nDeq tr) (by simp [hm]) (by omega)
        (by omega) (by omega) (by omega)
      omega
  · right
    refine ⟨⟨a, .inl (h.slot_res (List.prefix_refl _) ha), hnc, ?_⟩, hst⟩
    have := hi.pcs a
    rcases ho with ho | ho | ho <;> rw [ho] at this <;> obtain ⟨q, hq, _⟩ := this <;> exact hq.nrel

/-! ### C15 -/

theorem Run.solo_push_closed (h : Run w cap tr s) {a : OpId} (ha : ¬ Invoked tr a) (hc : Closed tr) :
    ∃ s', runActs cap s (soloActs a .push 2) = some (s', [.invoke a .push, .ret a .closed]) := by
  have ht := h.inv.tail
  rw [closedB_iff.2 hc] at ht
  simp [runActs, soloActs, List.replicate, step, runStep, h.idle ha, startPC, ht, pushLoop_closed h.sized]

theorem Run.tail_open (h : Run w cap tr s) (hc : ¬ Closed tr) : s.tail = enc w cap (nRes tr) := by
  have ht := h.inv.tail
  rwa [not_closed_iff.2 hc, tailWord_false] at ht

theorem Run.solo_push_full (h : Run w cap tr s) {a : OpId} (ha : ¬ Invoked tr a) (hc : ¬ Closed tr)
    (hf : nRes tr = nDeq tr + cap) (hh : ¬ ∃ b, Holds tr b (nRes tr % cap)) :
    ∃ s', runActs cap s (soloActs a .push 3) = some (s', [.invoke a .push, .ret a .full]) := by
  have hpos := h.sized.1
  have hm : nRes tr % cap = nDeq tr % cap := by rw [hf]; simp
  have hst : s.st (nRes tr % cap) = enc w cap (nDeq tr) + 1#w := by
    rcases h.slot_queued (p := nDeq tr) (Nat.le_refl _) (by omega) with ⟨_, h1⟩ | ⟨h1, _⟩
    · rw [hm, h1]
    · rw [← hm] at h1; exact absurd h1 hh
  simp [runActs, soloActs, List.replicate, step, runStep, h.idle ha, startPC, h.tail_open hc,
    pushLoop_prev h.sized (s := s.goto a (.pushLoop .new (enc w cap (nRes tr)))) hf hst,
    pushHead_full h.sized (s := s.goto a (.pushHead .new (enc w cap (nRes tr)))) h.inv.head hf]

theorem Run.solo_push_ok (h : Run w cap tr s) {a : OpId} (ha : ¬ Invoked tr a) (hc : ¬ Closed tr)
    (hf : nRes tr < nDeq tr + cap) (hh : ¬ ∃ b, Holds tr b (nRes tr % cap)) (v : V) :
    ∃ s' acc, runActs cap s (soloActs a .push 3 ++ [.elem a v]) = some (s', [.invoke a .push,
      .reserve a (nRes tr % cap), .access a (nRes tr % cap) acc, .ret a .pushed]) := by
  have hst : s.st (nRes tr % cap) = enc w cap (nRes tr) := by
    rcases h.slot_room hf with ⟨_, h1⟩ | ⟨h1, _⟩
    · exact h1
    · exact absurd h1 hh
  refine ⟨?s, ?acc, ?_⟩
  rotate_left 2
  · simp only [runActs, soloActs, List.replicate, step, runStep, h.idle ha, startPC, if_true,
      List.cons_append, List.nil_append, goto_goto, goto_pc_self', goto_tail, h.tail_open hc,
      pushLoop_free h.sized (s := s.goto a (.pushLoop .new (enc w cap (nRes tr)))) hst,
      pushCas_ok h.sized (s := s.goto a (.pushCas .new (enc w cap (nRes tr)))) (h.tail_open hc),
      pushElem_eq h.sized]
    rfl

/-- **C15** (push) Solo completion.  When no call is in progress and no `Ref` is alive, a push that runs
alone returns after at most three of its own steps plus the call of `new_element`/`recycle`: `Closed` if
the queue is closed, else `Full` if it holds `cap` elements, else `Ok`. -/
theorem C15_push (h : Run w cap tr s) (hq : Quiescent tr) {a : OpId} (ha : ¬ Invoked tr a) :
    (Closed tr → ∃ s', runActs cap s (soloActs a .push 2) =
      some (s', [.invoke a .push, .ret a .closed])) ∧
    (¬ Closed tr → nRes tr = nDeq tr + cap → ∃ s', runActs cap s (soloActs a .push 3) =
      some (s', [.invoke a .push, .ret a .full])) ∧
    (¬ Closed tr → nRes tr < nDeq tr + cap → ∀ v, ∃ s' i acc,
      runActs cap s (soloActs a .push 3 ++ [.elem a v]) =
        some (s', [.invoke a .push, .reserve a i, .access a i acc, .ret a .pushed])) := by
  have hh : ∀ i, ¬ ∃ b, Holds tr b i := fun i ⟨b, hb⟩ => hq.2 b i hb
  refine ⟨h.solo_push_closed ha, fun hc hf => h.solo_push_full ha hc hf (hh _), fun hc hf v => ?_⟩
  obtain ⟨s', acc, hr⟩ := h.solo_push_ok ha hc hf (hh _) v
  exact ⟨s', _, acc, hr⟩

theorem Run.solo_pop_ok (h : Run w cap tr s) {a : OpId} (ha : ¬ Invoked tr a)
    (hne : nDeq tr < nRes tr) (hh : ¬ ∃ b, Holds tr b (nDeq tr % cap)) :
    ∃ s', runActs cap s (soloActs a .pop 3) = some (s', [.invoke a .pop,
      .dequeue a (nDeq tr % cap) (s.val (nDeq tr % cap)), .ret a .popped]) := by
  have hst : s.st (nDeq tr % cap) = enc w cap (nDeq tr) + 1#w := by
    rcases h.slot_queued (Nat.le_refl _) hne with ⟨_, h1⟩ | ⟨h1, _⟩
    · exact h1
    · exact absurd h1 hh
  refine ⟨?s, ?_⟩
  rotate_left 1
  · simp only [runActs, soloActs, List.replicate, step, runStep, h.idle ha, startPC, if_true,
      List.cons_append, List.nil_append, goto_goto, goto_pc_self', goto_head, h.inv.head,
      popLoop_ready h.sized (s := s.goto a (.popLoop .new (enc w cap (nDeq tr)))) hst,
      popCas_ok h.sized (s := s.goto a (.popCas .new (enc w cap (nDeq tr)))) h.inv.head]
    rfl

theorem Run.solo_pop_empty (h : Run w cap tr s) {a : OpId} (ha : ¬ Invoked tr a)
    (he : IsEmpty tr) (hh : ¬ ∃ b, Holds tr b (nDeq tr % cap)) :
    ∃ s', runActs cap s (soloActs a .pop 3) = some (s', [.invoke a .pop,
      .ret a (if closedB tr then .closed else .empty)]) := by
  have he' : nRes tr = nDeq tr := he
  have hst : s.st (nDeq tr % cap) = enc w cap (nDeq tr) := by
    rcases h.slot_room (by have := h.sized.1; omega) with ⟨_, h1⟩ | ⟨h1, _⟩
    · rw [he'] at h1; exact h1
    · rw [he'] at h1; exact absurd h1 hh
  have ht := h.inv.tail
  rw [he'] at ht
  refine ⟨?s, ?_⟩
  rotate_left 1
  · simp only [runActs, soloActs, List.replicate, step, runStep, h.idle ha, startPC, if_true,
      List.cons_append, List.nil_append, goto_goto, goto_pc_self', goto_head, h.inv.head,
      popLoop_free h.sized (s := s.goto a (.popLoop .new (enc w cap (nDeq tr)))) hst,
      popTail_empty h.sized (s := s.goto a (.popTail .new (enc w cap (nDeq tr)))) ht]
    rfl

/-- **C15** (pop) Solo completion: a pop that runs alone when nothing else is going on returns after
three of its own steps, with the oldest element if there is one, else `Closed` if the
queue is closed, else `Empty`. -/
theorem C15_pop (h : Run w cap tr s) (hq : Quiescent tr) {a : OpId} (ha : ¬ Invoked tr a) :
    (¬ IsEmpty tr → ∃ s' i x b, (resOps tr)[nDeq tr]? = some b ∧ sent tr b = some x ∧
      runActs cap s (soloActs a .pop 3) = some (s', [.invoke a .pop, .dequeue a i (some x), .ret a .popped])) ∧
    (IsEmpty tr → Closed tr → ∃ s', runActs cap s (soloActs a .pop 3) =
      some (s', [.invoke a .pop, .ret a .closed])) ∧
    (IsEmpty tr → ¬ Closed tr → ∃ s', runActs cap s (soloActs a .pop 3) =
      some (s', [.invoke a .pop, .ret a .empty])) := by
  have hh : ∀ i, ¬ ∃ b, Holds tr b i := fun i ⟨b, hb⟩ => hq.2 b i hb
  refine ⟨fun hne => ?_, fun he hc => ?_, fun he hc => ?_⟩
  · have hlt : nDeq tr < nRes tr := by
      have := h.inv.le
      unfold IsEmpty at hne
      omega
    obtain ⟨s', hr⟩ := h.solo_pop_ok ha hlt (hh _)
    obtain ⟨b, hb⟩ : ∃ b, (resOps tr)[nDeq tr]? = some b := ⟨_, List.getElem?_eq_getElem hlt⟩
    rcases h.inv.busy _ b (Nat.le_refl _) hb with ⟨_, x, hx, hcm⟩ | ⟨hst, _⟩
    · exact ⟨s', _, x, b, hb, h.sent_eq hcm, by rw [hr, hx]⟩
    · rcases h.slot_queued (Nat.le_refl _) hlt with ⟨_, h1⟩ | ⟨h1, _⟩
      · exact absurd (hst.symm.trans h1) (enc_ne_enc_succ h.sized rfl)
      · exact absurd h1 (hh _)
  · obtain ⟨s', hr⟩ := h.solo_pop_empty ha he (hh _)
    rw [closedB_iff.2 hc] at hr
    exact ⟨s', hr⟩
  · obtain ⟨s', hr⟩ := h.solo_pop_empty ha he (hh _)
    rw [not_closed_iff.2 hc] at hr
    exact ⟨s', hr⟩

/-- The demo run is quiescent at its end and non-trivial. -/
example : ∃ s : State 8 Nat, Run 8 2 demoTrace s ∧ Quiescent demoTrace ∧ ¬ Invoked demoTrace 12 := by
  obtain ⟨s, hs⟩ := demoRun
  refine ⟨s, hs, ⟨?_, ?_⟩, by simp [Invoked, demoTrace]⟩
  · rintro a ⟨⟨op, hop⟩, hr⟩
    simp only [demoTrace, List.mem_cons, Event.invoke.injEq, reduceCtorEq, List.not_mem_nil, false_or,
      or_false] at hop
    apply hr
    rcases hop with h | h | h | h | h | h | h | h | h | h | h | h <;> obtain ⟨rfl, -⟩ := h <;>
      simp [Returned, demoTrace]
  · rintro a i ⟨hc, h1, h2⟩
    have hc : a ∈ resOps demoTrace ∨ a ∈ deqOps demoTrace := by
      rcases hc with hc | ⟨v, hc⟩
      · exact .inl (mem_resOps.2 ⟨_, hc⟩)
      · exact .inr (mem_deqOps.2 ⟨_, _, hc⟩)
    rw [show resOps demoTrace = [0, 1, 3] by decide, show deqOps demoTrace = [2, 8, 9] by decide] at hc
    simp only [List.mem_cons, List.not_mem_nil, or_false] at hc
    rcases hc with (rfl | rfl | rfl) | (rfl | rfl | rfl)
    · exact h1 (by simp [Committed, demoTrace])
    · exact h1 (by simp [Committed, demoTrace])
    · exact h1 (by simp [Committed, demoTrace])
    · exact h2 (by simp [Released, demoTrace])
    · exact h2 (by simp [Released, demoTrace])
    · exact h2 (by simp [Released, demoTrace])

/-! ### C16 -/

theorem runActs_append (cap : Nat) (s : State w V) (l1 l2 : List (Act V)) :
    runActs cap s (l1 ++ l2) = match runActs cap s l1 with
      | none => none
      | some (s1, e1) => match runActs cap s1 l2 with
        | none => none
        | some (s2, e2) => some (s2, e1 ++ e2) := by
  induction l1 generalizing s with
  | nil => simp only [List.nil_append, runActs]; cases runActs cap s l2 <;> simp
  | cons x l1 ih =>
    simp only [List.cons_append, runActs]
    cases step cap s x with
    | none => rfl
    | some r =>
      obtain ⟨s1, e1⟩ := r
      simp only [ih]
      cases runActs cap s1 l1 with
      | none => rfl
      | some r2 =>
        obtain ⟨s2, e2⟩ := r2
        simp only
        cases runActs cap s2 l2 with
        | none => rfl
        | some r3 => simp

/-- A program counter set closed under silent own steps is never left. -/
theorem solo_forever {P : PC w → Prop} {s : State w V} {a : OpId}
    (hstep : ∀ pc, P pc → ∃ pc', P pc' ∧ step cap (s.goto a pc) (.run a) = some (s.goto a pc', []))
    (pc : PC w) (hpc : P pc) (k : Nat) :
    ∃ pc', P pc' ∧ runActs cap (s.goto a pc) (List.replicate k (.run a)) = some (s.goto a pc', []) := by
  induction k generalizing pc with
  | zero => exact ⟨pc, hpc, rfl⟩
  | succ k ih =>
    obtain ⟨pc1, h1, h2⟩ := hstep pc hpc
    obtain ⟨pc2, h3, h4⟩ := ih pc1 h1
    exact ⟨pc2, h3, by simp [List.replicate_succ, runActs, h2, h4]⟩

/-- **C16** is false for push, and this is exactly when: if the queue is open and the slot that the
next push needs is held by some operation (a pop `Ref` of the previous lap, or, when the
queue is full, the push `Ref` of the oldest element), a push that runs alone never returns, whatever number
`k` of steps it is given. -/
theorem C16_push_hangs (h : Run w cap tr s) {a : OpId} (ha : ¬ Invoked tr a) (hc : ¬ Closed tr)
    (hh : ∃ b, Holds tr b (nRes tr % cap)) (k : Nat) :
    ∃ s', runActs cap s (soloActs a .push k) = some (s', [.invoke a .push]) := by
  have hi := h.inv
  have hw := h.sized
  have htail := h.tail_open hc
  have key : ∃ P : PC w → Prop, P .pushStart ∧ ∀ pc, P pc → ∃ pc', P pc' ∧
      step cap (s.goto a pc) (.run a) = some (s.goto a pc', []) := by
    by_cases hf : nRes tr < nDeq tr + cap
    · rcases h.slot_room hf with ⟨h1, _⟩ | ⟨_, hge, hst⟩
      · exact absurd hh h1
      · refine ⟨fun pc => pc = .pushStart ∨ (∃ b, pc = .pushLoop b (enc w cap (nRes tr))) ∨
          (∃ b, pc = .pushHead b (enc w cap (nRes tr))) ∨ (∃ b, pc = .pushReload b), .inl rfl, ?_⟩
        rintro pc (rfl | ⟨b, rfl⟩ | ⟨b, rfl⟩ | ⟨b, rfl⟩)
        · exact ⟨_, .inr (.inl ⟨.new, rfl⟩), by simp [step, runStep, htail]⟩
        · refine ⟨_, .inr (.inr (.inl ⟨b, rfl⟩)), ?_⟩
          simp only [step, runStep, goto_pc_self']
          rw [pushLoop_prev hw (P := nRes tr - cap) (by omega) (by simpa using hst), goto_goto]
        · refine ⟨_, .inr (.inr (.inr ⟨b.spin, rfl⟩)), ?_⟩
          simp only [step, runStep, goto_pc_self']
          rw [pushHead_not_full hw (H := nDeq tr) (by simpa using hi.head) hf hi.le, goto_goto]
        · exact ⟨_, .inr (.inl ⟨b, rfl⟩), by simp [step, runStep, htail]⟩
    · have hf' : nRes tr = nDeq tr + cap := by have := hi.ge; omega
      have hm : nRes tr % cap = nDeq tr % cap := by rw [hf']; simp
      rcases h.slot_queued (p := nDeq tr) (Nat.le_refl _) (by have := hw.1; omega) with ⟨h1, _⟩ | ⟨_, hst⟩
      · rw [← hm] at h1; exact absurd hh h1
      · rw [← hm] at hst
        refine ⟨fun pc => pc = .pushStart ∨ (∃ b, pc = .pushLoop b (enc w cap (nRes tr))) ∨
          (∃ b, pc = .pushReload b), .inl rfl, ?_⟩
        rintro pc (rfl | ⟨b, rfl⟩ | ⟨b, rfl⟩)
        · exact ⟨_, .inr (.inl ⟨.new, rfl⟩), by simp [step, runStep, htail]⟩
        · refine ⟨_, .inr (.inr ⟨b.spinYield, rfl⟩), ?_⟩
          simp only [step, runStep, goto_pc_self']
          rw [pushLoop_other hw (P := nDeq tr) hf' (by simpa using hst), goto_goto]
        · exact ⟨_, .inr (.inl ⟨b, rfl⟩), by simp [step, runStep, htail]⟩
  obtain ⟨P, h0, hstep⟩ := key
  obtain ⟨pc', _, hr⟩ := solo_forever hstep _ h0 k
  refine ⟨s.goto a pc', ?_⟩
  simp only [soloActs, runActs, step, h.idle ha, if_true, startPC]
  rw [hr]; rfl

/-- **C16** is false for pop, and this is exactly when: if the queue is empty and the slot of the
next element is held by some operation (the pop `Ref` of the previous lap), a pop that runs alone never returns.
This is so even if the queue is closed. -/
theorem C16_pop_hangs (h : Run w cap tr s) {a : OpId} (ha : ¬ Invoked tr a) (he : IsEmpty tr)
    (hh : ∃ b, Holds tr b (nDeq tr % cap)) (k : Nat) :
    ∃ s', runActs cap s (soloActs a .pop k) = some (s', [.invoke a .pop]) := by
  have hi := h.inv
  have hw := h.sized
  have he' : nRes tr = nDeq tr := he
  rcases h.slot_room (by have := hw.1; omega) with ⟨h1, _⟩ | ⟨_, hge, hst⟩
  · rw [he'] at h1; exact absurd hh h1
  · rw [he'] at hst hge
    have hstep : ∀ pc, (pc = .popStart ∨ (∃ b, pc = .popLoop b (enc w cap (nDeq tr))) ∨
        (∃ b, pc = .popReload b)) → ∃ pc', (pc' = .popStart ∨
        (∃ b, pc' = .popLoop b (enc w cap (nDeq tr))) ∨ (∃ b, pc' = .popReload b)) ∧
        step cap (s.goto a pc) (.run a) = some (s.goto a pc', []) := by
      rintro pc (rfl | ⟨b, rfl⟩ | ⟨b, rfl⟩)
      · exact ⟨_, .inr (.inl ⟨.new, rfl⟩), by simp [step, runStep, hi.head]⟩
      · refine ⟨_, .inr (.inr ⟨b.spinYield, rfl⟩), ?_⟩
        simp only [step, runStep, goto_pc_self']
        rw [popLoop_prev hw (P := nDeq tr - cap) (by omega) (by simpa using hst), goto_goto]
      · exact ⟨_, .inr (.inl ⟨b, rfl⟩), by simp [step, runStep, hi.head]⟩
    obtain ⟨pc', _, hr⟩ := solo_forever hstep _ (.inl rfl) k
    refine ⟨s.goto a pc', ?_⟩
    simp only [soloActs, runActs, step, h.idle ha, if_true, startPC]
    rw [hr]; rfl

/-- **C16** (partial): in every other situation a push returns within three of its own steps (plus the call of
`new_element`/`recycle`), whatever else is in progress.  Missing: the situation of
`C16_push_hangs`, where the property is false. -/
theorem C16_push_returns_partial (h : Run w cap tr s) {a : OpId} (ha : ¬ Invoked tr a)
    (hh : Closed tr ∨ ¬ ∃ b, Holds tr b (nRes tr % cap)) (v : V) :
    ∃ acts s' evs r, (acts = soloActs a .push 2 ∨ acts = soloActs a .push 3 ∨
        acts = soloActs a .push 3 ++ [.elem a v]) ∧
      runActs cap s acts = some (s', evs) ∧ Event.ret a r ∈ evs ∧ r ≠ .panicked := by
  by_cases hc : Closed tr
  · obtain ⟨s', hr⟩ := h.solo_push_closed ha hc
    exact ⟨_, s', _, .closed, .inl rfl, hr, by simp, by simp⟩
  · have hh := hh.resolve_left hc
    by_cases hf : nRes tr < nDeq tr + cap
    · obtain ⟨s', acc, hr⟩ := h.solo_push_ok ha hc hf hh v
      exact ⟨_, s', _, .pushed, .inr (.inr rfl), hr, by simp, by simp⟩
    · obtain ⟨s', hr⟩ := h.solo_push_full ha hc (by have := h.inv.ge; omega) hh
      exact ⟨_, s', _, .full, .inr (.inl rfl), hr, by simp, by simp⟩

/-- A pop on a queue whose oldest element is still being written gives up after 12 steps. -/
theorem Run.solo_pop_uncommitted (h : Run w cap tr s) {a : OpId} (ha : ¬ Invoked tr a)
    (hne : nDeq tr < nRes tr) (hh : ∃ b, Holds tr b (nDeq tr % cap)) :
    ∃ s', runActs cap s (soloActs a .pop 12) = some (s', [.invoke a .pop, .ret a .empty]) := by
  have hst : s.st (nDeq tr % cap) = enc w cap (nDeq tr) := by
    rcases h.slot_queued (Nat.le_refl _) hne with ⟨h1, _⟩ | ⟨_, h1⟩
    · exact absurd hh h1
    · exact h1
  have hl : ∀ b pc, popLoop (Params.new w cap) cap (s.goto a pc) a b (enc w cap (nDeq tr)) =
      ((s.goto a pc).goto a (.popTail b (enc w cap (nDeq tr))), []) := fun b pc =>
    popLoop_free h.sized (by simpa using hst)
  have ht : ∀ b pc, popTail (Params.new w cap) (s.goto a pc) a b (enc w cap (nDeq tr)) = _ := fun b pc =>
    popTail_busy (s := s.goto a pc) (a := a) (b := b) h.sized h.inv.tail hne h.inv.ge
  have d0 : Backoff.new.doneSpinning = false := rfl
  have d1 : Backoff.new.spin.doneSpinning = false := rfl
  have d2 : Backoff.new.spin.spin.doneSpinning = false := rfl
  have d3 : Backoff.new.spin.spin.spin.doneSpinning = true := rfl
  refine ⟨s.goto a .done, ?_⟩
  simp only [runActs, soloActs, List.replicate, step, runStep, h.idle ha, startPC, if_true,
    List.nil_append, goto_goto, goto_pc_self', goto_head, h.inv.head, hl, ht, d0, d1, d2, d3,
    Bool.false_eq_true, if_false, List.cons_append]

/-- **C16** (partial): in every other situation a pop returns within 12 of its own steps.  Missing: the
situation of `C16_pop_hangs`, where the property is false. -/
theorem C16_pop_returns_partial (h : Run w cap tr s) {a : OpId} (ha : ¬ Invoked tr a)
    (hh : ¬ IsEmpty tr ∨ ¬ ∃ b, Holds tr b (nDeq tr % cap)) :
    ∃ k s' evs r, k ≤ 12 ∧ runActs cap s (soloActs a .pop k) = some (s', evs) ∧ Event.ret a r ∈ evs := by
  by_cases he : IsEmpty tr
  · obtain ⟨s', hr⟩ := h.solo_pop_empty ha he (hh.resolve_left (fun h => h he))
    exact ⟨3, s', _, _, by omega, hr, by simp; rfl⟩
  · have hlt : nDeq tr < nRes tr := by
      have := h.inv.le
      unfold IsEmpty at he
      omega
    by_cases hb : ∃ b, Holds tr b (nDeq tr % cap)
    · obtain ⟨s', hr⟩ := h.solo_pop_uncommitted ha hlt hb
      exact ⟨12, s', _, _, by omega, hr, by simp; rfl⟩
    · obtain ⟨s', hr⟩ := h.solo_pop_ok ha hlt hb
      exact ⟨3, s', _, .popped, by omega, hr, by simp⟩

/-- Concrete hang 1: capacity 1, the caller holds the `Ref` of its own `push_ref` and calls `push_ref`
again. -/
theorem C16_hang_own_push : ∃ (tr : Trace Nat) (s : State 8 Nat), Run 8 1 tr s ∧ (∀ a, ¬ Pending tr a) ∧
    ∀ k, ∃ s', runActs 1 s (soloActs 1 .push k) = some (s', [.invoke 1 .push]) := by
  obtain ⟨s, hs⟩ := Run.of_acts (w := 8) (cap := 1) (V := Nat) (by decide) (pushActs 0 10)
    [.invoke 0 .push, .reserve 0 0, .access 0 0 (.create 10), .ret 0 .pushed] (by decide +kernel)
    (by decide +kernel)
  refine ⟨_, s, hs, ?_, C16_push_hangs hs (by simp [Invoked]) (by simp [Closed]) ⟨0, .inl ?_, ?_, ?_⟩⟩
  · rintro a ⟨⟨op, hop⟩, hr⟩
    simp at hop
    obtain ⟨rfl, rfl⟩ := hop
    exact hr ⟨.pushed, by simp⟩
  · simp [nRes, resOps]
  · simp [Committed]
  · simp [Released]

/-- Concrete hang 2: capacity 1, one element pushed and its pop `Ref` still held: both another pop and
another push hang, even though the queue is empty. -/
theorem C16_hang_held_pop : ∃ (tr : Trace Nat) (s : State 8 Nat), Run 8 1 tr s ∧ IsEmpty tr ∧
    (∀ a, ¬ Pending tr a) ∧
    (∀ k, ∃ s', runActs 1 s (soloActs 2 .push k) = some (s', [.invoke 2 .push])) ∧
    (∀ k, ∃ s', runActs 1 s (soloActs 2 .pop k) = some (s', [.invoke 2 .pop])) := by
  obtain ⟨s, hs⟩ := Run.of_acts (w := 8) (cap := 1) (V := Nat) (by decide)
    (pushActs 0 10 ++ [.dropRef 0] ++ popActs 1)
    [.invoke 0 .push, .reserve 0 0, .access 0 0 (.create 10), .ret 0 .pushed, .commit 0 0 (some 10),
     .invoke 1 .pop, .dequeue 1 0 (some 10), .ret 1 .popped] (by decide +kernel)
    (by decide +kernel)
  have hh : ∃ b, Holds [Event.invoke 0 .push, .reserve 0 0, .access 0 0 (.create 10), .ret 0 .pushed,
     .commit 0 0 (some 10), .invoke 1 .pop, .dequeue 1 0 (some 10), .ret 1 .popped] b 0 :=
    ⟨1, .inr ⟨some 10, by simp⟩, by simp [Committed], by simp [Released]⟩
  refine ⟨_, s, hs, by simp [IsEmpty, nRes, nDeq, resOps, deqOps], ?_,
    C16_push_hangs hs (by simp [Invoked]) (by simp [Closed]) ?_,
    C16_pop_hangs hs (by simp [Invoked]) (by simp [IsEmpty, nRes, nDeq, resOps, deqOps]) ?_⟩
  · rintro a ⟨⟨op, hop⟩, hr⟩
    simp at hop
    rcases hop with ⟨rfl, rfl⟩ | ⟨rfl, rfl⟩
    · exact hr ⟨.pushed, by simp⟩
    · exact hr ⟨.popped, by simp⟩
  · simpa [nRes, resOps] using hh
  · simpa [nDeq, deqOps] using hh

end Thingbuf
