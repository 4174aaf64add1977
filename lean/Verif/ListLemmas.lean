/-!
# Lists as traces: generic lemmas
-/

namespace Thingbuf

variable {E : Type}

/-- `x` occurs in `tr`, and `y` occurs later. -/
def Before (tr : List E) (x y : E) : Prop := ∃ l1 l2 l3, tr = l1 ++ x :: (l2 ++ y :: l3)

/-- Splitting an appended list at an element. -/
theorem append_split {tr evs pre post : List E} {x : E} (h : tr ++ evs = pre ++ x :: post) :
    (∃ post', post = post' ++ evs ∧ tr = pre ++ x :: post') ∨
    (∃ e1, evs = e1 ++ x :: post ∧ pre = tr ++ e1) := by
  rcases List.append_eq_append_iff.1 h with ⟨l, h1, h2⟩ | ⟨l, h1, h2⟩
  · exact .inr ⟨l, h2, h1⟩
  · cases l with
    | nil => exact .inr ⟨[], by simpa using h2.symm, by simpa using h1.symm⟩
    | cons y l =>
      simp only [List.cons_append, List.cons.injEq] at h2
      obtain ⟨rfl, rfl⟩ := h2
      exact .inl ⟨l, rfl, h1⟩

theorem Before.left {tr : List E} {x y : E} (h : Before tr x y) : x ∈ tr := by
  obtain ⟨l1, l2, l3, rfl⟩ := h; simp

theorem Before.right {tr : List E} {x y : E} (h : Before tr x y) : y ∈ tr := by
  obtain ⟨l1, l2, l3, rfl⟩ := h; simp

theorem Before.append {tr evs : List E} {x y : E} (h : Before tr x y) : Before (tr ++ evs) x y := by
  obtain ⟨l1, l2, l3, rfl⟩ := h
  exact ⟨l1, l2, l3 ++ evs, by simp⟩

theorem before_of_mem {tr : List E} {x y : E} {l : List E} (h : x ∈ tr) (h2 : y ∈ l) : Before (tr ++ l) x y := by
  obtain ⟨l1, l2, rfl⟩ := List.append_of_mem h
  obtain ⟨l3, l4, rfl⟩ := List.append_of_mem h2
  exact ⟨l1, l2 ++ l3, l4, by simp⟩

theorem before_append {tr evs : List E} {x y : E} :
    Before (tr ++ evs) x y ↔ Before tr x y ∨ (x ∈ tr ∧ y ∈ evs) ∨ Before evs x y := by
  constructor
  · rintro ⟨l1, l2, l3, h⟩
    rcases append_split h with ⟨post', h1, h2⟩ | ⟨e1, h1, h2⟩
    · rcases append_split h1.symm with ⟨p, h3, h4⟩ | ⟨e, h3, h4⟩
      · exact .inl ⟨l1, l2, p, by rw [h2, h4]⟩
      · exact .inr (.inl ⟨by simp [h2], by simp [h3]⟩)
    · exact .inr (.inr ⟨e1, l2, l3, h1⟩)
  · rintro (h | ⟨h1, h2⟩ | ⟨l1, l2, l3, rfl⟩)
    · exact h.append
    · exact before_of_mem h1 h2
    · exact ⟨tr ++ l1, l2, l3, by simp⟩

/-- Every event of the list satisfies `P` together with the events before it. -/
def AllOk (P : List E → E → Prop) (tr : List E) : Prop := ∀ pre e post, tr = pre ++ e :: post → P pre e

theorem AllOk.nil {P : List E → E → Prop} : AllOk P [] := by
  intro pre e post h; simp at h

theorem AllOk.snoc {P : List E → E → Prop} {tr : List E} {e : E} (h : AllOk P tr) (he : P tr e) :
    AllOk P (tr ++ [e]) := by
  intro pre x post hx
  rcases append_split hx with ⟨post', h1, h2⟩ | ⟨e1, h1, h2⟩
  · exact h _ _ _ h2
  · cases e1 with
    | nil => simp at h1; rw [h2, h1.1.symm]; simpa using he
    | cons y l => simp at h1

theorem AllOk.append2 {P : List E → E → Prop} {tr : List E} {e e' : E} (h : AllOk P tr) (he : P tr e)
    (he' : P (tr ++ [e]) e') : AllOk P (tr ++ [e, e']) := by
  have := (h.snoc he).snoc he'
  simpa using this

theorem AllOk.append3 {P : List E → E → Prop} {tr : List E} {e e' e'' : E} (h : AllOk P tr) (he : P tr e)
    (he' : P (tr ++ [e]) e') (he'' : P (tr ++ [e, e']) e'') : AllOk P (tr ++ [e, e', e'']) := by
  have := (h.append2 he he').snoc he''
  simpa using this

theorem AllOk.prefix {P : List E → E → Prop} {tr pre : List E} (h : AllOk P tr) (hp : pre <+: tr) : AllOk P pre := by
  obtain ⟨t, rfl⟩ := hp
  intro p e q hq
  exact h p e (q ++ t) (by simp [hq])

/-- The last occurrence of an element that satisfies `p`. -/
theorem exists_last {p : E → Prop} {tr : List E} (h : ∃ x ∈ tr, p x) :
    ∃ pre x post, tr = pre ++ x :: post ∧ p x ∧ ∀ y ∈ post, ¬ p y := by
  induction tr with
  | nil => simp at h
  | cons a l ih =>
    by_cases hl : ∃ x ∈ l, p x
    · obtain ⟨pre, x, post, rfl, h1, h2⟩ := ih hl
      exact ⟨a :: pre, x, post, rfl, h1, h2⟩
    · obtain ⟨x, hx, hpx⟩ := h
      rcases List.mem_cons.1 hx with rfl | hx
      · exact ⟨[], x, l, rfl, hpx, fun y hy hp => hl ⟨y, hy, hp⟩⟩
      · exact absurd ⟨x, hx, hpx⟩ hl

/-- Induction on the last element. -/
theorem snoc_induction {P : List E → Prop} (nil : P []) (snoc : ∀ l a, P l → P (l ++ [a])) (l : List E) :
    P l := by
  have key : ∀ l : List E, P l.reverse := by
    intro l
    induction l with
    | nil => simpa using nil
    | cons a l ih => simpa using snoc _ a ih
  simpa using key l.reverse

/-- Two elements next to each other in a filtered list, back in the list itself. -/
theorem filter_split {p : E → Bool} {tr A B : List E} {x : E} (h : tr.filter p = A ++ x :: B) :
    ∃ l1 l2, tr = l1 ++ x :: l2 ∧ l1.filter p = A ∧ l2.filter p = B ∧ p x = true := by
  induction tr generalizing A with
  | nil => simp at h
  | cons a l ih =>
    rw [List.filter_cons] at h
    split at h
    · rename_i ha
      cases A with
      | nil =>
        simp only [List.nil_append, List.cons.injEq] at h
        obtain ⟨rfl, rfl⟩ := h
        exact ⟨[], l, rfl, rfl, rfl, ha⟩
      | cons b A =>
        simp only [List.cons_append, List.cons.injEq] at h
        obtain ⟨rfl, h⟩ := h
        obtain ⟨l1, l2, rfl, h1, h2, h3⟩ := ih h
        exact ⟨a :: l1, l2, rfl, by simp [ha, h1], h2, h3⟩
    · rename_i ha
      obtain ⟨l1, l2, rfl, h1, h2, h3⟩ := ih h
      exact ⟨a :: l1, l2, rfl, by simp [ha, h1], h2, h3⟩

end Thingbuf
