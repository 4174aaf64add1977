import Verif.Core
/-
Lemmas about the trace vocabulary of `Verif/Spec.lean`.
-/
namespace Thingbuf

variable {V : Type}

/-- The operation an event belongs to. -/
def Event.actor : Event V → OpId
  | .invoke a _ => a
  | .reserve a _ => a
  | .dequeue a _ _ => a
  | .access a _ _ => a
  | .commit a _ _ => a
  | .release a _ _ => a
  | .close a => a
  | .ret a _ => a

@[simp] theorem resOps_nil : resOps ([] : Trace V) = [] := rfl
@[simp] theorem deqOps_nil : deqOps ([] : Trace V) = [] := rfl
@[simp] theorem resOps_append (t u : Trace V) : resOps (t ++ u) = resOps t ++ resOps u := by
  simp [resOps]
@[simp] theorem deqOps_append (t u : Trace V) : deqOps (t ++ u) = deqOps t ++ deqOps u := by
  simp [deqOps]
@[simp] theorem deqVals_append (t u : Trace V) : deqVals (t ++ u) = deqVals t ++ deqVals u := by
  simp [deqVals]
@[simp] theorem nRes_append (t u : Trace V) : nRes (t ++ u) = nRes t + nRes u := by
  simp [nRes]
@[simp] theorem nDeq_append (t u : Trace V) : nDeq (t ++ u) = nDeq t + nDeq u := by
  simp [nDeq]
@[simp] theorem nRes_nil : nRes ([] : Trace V) = 0 := rfl
@[simp] theorem nDeq_nil : nDeq ([] : Trace V) = 0 := rfl

theorem mem_resOps {tr : Trace V} {a : OpId} : a ∈ resOps tr ↔ ∃ i, Event.reserve a i ∈ tr := by
  unfold resOps
  rw [List.mem_filterMap]
  constructor
  · rintro ⟨e, he, h⟩
    cases e <;> simp_all
    exact ⟨_, he⟩
  · rintro ⟨i, hi⟩
    exact ⟨_, hi, rfl⟩

theorem mem_deqOps {tr : Trace V} {a : OpId} :
    a ∈ deqOps tr ↔ ∃ i v, Event.dequeue a i v ∈ tr := by
  unfold deqOps
  rw [List.mem_filterMap]
  constructor
  · rintro ⟨e, he, h⟩
    cases e <;> simp_all
    exact ⟨_, _, he⟩
  · rintro ⟨i, v, hi⟩
    exact ⟨_, hi, rfl⟩

theorem Invoked.append {t u : Trace V} {a : OpId} : Invoked (t ++ u) a ↔ Invoked t a ∨ Invoked u a := by
  simp [Invoked, exists_or]
theorem Returned.append {t u : Trace V} {a : OpId} :
    Returned (t ++ u) a ↔ Returned t a ∨ Returned u a := by
  simp [Returned, exists_or]
theorem Committed.append {t u : Trace V} {a : OpId} :
    Committed (t ++ u) a ↔ Committed t a ∨ Committed u a := by
  simp [Committed, exists_or]
theorem Released.append {t u : Trace V} {a : OpId} :
    Released (t ++ u) a ↔ Released t a ∨ Released u a := by
  simp [Released, exists_or]
theorem Closed.append {t u : Trace V} : Closed (t ++ u) ↔ Closed t ∨ Closed u := by
  simp [Closed, exists_or]

theorem born_append {t u : Trace V} {a : OpId} (h : Invoked t a) : born a (t ++ u) = born a t := by
  induction t with
  | nil => obtain ⟨_, h⟩ := h; cases h
  | cons e t ih =>
    obtain ⟨op, h⟩ := h
    rw [List.mem_cons] at h
    rcases h with h | h
    · subst h; simp [born]
    · have := ih ⟨op, h⟩
      cases e <;> simp [born, this]

theorem born_le_nRes {t : Trace V} {a : OpId} : born a t ≤ nRes t := by
  induction t with
  | nil => simp [born]
  | cons e t ih =>
    have : nRes (e :: t) = nRes [e] + nRes t := by
      rw [← nRes_append]; rfl
    rw [this]
    cases e
    all_goals simp [born, nRes, resOps] at *
    all_goals try omega
    split <;> omega

theorem born_invoke {t : Trace V} {a : OpId} {op : Op} (h : ¬ Invoked t a) :
    born a (t ++ [.invoke a op]) = nRes t := by
  induction t with
  | nil => simp [born]
  | cons e t ih =>
    have h' : ¬ Invoked t a := fun ⟨op, hm⟩ => h ⟨op, List.mem_cons_of_mem _ hm⟩
    have ih := ih h'
    have : nRes (e :: t) = nRes [e] + nRes t := by
      rw [← nRes_append]; rfl
    rw [this]
    cases e
    case invoke b op' =>
      have hb : b ≠ a := by
        rintro rfl; exact h ⟨op', List.mem_cons_self⟩
      simp [born, hb, ih, nRes, resOps]
    all_goals simp [born, ih, nRes, resOps] at *
    all_goals omega

theorem Pending.append_right {t u : Trace V} {a : OpId} (h : Pending t a)
    (hu : ¬ Returned u a) : Pending (t ++ u) a :=
  ⟨Invoked.append.2 (.inl h.1), fun h' => (Returned.append.1 h').elim h.2 hu⟩

theorem NoStall.mono {w cap : Nat} {t u : Trace V} (h : NoStall w cap (t ++ u)) :
    NoStall w cap t :=
  fun pre hp => h pre (hp.trans (List.prefix_append t u))

theorem NoStall.fresh {w cap : Nat} {t : Trace V} (h : NoStall w cap t) : Fresh w cap t :=
  h t (List.prefix_refl t)

/-- If few enough reservations were made in total, no call can have spanned a period. -/
theorem NoStall.of_few {w cap : Nat} {t : Trace V} (h : nRes t + 2 * cap < period w cap) :
    NoStall w cap t := by
  intro pre ⟨post, hp⟩ a _
  have : nRes t = nRes pre + nRes post := by rw [← hp, nRes_append]
  omega

theorem getElem?_append_of_some {α : Type} {l l' : List α} {i : Nat} {x : α} (h : l[i]? = some x) :
    (l ++ l')[i]? = some x := by
  rw [List.getElem?_append_left]
  · exact h
  · exact (List.getElem?_eq_some_iff.1 h).1

theorem lt_of_getElem?_some {α : Type} {l : List α} {i : Nat} {x : α} (h : l[i]? = some x) :
    i < l.length := (List.getElem?_eq_some_iff.1 h).1

end Thingbuf
