/-
Recycling policies (/repo/src/recycling.rs): C41.

The collections of `alloc`/`std` are not part of the repository; they enter as the documented
contract of the four functions that the policy calls.
-/
namespace Thingbuf

/-- The documented contract of a growable collection: `with_capacity`, `clear`, `shrink_to`, `len` and
`capacity` of `Vec`, `String`, `VecDeque`, `BinaryHeap`, `HashMap`, `HashSet`. Called by /repo/src/recycling.rs
lines 396-490; the collections themselves are not in /repo. -/
structure Collection (C : Type) where
  len : C → Nat
  capacity : C → Nat
  withCapacity : Nat → C
  clear : C → C
  shrinkTo : C → Nat → C
  /-- the capacity a collection may end up with when it is asked to shrink to `n` (allocation
  granularity); the identity for `Vec` -/
  granule : Nat → Nat
  len_withCapacity : ∀ n, len (withCapacity n) = 0
  le_withCapacity : ∀ n, n ≤ capacity (withCapacity n)
  len_clear : ∀ c, len (clear c) = 0
  capacity_clear : ∀ c, capacity (clear c) = capacity c
  len_shrinkTo : ∀ c n, len (shrinkTo c n) = len c
  /-- "If the current capacity is less than the lower limit, this is a no-op." -/
  shrinkTo_noop : ∀ c n, capacity c ≤ n → capacity (shrinkTo c n) = capacity c
  shrinkTo_le : ∀ c n, capacity (shrinkTo c n) ≤ capacity c
  /-- "The capacity will remain at least as large as both the length and the supplied value." -/
  shrinkTo_ge : ∀ c n, n ≤ capacity c → max (len c) n ≤ capacity (shrinkTo c n)
  shrinkTo_granule : ∀ c n, n ≤ capacity c → capacity (shrinkTo c n) ≤ max n (granule (max (len c) n))

/-- `WithCapacity` (/repo/src/recycling.rs lines 187-191). -/
structure WithCapacity where
  min : Nat
  max : Nat
deriving DecidableEq, Repr

namespace WithCapacity

/-- `WithCapacity::new` (/repo/src/recycling.rs lines 235-240), for words of `w` bits. -/
def new (w : Nat) : WithCapacity := { max := 2 ^ w - 1, min := 0 }

/-- /repo/src/recycling.rs lines 280-282. -/
def withMaxCapacity (r : WithCapacity) (max : Nat) : WithCapacity := { r with max := max }

/-- /repo/src/recycling.rs lines 317-319. -/
def withMinCapacity (r : WithCapacity) (min : Nat) : WithCapacity := { r with min := min }

/-- /repo/src/recycling.rs lines 346-348. -/
def minCapacity (r : WithCapacity) : Nat := r.min

/-- /repo/src/recycling.rs lines 377-379. -/
def maxCapacity (r : WithCapacity) : Nat := r.max

variable {C : Type}

/-- `new_element` of the six implementations (/repo/src/recycling.rs lines 412-489). -/
def newElement (r : WithCapacity) (K : Collection C) : C := K.withCapacity r.min

/-- `recycle` of the six implementations (/repo/src/recycling.rs lines 412-489). -/
def recycle (r : WithCapacity) (K : Collection C) (c : C) : C := K.shrinkTo (K.clear c) r.max

end WithCapacity

/-- `recycling::take` (/repo/src/recycling.rs lines 196-201): what the caller gets and what stays in the
slot. -/
def take {T : Type} (element : T) (newElement : T) : T × T := (element, newElement)

/-- `DefaultRecycle` (/repo/src/recycling.rs lines 210-221): `new_element`. -/
def defaultNewElement {T : Type} (dflt : T) : T := dflt

/-- `DefaultRecycle` (/repo/src/recycling.rs lines 210-221): `recycle`, with `clone_from` given as a function
on (old, source). -/
def defaultRecycle {T : Type} (cloneFrom : T → T → T) (dflt : T) (old : T) : T := cloneFrom old dflt

/-- **C41** For every collection that obeys its documented contract and every policy:
* a new element is empty with at least `min` capacity;
* a recycled element is empty, keeps its capacity exactly if that was at most `max`, never grows,
  and ends with at most `max` (up to the collection's allocation granularity for `max`). -/
theorem C41_with_capacity {C : Type} (K : Collection C) (r : WithCapacity) :
    (K.len (r.newElement K) = 0 ∧ r.min ≤ K.capacity (r.newElement K)) ∧
    ∀ c, K.len (r.recycle K c) = 0 ∧
      (K.capacity c ≤ r.max → K.capacity (r.recycle K c) = K.capacity c) ∧
      K.capacity (r.recycle K c) ≤ K.capacity c ∧
      K.capacity (r.recycle K c) ≤ max r.max (K.granule r.max) ∧
      (r.max ≤ K.capacity c → r.max ≤ K.capacity (r.recycle K c)) := by
  refine ⟨⟨K.len_withCapacity _, K.le_withCapacity _⟩, fun c => ?_⟩
  unfold WithCapacity.recycle
  have h0 := K.capacity_clear c
  have hl := K.len_clear c
  refine ⟨by rw [K.len_shrinkTo, hl], fun h => ?_, ?_, ?_, fun h => ?_⟩
  · rw [K.shrinkTo_noop _ _ (by omega), h0]
  · have := K.shrinkTo_le (K.clear c) r.max; omega
  · by_cases h : r.max ≤ K.capacity c
    · have := K.shrinkTo_granule (K.clear c) r.max (by omega)
      rw [hl, Nat.zero_max] at this; exact this
    · have := K.shrinkTo_le (K.clear c) r.max; omega
  · have := K.shrinkTo_ge (K.clear c) r.max (by omega); omega

/-- **C41** The setters do not disturb each other, in any order, and the getters return what was set;
by default nothing is bounded. -/
theorem C41_setters (r : WithCapacity) (a b w : Nat) :
    (r.withMaxCapacity a).maxCapacity = a ∧ (r.withMaxCapacity a).minCapacity = r.minCapacity ∧
    (r.withMinCapacity b).minCapacity = b ∧ (r.withMinCapacity b).maxCapacity = r.maxCapacity ∧
    (r.withMaxCapacity a).withMinCapacity b = (r.withMinCapacity b).withMaxCapacity a ∧
    (WithCapacity.new w).minCapacity = 0 ∧ (WithCapacity.new w).maxCapacity = 2 ^ w - 1 := by
  cases r; exact ⟨rfl, rfl, rfl, rfl, rfl, rfl, rfl⟩

/-- A `Vec` as far as the policy can see it: length and capacity. A concrete case. Scaffolding of the model, no
counterpart in the source. -/
structure VecShape where
  len : Nat
  cap : Nat
  le : len ≤ cap

/-- The contract is met by a `Vec` whose `shrink_to` shrinks exactly. A concrete case. Scaffolding of the model, no
counterpart in the source. -/
def vecModel : Collection VecShape where
  len c := c.len
  capacity c := c.cap
  withCapacity n := ⟨0, n, Nat.zero_le _⟩
  clear c := ⟨0, c.cap, Nat.zero_le _⟩
  shrinkTo c n := ⟨c.len, if n < c.cap then max c.len n else c.cap, by have := c.le; split <;> omega⟩
  granule n := n
  len_withCapacity _ := rfl
  le_withCapacity _ := Nat.le_refl _
  len_clear _ := rfl
  capacity_clear _ := rfl
  len_shrinkTo _ _ := rfl
  shrinkTo_noop c n h := if_neg (by omega)
  shrinkTo_le c n := by have := c.le; show (if n < c.cap then max c.len n else c.cap) ≤ c.cap; split <;> omega
  shrinkTo_ge c n h := by
    have := c.le; show _ ≤ (if n < c.cap then max c.len n else c.cap); split <;> omega
  shrinkTo_granule c n h := by
    have := c.le; show (if n < c.cap then max c.len n else c.cap) ≤ _; split <;> omega

example : vecModel.capacity ((WithCapacity.mk 4 8).recycle vecModel ⟨13, 16, by decide⟩) = 8 ∧
    vecModel.capacity ((WithCapacity.mk 4 8).recycle vecModel ⟨5, 6, by decide⟩) = 6 ∧
    vecModel.capacity ((WithCapacity.mk 4 8).newElement vecModel) = 4 := by decide

end Thingbuf
