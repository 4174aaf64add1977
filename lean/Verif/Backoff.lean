/-
`Backoff` (/repo/src/util.rs lines 9-72): the bounded exponential backoff counter.
-/
namespace Thingbuf

/-- `Backoff(u8)` (/repo/src/util.rs line 9).  The `u8` is a `Nat`; that it never exceeds a `u8` is
`C42_backoff_bounded`. -/
structure Backoff where
  n : Nat
deriving DecidableEq, Repr

namespace Backoff

/-- /repo/src/util.rs line 24. -/
def maxSpins : Nat := 3

/-- /repo/src/util.rs line 25. -/
def maxYields : Nat := 6

/-- `Backoff::new` (/repo/src/util.rs lines 27-29). -/
def new : Backoff := ⟨0⟩

/-- `Backoff::spin` (/repo/src/util.rs lines 32-47); the busy-wait loop itself has no effect on
memory and is not modelled, its iteration count is `spinIters`. -/
def spin (b : Backoff) : Backoff := if b.n ≤ maxSpins then ⟨b.n + 1⟩ else b

/-- The number of `spin_loop` hints issued by `spin` (/repo/src/util.rs line 34). -/
def spinIters (b : Backoff) : Nat := 1 <<< (min b.n maxSpins)

/-- `Backoff::spin_yield` (/repo/src/util.rs lines 50-67). -/
def spinYield (b : Backoff) : Backoff := if b.n ≤ maxYields then ⟨b.n + 1⟩ else b

/-- The number of `spin_loop` hints issued by `spin_yield` (/repo/src/util.rs lines 51-58);
`std` says whether the `std` feature is on. -/
def spinYieldIters (std : Bool) (b : Backoff) : Nat :=
  if b.n ≤ maxSpins ∨ std = false then 1 <<< b.n else 0

/-- `Backoff::done_spinning` (/repo/src/util.rs lines 69-71). -/
def doneSpinning (b : Backoff) : Bool := maxSpins ≤ b.n

end Backoff
end Thingbuf
