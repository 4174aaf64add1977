import Verif.Cell
import Verif.ListLemmas

/-!
# Specification vocabulary for the wait cell

Only events are mentioned here, never the state of the model.
-/

namespace Thingbuf.Cell

variable {W : Type}

/-- The operation has been called. -/
def Called (tr : Trace W) (a : OpId) : Prop := .callWait a ∈ tr ∨ ∃ c, .callNotify a c ∈ tr

/-- The operation has returned, or panicked. -/
def Returned (tr : Trace W) (a : OpId) : Prop :=
  (∃ r, .retWait a r ∈ tr) ∨ (∃ b, .retNotify a b ∈ tr) ∨ .assertFailed a ∈ tr

/-- Every operation that has been called has returned. -/
def Quiescent (tr : Trace W) : Prop := ∀ a, Called tr a → Returned tr a

/-- There is one receiver: `wait_with` is only called after all earlier calls of it have returned. -/
def OneRx (tr : Trace W) : Prop :=
  ∀ pre a post, tr = pre ++ .callWait a :: post → ∀ b, .callWait b ∈ pre → Returned pre b

/-- The number of accesses to the stored waker begun, and ended. -/
def accBegun (tr : Trace W) : Nat := tr.countP fun | .accBegin _ => true | _ => false
def accEnded (tr : Trace W) : Nat := tr.countP fun | .accEnd _ => true | _ => false

/-- The operation an event belongs to. -/
def Event.op : Event W → OpId
  | .callWait a | .mk a _ | .mkPanic a | .accBegin a | .accEnd a | .wake a _ | .register a _ | .retWait a _
  | .callNotify a _ | .signal a _ | .retNotify a _ | .assertFailed a => a

/-- The events of operation `a`. -/
def mine (tr : Trace W) (a : OpId) : Trace W := tr.filter fun e => e.op == a

end Thingbuf.Cell
