import Verif.RelAcq
/-
The vocabulary of the release/acquire property (C18).
-/
namespace Thingbuf.RA

variable {V : Type}

/-- The slot that an event concerns: it is claimed, its element is accessed, or it is given back. -/
def touched : Event V → Option Nat
  | .reserve _ i | .dequeue _ i _ | .access _ i _ | .commit _ i _ | .release _ i _ => some i
  | _ => none

/-- The operation that an event belongs to. -/
def opOf : Event V → OpId
  | .invoke a _ | .reserve a _ | .dequeue a _ _ | .access a _ _ | .commit a _ _ | .release a _ _
  | .close a | .ret a _ => a

/-- The slot that an event concerns. -/
def XEv.touched : XEv V → Option Nat
  | .core e => RA.touched e
  | .cell _ => none

/-- The operation that an event of the wait cell belongs to. -/
def cellOp : Cell.Event Nat → OpId
  | .callWait a | .mk a _ | .mkPanic a | .accBegin a | .accEnd a | .wake a _ | .register a _ | .retWait a _
  | .callNotify a _ | .signal a _ | .retNotify a _ | .assertFailed a => a

/-- The operation that an event belongs to. -/
def XEv.op : XEv V → OpId
  | .core e => opOf e
  | .cell e => cellOp e

/-- A non-atomic access to the stored waker of the wait cell begins or ends. -/
def wakerEv : Cell.Event Nat → Bool
  | .accBegin _ | .accEnd _ => true
  | _ => false

/-- The event at position `p` happens before the event at position `q`. -/
def HB (tr : List (REv V)) (p q : Nat) : Prop := ∃ e, tr[q]? = some e ∧ p ∈ e.2

/-- The event at position `p` is `e`. -/
def AtX (tr : List (REv V)) (p : Nat) (e : XEv V) : Prop := (tr.map Prod.fst)[p]? = some e

/-- The event at position `p` is the event `e` of the ring buffer. -/
abbrev At (tr : List (REv V)) (p : Nat) (e : Event V) : Prop := AtX tr p (.core e)

instance [DecidableEq V] (tr : List (REv V)) (p : Nat) (e : XEv V) : Decidable (AtX tr p e) :=
  inferInstanceAs (Decidable (_ = _))

/-- There is one receiver: when `wait_with` is called, the returns of all earlier calls of it have happened before. -/
def OneReceiver (tr : List (REv V)) : Prop :=
  ∀ a b p q, p < q → AtX tr p (.cell (.callWait a)) → AtX tr q (.cell (.callWait b)) →
    ∃ n r, AtX tr n (.cell (.retWait a r)) ∧ HB tr n q

/-- Every call to the wait cell has returned. -/
def CellQuiet (tr : List (REv V)) : Prop :=
  (∀ a p, AtX tr p (.cell (.callWait a)) → ∃ q r, AtX tr q (.cell (.retWait a r))) ∧
  (∀ a x p, AtX tr p (.cell (.callNotify a x)) → ∃ q y, AtX tr q (.cell (.retNotify a y)))

end Thingbuf.RA
