/-
Observable events of a ring buffer and the vocabulary in which its properties are stated.

Nothing here mentions the representation (words, slot states, program counters): a reader
can check the property theorems against the English statements with this file alone.

An *operation instance* (`OpId`) is one call of `push_ref`, `pop_ref`, `len` or `close`
together with the lifetime of the `Ref` that the call returns, if any.  Every instance has its own id.
-/
namespace Thingbuf

abbrev OpId := Nat

/-- The calls. `close` carries whether the calling thread is unwinding. -/
inductive Op where
  | push
  | pop
  | len
  | close (panicking : Bool)
deriving DecidableEq, Repr

/-- The ways in which an operation could go wrong: an out-of-bounds unchecked access, an
arithmetic overflow (a panic in debug builds). -/
inductive Crash where
  | oob
  | overflow
deriving DecidableEq, Repr

/-- What a call returns. -/
inductive Ret where
  /-- `push_ref` returned `Ok(Ref)` -/
  | pushed
  /-- `pop_ref` returned `Ok(Ref)` -/
  | popped
  | full
  | empty
  | closed
  | len (n : Nat)
  | closeRet (first : Bool)
  /-- user code (`new_element`/`recycle`) panicked inside the call -/
  | panicked
  | crash (c : Crash)
deriving DecidableEq, Repr

/-- Accesses to the element stored in a slot.  `none` stands for uninitialised memory. -/
inductive Access (V : Type) where
  /-- `Recycle::new_element` produced `v`, which is stored in the slot. -/
  | create (v : V)
  /-- `Recycle::recycle` was called on the content `old` and left `new`. -/
  | recycle (old : Option V) (new : V)
  /-- `Recycle::recycle` was called on the content `old` and panicked. -/
  | recyclePanic (old : Option V)
  /-- the user read through the `Ref` -/
  | read (v : Option V)
  /-- the user wrote through the `Ref` -/
  | write (v : V)
deriving DecidableEq, Repr

/-- Observable events.  `i` is the slot (the address of the element). -/
inductive Event (V : Type) where
  | invoke (a : OpId) (op : Op)
  /-- a push operation reserves the next place in the queue, in slot `i` -/
  | reserve (a : OpId) (i : Nat)
  /-- a pop operation dequeues the oldest element, which sits in slot `i` and is `v` -/
  | dequeue (a : OpId) (i : Nat) (v : Option V)
  | access (a : OpId) (i : Nat) (k : Access V)
  /-- the `Ref` of a push operation is dropped while the element is `v` -/
  | commit (a : OpId) (i : Nat) (v : Option V)
  /-- the `Ref` of a pop operation is dropped while the element is `v` -/
  | release (a : OpId) (i : Nat) (v : Option V)
  /-- the queue is closed by operation `a` -/
  | close (a : OpId)
  | ret (a : OpId) (r : Ret)
deriving DecidableEq, Repr

abbrev Trace (V : Type) := List (Event V)

variable {V : Type}

/-- Push operations in the order of their reservations. -/
def resOps (tr : Trace V) : List OpId :=
  tr.filterMap fun | .reserve a _ => some a | _ => none

/-- Pop operations in the order of their dequeues. -/
def deqOps (tr : Trace V) : List OpId :=
  tr.filterMap fun | .dequeue a _ _ => some a | _ => none

/-- The elements in the order in which they were dequeued. -/
def deqVals (tr : Trace V) : List (Option V) :=
  tr.filterMap fun | .dequeue _ _ v => some v | _ => none

/-- Number of reservations so far. -/
def nRes (tr : Trace V) : Nat := (resOps tr).length

/-- Number of dequeues so far. -/
def nDeq (tr : Trace V) : Nat := (deqOps tr).length

/-- The operation was called. -/
def Invoked (tr : Trace V) (a : OpId) : Prop := ∃ op, Event.invoke a op ∈ tr

/-- The call returned. -/
def Returned (tr : Trace V) (a : OpId) : Prop := ∃ r, Event.ret a r ∈ tr

/-- The call is in progress. -/
def Pending (tr : Trace V) (a : OpId) : Prop := Invoked tr a ∧ ¬ Returned tr a

/-- The queue has been closed. -/
def Closed (tr : Trace V) : Prop := ∃ a, Event.close a ∈ tr

/-- The push operation `a` has dropped its `Ref`. -/
def Committed (tr : Trace V) (a : OpId) : Prop := ∃ i v, Event.commit a i v ∈ tr

/-- The pop operation `a` has dropped its `Ref`. -/
def Released (tr : Trace V) (a : OpId) : Prop := ∃ i v, Event.release a i v ∈ tr

/-- Operation `a` has claimed slot `i` (by reserving or dequeueing it) and has not given it
back: from the claim to the drop of its `Ref`.  A `Ref` that is leaked, or an operation
whose user code panicked before the `Ref` existed, holds the slot forever. -/
def Holds (tr : Trace V) (a : OpId) (i : Nat) : Prop :=
  (Event.reserve a i ∈ tr ∨ ∃ v, Event.dequeue a i v ∈ tr) ∧ ¬ Committed tr a ∧ ¬ Released tr a

/-- The queue contains no element. -/
def IsEmpty (tr : Trace V) : Prop := nRes tr = nDeq tr

/-- The queue has at least one element and the oldest one is still being written: its push
operation has not dropped its `Ref`. -/
def OldestUncommitted (tr : Trace V) : Prop :=
  ∃ a, (resOps tr)[nDeq tr]? = some a ∧ ¬ Committed tr a

/-- How one event changes the element behind the `Ref` of operation `a`. -/
def contentStep (a : OpId) (acc : Option V) : Event V → Option V
  | .dequeue b _ v => if b = a then v else acc
  | .access b _ (.create v) => if b = a then some v else acc
  | .access b _ (.recycle _ v) => if b = a then some v else acc
  | .access b _ (.write v) => if b = a then some v else acc
  | _ => acc

/-- The element behind the `Ref` of operation `a`: what it dequeued, or what `new_element`,
`recycle` or a write through the `Ref` last put there. -/
def content (a : OpId) (tr : Trace V) : Option V := tr.foldl (contentStep a) none

/-- How one event changes what the last consumer of slot `i` left in it. -/
def leftStep (i : Nat) (acc : Option V) : Event V → Option V
  | .release _ j v => if j = i then v else acc
  | _ => acc

/-- What the last consumer of slot `i` left in it (`none`: the slot has had no consumer yet). -/
def lastLeft (i : Nat) (tr : Trace V) : Option V := tr.foldl (leftStep i) none

/-- The value that was in the `Ref` of push operation `a` when it was dropped. -/
def sent (tr : Trace V) (a : OpId) : Option V :=
  tr.findSome? fun | .commit b _ v => if b = a then v else none | _ => none

/-- The slots in which `Recycle::new_element` stored an element, in order. -/
def createdSlots (tr : Trace V) : List Nat :=
  tr.filterMap fun | .access _ i (.create _) => some i | _ => none

/-- The calls of `new_element` or `recycle` made on behalf of operation `a`. -/
def inits (a : OpId) (tr : Trace V) : List (Access V) :=
  tr.filterMap fun
    | .access b _ (.create v) => if b = a then some (.create v) else none
    | .access b _ (.recycle o v) => if b = a then some (.recycle o v) else none
    | .access b _ (.recyclePanic o) => if b = a then some (.recyclePanic o) else none
    | _ => none

/-- Number of reservations made before operation `a` was called. -/
def born (a : OpId) : Trace V → Nat
  | [] => 0
  | e :: tr => match e with
    | .invoke b _ => if b = a then 0 else born a tr
    | .reserve _ _ => born a tr + 1
    | _ => born a tr

end Thingbuf
