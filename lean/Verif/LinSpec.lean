import Verif.Spec
/-
Specification for C58: the queue as a sequential object, and what it means that a concurrent history is
linearizable with respect to it. Nothing here refers to the model of the code.
-/
namespace Thingbuf

/-- One operation of the sequential queue, with its result. Scaffolding of the model, no counterpart in the source. -/
inductive Label (V : Type) where
  /-- `push_ref` returns a `Ref` (or the user's code for the new element panics) -/
  | push (a : OpId)
  /-- `push_ref` returns `Full` -/
  | full (a : OpId)
  /-- `push_ref` returns `Closed` -/
  | pushClosed (a : OpId)
  /-- the `Ref` of the push `a` is dropped, with the element `v` in it -/
  | publish (a : OpId) (v : V)
  /-- `pop_ref` returns a `Ref` to the element `v` -/
  | pop (a : OpId) (v : V)
  /-- `pop_ref` returns `Empty` -/
  | empty (a : OpId)
  /-- `pop_ref` returns `Closed` -/
  | popClosed (a : OpId)
  /-- `len` returns `n` -/
  | len (a : OpId) (n : Nat)
  /-- `close` returns `b` -/
  | close (a : OpId) (b : Bool)
  /-- `close` called by a panicking thread returns `false` -/
  | closePanicking (a : OpId)

/-- The sequential queue: its elements, oldest first, and whether it is closed. An element is `none` until the
`Ref` of its push is dropped. Scaffolding of the model, no counterpart in the source. -/
structure Abs (V : Type) where
  items : List (OpId × Option V)
  closed : Bool

section
variable {V : Type}

/-- The new queue. Scaffolding of the model, no counterpart in the source. -/
def Abs.init : Abs V := ⟨[], false⟩

/-- The sequential queue of capacity `cap` performs one operation. Two of its rules are weaker than one might wish:
a pop may say `Empty` when the oldest element is not published yet (even if later ones are; C04 shows that the code
does), and `len` of a closed queue may be wrong (it is). Scaffolding of the model, no counterpart in the source. -/
inductive Abs.Step (cap : Nat) : Abs V → Label V → Abs V → Prop where
  | push {q : Abs V} {a : OpId} : q.closed = false → q.items.length < cap →
      Step cap q (.push a) { q with items := q.items ++ [(a, none)] }
  | full {q : Abs V} {a : OpId} : q.closed = false → q.items.length = cap → Step cap q (.full a) q
  | pushClosed {q : Abs V} {a : OpId} : q.closed = true → Step cap q (.pushClosed a) q
  | publish {l₁ l₂ : List (OpId × Option V)} {c : Bool} {a : OpId} {v : V} :
      Step cap ⟨l₁ ++ (a, none) :: l₂, c⟩ (.publish a v) ⟨l₁ ++ (a, some v) :: l₂, c⟩
  | pop {b : OpId} {rest : List (OpId × Option V)} {c : Bool} {a : OpId} {v : V} :
      Step cap ⟨(b, some v) :: rest, c⟩ (.pop a v) ⟨rest, c⟩
  | empty {a : OpId} : Step cap ⟨[], false⟩ (.empty a) ⟨[], false⟩
  | emptyUnpublished {b : OpId} {rest : List (OpId × Option V)} {c : Bool} {a : OpId} :
      Step cap ⟨(b, none) :: rest, c⟩ (.empty a) ⟨(b, none) :: rest, c⟩
  | popClosed {a : OpId} : Step cap ⟨[], true⟩ (.popClosed a) ⟨[], true⟩
  | len {q : Abs V} {a : OpId} {n : Nat} : n ≤ cap → (q.closed = false → n = q.items.length) → Step cap q (.len a n) q
  | close {q : Abs V} {a : OpId} : Step cap q (.close a (!q.closed)) { q with closed := true }
  | closePanicking {q : Abs V} {a : OpId} : Step cap q (.closePanicking a) q

/-- The sequential queue performs a sequence of operations. Scaffolding of the model, no counterpart in the source. -/
inductive Abs.Steps (cap : Nat) : Abs V → List (Label V) → Abs V → Prop where
  | nil {q : Abs V} : Steps cap q [] q
  | cons {q q₁ q₂ : Abs V} {l : Label V} {ls : List (Label V)} : Abs.Step cap q l q₁ → Steps cap q₁ ls q₂ →
      Steps cap q (l :: ls) q₂

/-- The call that an operation of the sequential queue stands for, and what was called (`none`: the drop of a
`Ref`). Scaffolding of the model, no counterpart in the source. -/
def Label.call : Label V → Option (OpId × Op)
  | .push a | .full a | .pushClosed a => some (a, .push)
  | .pop a _ | .empty a | .popClosed a => some (a, .pop)
  | .len a _ => some (a, .len)
  | .close a _ => some (a, .close false)
  | .closePanicking a => some (a, .close true)
  | .publish _ _ => none

/-- Is this the result of the operation? Scaffolding of the model, no counterpart in the source. -/
def Label.Gives : Label V → Ret → Prop
  | .push _, r => r = .pushed ∨ r = .panicked
  | .full _, r => r = .full
  | .pushClosed _, r => r = .closed
  | .pop _ _, r => r = .popped
  | .empty _, r => r = .empty
  | .popClosed _, r => r = .closed
  | .len _ n, r => r = .len n
  | .close _ b, r => r = .closeRet b
  | .closePanicking _, r => r = .closeRet false
  | .publish _ _, _ => False

/-- A concurrent history with the points at which the calls take effect. Scaffolding of the model, no counterpart in
the source. -/
abbrev Marked (V : Type) := List (Event V ⊕ Label V)

/-- The history alone. Scaffolding of the model, no counterpart in the source. -/
def Marked.events (L : Marked V) : Trace V := L.filterMap Sum.getLeft?

/-- The effects alone, in their order: a sequential history. Scaffolding of the model, no counterpart in the
source. -/
def Marked.labels (L : Marked V) : List (Label V) := L.filterMap Sum.getRight?

/-- `L` shows that the concurrent history `tr` is linearizable: it is `tr` with a point marked for every call, in the
interval of the call, such that the sequential queue, performing the operations in the order of their points, gives
every call the result it had. Scaffolding of the model, no counterpart in the source. -/
structure Linearizes (cap : Nat) (tr : Trace V) (L : Marked V) : Prop where
  /-- without the points it is the given history -/
  history : L.events = tr
  /-- the sequential queue can do what is marked -/
  legal : ∃ q, Abs.Steps cap .init L.labels q
  /-- the point of a call is after its invocation and before its return -/
  during : ∀ L₁ l L₂ a op, L = L₁ ++ .inr l :: L₂ → l.call = some (a, op) →
    Event.invoke a op ∈ Marked.events L₁ ∧ ¬ Returned (Marked.events L₁) a
  /-- no call has two points -/
  once : ((L.labels.filterMap Label.call).map Prod.fst).Nodup
  /-- every call that returned has one, with the result that it returned -/
  complete : ∀ a r, Event.ret a r ∈ tr → ∃ l op, .inr l ∈ L ∧ l.call = some (a, op) ∧ l.Gives r
  /-- the element that a pop takes is the one in the slot it got -/
  popped : ∀ a v, .inr (.pop a v) ∈ L → ∃ i, Event.dequeue a i (some v) ∈ tr
  /-- an element is published exactly when the `Ref` of its push is dropped -/
  publish : ∀ L₁ a v L₂, L = L₁ ++ .inr (.publish a v) :: L₂ → ∃ i L₃, L₂ = .inl (.commit a i (some v)) :: L₃
  published : ∀ L₁ a i v L₂, L = L₁ ++ .inl (.commit a i v) :: L₂ →
    ∃ L₀ x, v = some x ∧ L₁ = L₀ ++ [.inr (.publish a x)]

end
end Thingbuf
