import Verif.Queue
import Verif.ListLemmas

/-!
# Vocabulary for the properties of the wait queue

Everything here is defined on traces only.
-/

namespace Thingbuf.Queue

variable {W : Type}

/-- Effect of an event on the sequence of waiting nodes, newest first. -/
def qstep (q : List Nat) : Event W → List Nat
  | .enq n _ => n :: q
  | .deq _ n => q.erase n
  | .rem n => q.erase n
  | _ => q

/-- The nodes waiting after a trace, newest first: those that were enqueued and have since
been neither dequeued nor removed. -/
def queueOf (tr : Trace W) : List Nat := tr.foldl qstep []

/-- Effect of an event on the stored notification. -/
def sstep (b : Bool) : Event W → Bool
  | .store _ => true
  | .consume _ => false
  | _ => b

/-- Is there a notification that was stored and has not been consumed? -/
def stored (tr : Trace W) : Bool := tr.foldl sstep false

/-- Effect of an event on the waiter given for node `n`. -/
def gstep (n : Nat) (g : Option W) : Event W → Option W
  | .enq m v => if m = n then some v else g
  | .upd m v => if m = n then some v else g
  | _ => g

/-- The waiter that was last recorded for node `n`. -/
def given (tr : Trace W) (n : Nat) : Option W := tr.foldl (gstep n) none

/-- Effect of an event on who took node `n` out of the list. -/
def tstep (n : Nat) (g : Option Nat) : Event W → Option Nat
  | .enq m _ => if m = n then none else g
  | .deq o m => if m = n then some o else g
  | _ => g

/-- The call that took node `n` out of the list since it was last enqueued. -/
def takenBy (tr : Trace W) (n : Nat) : Option Nat := tr.foldl (tstep n) none

/-- The `notify` or `close` call an event belongs to (accesses to memory aside). -/
def Event.byOp : Event W → Option Nat
  | .callNotify o | .retNotify o _ | .callClose o | .closing o | .retClose o | .deq o _
  | .wake o _ _ | .store o | .assertFailed (.op o) => some o
  | _ => none

/-- What the call `o` did. -/
def opEvs (tr : Trace W) (o : Nat) : Trace W := tr.filter fun e => e.byOp == some o

/-- Before the call `o` of `notify` returned, another `notify` or the drop of a waiting future,
which had not ended when `o` was called, took a node out of the list. -/
def Overlapped (tr : Trace W) (o : Nat) : Prop :=
  ∃ pre mid rest, tr = pre ++ .callNotify o :: (mid ++ rest) ∧ (∀ b, .retNotify o b ∉ mid) ∧
    ((∃ o' n, o' ≠ o ∧ .callNotify o' ∈ pre ++ mid ∧ .deq o' n ∈ pre ++ mid ∧
        ∀ b, .retNotify o' b ∉ pre) ∨
      ∃ n, .callDrop n ∈ pre ++ mid ∧ .rem n ∈ pre ++ mid ∧ .free n ∉ pre)

/-- Effect of an event on whether the thread of control `t` is in a call. -/
def cstep (t : Tid) (b : Bool) : Event W → Bool
  | .callStart n _ | .callCont n _ | .callDrop n => if t = .node n then true else b
  | .retStart n _ | .retCont n _ | .free n => if t = .node n then false else b
  | .callNotify o | .callClose o => if t = .op o then true else b
  | .retNotify o _ | .retClose o => if t = .op o then false else b
  | .assertFailed u => if t = u then false else b
  | _ => b

/-- Is `t` in a call that has neither returned nor panicked? -/
def inCall (tr : Trace W) (t : Tid) : Bool := tr.foldl (cstep t) false

/-- The next step of a thread of control. -/
def Tid.act (t : Tid) : Act W :=
  match t with
  | .node n => .node n false
  | .op o => .op o false

end Thingbuf.Queue
