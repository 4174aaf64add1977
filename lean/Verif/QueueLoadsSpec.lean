import Verif.QueueLoads

/-!
# Specification: calls that are not ordered

`l.before o` are the calls of which the thread that called `notify` `o` knew that they had ended. For C62.
-/

namespace Thingbuf.Queue

variable {W : Type}

/-- The call took a node out of the list: a `notify`, or the drop of a waiting send. -/
def Took (tr : Trace W) : Tid → Prop
  | .op o => .callNotify o ∈ tr ∧ ∃ n, .deq o n ∈ tr
  | .node n => .callDrop n ∈ tr ∧ .rem n ∈ tr

/-- Before the call `o` of `notify` ended, another `notify` or the drop of a waiting send took a node out of the list, and
the thread that called `o` did not know that this other call had ended. -/
def Unordered (l : LState W) (tr : Trace W) (o : Nat) : Prop :=
  ∃ pre mid rest, tr = pre ++ .callNotify o :: (mid ++ rest) ∧ (∀ b, .retNotify o b ∉ mid) ∧ .assertFailed (.op o) ∉ mid ∧
    ∃ t, t ≠ .op o ∧ Took (pre ++ mid) t ∧ t ∉ l.before o

/-- Every `notify` is called by a thread that knows that the `notify` calls before it have ended, as it is if one thread
makes them all, and no waiting send is dropped. -/
def OneAfterTheOther (l : LState W) (tr : Trace W) : Prop :=
  (∀ pre o post o', tr = pre ++ .callNotify o :: post → .callNotify o' ∈ pre → .op o' ∈ l.before o) ∧
  ∀ n, .callDrop n ∈ tr → .rem n ∉ tr

end Thingbuf.Queue
