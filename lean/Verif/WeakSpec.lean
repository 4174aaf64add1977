import Verif.WeakChan
import Verif.ChanSpec

/-!
# Specification: the channel on the memory model

For C63. `s.queue.before o` are the calls on the wait queue of which the thread that called `notify` `o` knew that they had ended.
-/

namespace Thingbuf.Chan

variable {w : Nat} {V : Type}

/-- `RecvRef`s are dropped in order: a drop notifies the senders only once it is known that the notifications of the drops before it have ended. So it is if one thread drops them
all, or if the thread that drops one was told by the one that dropped the one before. -/
def DropsOrdered (s : WState w V) (tr : Trace V Nat) : Prop :=
  ∀ pre o post o', tr = pre ++ .queue (.callNotify o) :: post → .queue (.callNotify o') ∈ pre → .op o' ∈ s.queue.before o

end Thingbuf.Chan
