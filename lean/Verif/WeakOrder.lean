import Verif.WeakChan

/-!
# The channel on the memory model, with the order in which a thread runs its code

In an execution of `WeakChan` an operation knows only what it has read itself, and what a `sync` has told it. The code of
one call of the channel runs in one thread, though: a `SendRef` is dropped and the receiver is notified by the same thread,
and `poll_recv_ref` calls `pop_ref`, `wait_with` and `pop_ref` one after the other. Here a step begins with all that its
thread knows, and its thread knows all that it has learnt.

* A send call, with its `SendRef`, has a thread (/repo/src/mpsc.rs lines 268-286: the `Ref` is dropped first, then the
  receiver is notified).
* The `Receiver` has a thread: as in `Channel`, calls on it do not overlap. It may move from one thread to another one, which
  must then know what the first one has done.
* The drop of the last `Sender` has a thread. It knows what the sends have done: every `Sender` is dropped with
  `tx_count.fetch_sub(1, Release)`, and the last one goes on with `fence(SeqCst)` (/repo/src/mpsc/async_impl.rs lines
  271-282, /repo/src/mpsc/blocking.rs lines 1245-1257); a `SendRef` does not outlive its `Sender`.

What else a program orders is a `sync`, as in `WeakChan`.
-/

namespace Thingbuf.Chan

/-- Who runs the code. Scaffolding of the model, no counterpart in the source. -/
inductive Thread where
  /-- a send call, and its `SendRef` -/
  | snd (k : Nat)
  /-- the `Receiver` -/
  | rx
  /-- the drop of the last `Sender` -/
  | tx
  deriving DecidableEq

section
variable {w : Nat} {V W : Type}

/-- The thread that takes a step, and the operation of the ring buffer or of the wait cell that the step belongs to. None
for a step that belongs to no such operation, and for a `RecvRef`, which may be anywhere. /repo/src/mpsc.rs lines 261-451 and
559-573, with the lines given at `step`. -/
def who (s : State w V W) : Act V W → Option (Thread × OpId)
  | .closer o => match s.closer with
    | .toClose _ | .toCloseTx => some (.tx, o)
    | .closing a | .closeTx a => some (.tx, a)
    | _ => none
  | .send k _ _ a => some (.snd k, a)
  | .retry k a => some (.snd k, a)
  | .push k _ => match s.snd k with
    | .push a _ => some (.snd k, a)
    | _ => none
  | .sendRead k | .sendWrite k _ | .dropSend k => match s.snd k with
    | .held a => some (.snd k, a)
    | _ => none
  | .sendNotify k o => some (.snd k, o)
  | .sendNotifyRun k => match s.snd k with
    | .notifying o => some (.snd k, o)
    | _ => none
  | .tryRecv a => some (.rx, a)
  | .rx o _ => match s.rx with
    | .toPop _ | .toWait _ | .toPop2 _ | .toLast | .toClose _ => some (.rx, o)
    | .pop a _ | .wait a _ | .pop2 a _ | .last a | .tryPop a _ | .closing a => some (.rx, a)
    | _ => none
  | _ => none

end

section
variable {w : Nat} {V : Type} (th : Thread → OpId)

/-- The operation knows what its thread knows. Part of the machine, not of /repo: the order in which a thread runs its
operations. `th t` is the place where the knowledge of thread `t` is kept. -/
def WState.enter (s : WState w V) : Option (Thread × OpId) → WState w V
  | none => s
  | some (t, b) => s.sync (th t) b

/-- The thread knows what the operation knows; and the drop of the last `Sender` will know what a send knows. Part of the
machine, not of /repo: the order in which a thread runs its operations, and the counter of the `Sender`s
(/repo/src/mpsc/async_impl.rs lines 271-282, /repo/src/mpsc/blocking.rs lines 1245-1257). -/
def WState.leave (s : WState w V) : Option (Thread × OpId) → WState w V
  | none => s
  | some (.snd k, b) => (s.sync b (th (.snd k))).sync b (th .tx)
  | some (t, b) => s.sync b (th t)

end

/-- Executions of a new channel whose threads run their code in order. Otherwise as `WExec`. Scaffolding of the model, no
counterpart in the source. -/
inductive PExec (o : RA.Orders) (co : RA.CellOrders) (c : Config Nat) (w : Nat) {V : Type} (th : Thread → OpId) :
    Trace V Nat → List (RA.REv V) → WState w V → Prop where
  | init : PExec o co c w th [] [] (WState.init w V)
  | step {tr : Trace V Nat} {xtr : List (RA.REv V)} {s s' : WState w V} {act : Act V Nat} {ch : Choice} {evs : Trace V Nat}
      {revs : List (RA.REv V)} : PExec o co c w th tr xtr s →
      wstep o co c (s.enter th (who s.ctl act)) act ch = some (s', evs, revs) →
      RA.Timely w c.cap (xtr ++ revs) s'.mem.core → PExec o co c w th (tr ++ evs) (xtr ++ revs) (s'.leave th (who s.ctl act))
  | sync {tr : Trace V Nat} {xtr : List (RA.REv V)} {s : WState w V} (a b : OpId) : PExec o co c w th tr xtr s →
      PExec o co c w th tr xtr (s.sync a b)

end Thingbuf.Chan
