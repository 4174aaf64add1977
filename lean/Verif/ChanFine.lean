import Verif.Channel
import Verif.QueueFine

/-!
# The channel over the wait queue with the two-step dequeue

The model of `Channel`, with the wait queue of `QueueFine` in the place of that of `Queue`: between the two
steps of `List::dequeue` (`src/wait/queue.rs:576-599`) all senders and the receiver can run.
-/

namespace Thingbuf.Chan

variable {w : Nat} {V W : Type}

/-- The channel; `half` as in `Queue.FState`: the call and the node of a dequeue that is in progress.
/repo/src/mpsc.rs lines 261-266. -/
structure FState (w : Nat) (V W : Type) where
  ch : State w V W
  half : Option (Nat × Nat)

/-- `ChannelCore::new` (`src/mpsc.rs:317-324`). -/
def FState.init (w : Nat) (V W : Type) : FState w V W := ⟨.init w V W, none⟩

/-- The wait queue of the channel. Scaffolding of the model, no counterpart in the source. -/
def FState.queue (f : FState w V W) : Queue.FState W := ⟨f.ch.queue, f.half⟩

section
variable (c : Config W)

/-- The step of the wait queue that an action performs, if it performs one, and what its caller does next. The
same cases as in `step` and `rxStep` of `Channel`: /repo/src/mpsc/async_impl.rs lines 1450-1501,
/repo/src/mpsc/blocking.rs lines 1664-1697, /repo/src/mpsc.rs lines 339-345 and 567-573. -/
def queueCall (s : State w V W) : Act V W → Option (Queue.Act W × (State w V W → List (Queue.Event W) → Out w V W))
  | .start k v => match s.snd k with
    | .toStart => some (.start k v, fun s _ => (s.sgoto k .starting, []))
    | _ => none
  | .cont k v => match s.snd k with
    | .waiting | .toCont => some (.cont k v, fun s _ => (s.sgoto k .conting, []))
    | _ => none
  | .node k spur => match s.snd k with
    | .starting => some (.node k spur, afterStart k)
    | .conting => some (.node k spur, afterCont k)
    | .dropping => some (.node k spur, afterDrop k)
    | _ => none
  | .cancel k => match s.snd k with
    | .waiting => if c.blocking then none
      else some (.drop k, fun s _ => (s.sgoto k .dropping, [.api (.cancel k)]))
    | _ => none
  | .timeout k => match s.snd k with
    | .waiting => if c.blocking then some (.giveUp k, fun s _ => (s.sendEnd k, [.api (.retSend k .timeout)])) else none
    | _ => none
  | .recvNotify a o => match s.ref a with
    | .toNotify => some (.notify o, fun s _ => (s.refgoto a (.notifying o), []))
    | _ => none
  | .recvNotifyRun a spur => match s.ref a with
    | .notifying o => some (.op o spur, afterRecvNotify a)
    | _ => none
  | .rx o spur => match s.rx with
    | .toQClose => some (.close o, fun s _ => (s.rgoto (.qclose o), []))
    | .qclose o => some (.op o spur, fun s evs =>
        if opOver evs then (s.rgoto .gone, [.api .rxDropped]) else (s, []))
    | _ => none
  | _ => none

/-- One step of the channel: as `step`, but steps of the wait queue are those of `Queue.fstep`.
/repo/src/mpsc.rs lines 261-451 and 559-573. -/
def fstep (f : FState w V W) (act : Act V W) : Option (FState w V W × Trace V W) :=
  match queueCall c f.ch act with
  | none => (step c f.ch act).map fun r => (⟨r.1, f.half⟩, r.2)
  | some (qact, k) => (Queue.fstep c.queue f.queue qact).map fun r =>
      (⟨(k { f.ch with queue := r.1.q } r.2).1, r.1.half⟩,
        r.2.map .queue ++ (k { f.ch with queue := r.1.q } r.2).2)

end

/-- Executions of a new channel. Scaffolding of the model, no counterpart in the source: the interleavings of the
functions cited at `step`. -/
inductive FExec (c : Config W) : Trace V W → FState w V W → Prop where
  | init : FExec c [] (FState.init w V W)
  | step {tr : Trace V W} {f f' : FState w V W} {act : Act V W} {evs : Trace V W} :
      FExec c tr f → fstep c f act = some (f', evs) → FExec c (tr ++ evs) f'

/-- Run a list of actions. Scaffolding of the model, no counterpart in the source. -/
def frunActs (c : Config W) (f : FState w V W) : List (Act V W) → Option (FState w V W × Trace V W)
  | [] => some (f, [])
  | a :: as => do
    let (s1, e1) ← fstep c f a
    let (s2, e2) ← frunActs c s1 as
    pure (s2, e1 ++ e2)

/-- The channel after the dequeue in progress, if any, has been completed. Scaffolding of the model, no counterpart
in the source. -/
def FState.abs (f : FState w V W) : State w V W := { f.ch with queue := f.queue.abs }

/-- A trace without the accesses to the memory of wait nodes. Scaffolding of the model, no counterpart in the
source. -/
def quiet (tr : Trace V W) : Trace V W :=
  tr.filter fun e => match e with | .queue (.touch _ _) => false | _ => true

end Thingbuf.Chan
