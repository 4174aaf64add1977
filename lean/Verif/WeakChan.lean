import Verif.ChanLink
import Verif.RelAcqCellProps
import Verif.QueueLoadsProps

/-!
# The channel on the memory model

`Channel` runs the code of the channel on three components with a sequentially consistent memory. Here the same code
runs on the machines with the memory orderings of the source: the ring buffer and the receiver's wait cell on the
release/acquire machine of `RelAcq` and `RelAcqCell`, the senders' wait queue on that of `QueueLoads`.

* `plan` says which component a step of the channel calls, and how the channel goes on after it. This is only another
  way to write `Chan.step`: `step_eq_plan`.
* `wstep` makes the step of that component with one of the two machines. What the memory does, such as which message a
  load returns, is `Choice`.
* `sync` is the ordering between threads that the components do not make themselves: the next operation of the same
  thread knows all that the one before it knew, and so does a thread to which a `RecvRef` or a `Sender` is sent.
  Syncs may happen at any time between any two operations, or not at all.

The views of the machine with the ring buffer and the wait cell, and those of the wait queue, are separate: nothing that
a call learns from the wait queue orders its accesses of the ring buffer, nor the other way round. Real executions have
at most the freedom of these. An operation of the ring buffer and one of the wait cell that have the same number share
what they know; the numbers are chosen freely.

The wakers are numbers, as in `RelAcqCell`. The count of the senders (`tx_count`) is as in `Channel`. It is only changed
by read-modify-write operations, and it is never loaded.
-/

namespace Thingbuf.Chan

/-- A step of the channel: what it calls, and how it goes on. Scaffolding of the model, no counterpart in the source. -/
inductive Plan (w : Nat) (V W : Type) where
  | none
  /-- no component is called -/
  | api (r : Out w V W)
  /-- the ring buffer -/
  | core (a : Thingbuf.Act V) (k : State w V W → Option Ret → Out w V W)
  /-- the receiver's wait cell -/
  | cell (a : Cell.Act W) (k : State w V W → List (Cell.Event W) → Out w V W)
  /-- the senders' wait queue -/
  | queue (a : Queue.Act W) (k : State w V W → List (Queue.Event W) → Out w V W)

section
variable {w : Nat} {V W : Type} (c : Config W)

/-- The next step of the `Receiver`, as `rxStep`: /repo/src/mpsc.rs lines 339-345, 379-387 and 404-451. -/
def rxPlan (s : State w V W) (o : Nat) (spur : Bool) : Plan w V W :=
  match s.rx with
  | .idle _ | .gone => .none
  | .toPop v => .core (.invoke o .pop) fun s _ => (s.rgoto (.pop o v), [])
  | .pop a v => .core (runAct a spur) (afterPop a v)
  | .toWait v => .cell (.callWait o) fun s _ => (s.rgoto (.wait o v), [])
  | .wait o v => .cell (waitAct s o v) (afterWait v)
  | .toPop2 v => .core (.invoke o .pop) fun s _ => (s.rgoto (.pop2 o v), [])
  | .pop2 a v => .core (runAct a spur) (afterPop2 a v)
  | .toLast => .core (.invoke o .pop) fun s _ => (s.rgoto (.last o), [])
  | .last a => .core (runAct a spur) (afterLast a)
  | .tryPop a p => .core (runAct a spur) (afterTry a p)
  | .toClose pan => .core (.invoke o (.close pan)) fun s _ => (s.rgoto (.closing o), [])
  | .closing a => .core (.run a) afterRxClose
  | .toQClose => .queue (.close o) fun s _ => (s.rgoto (.qclose o), [])
  | .qclose o => .queue (.op o spur) fun s evs =>
      if opOver evs then (s.rgoto .gone, [.api .rxDropped]) else (s, [])

/-- The next step of the drop of the last `Sender`, as `closerStep`: /repo/src/mpsc/async_impl.rs lines 276-281,
/repo/src/mpsc/blocking.rs lines 1250-1256. -/
def closerPlan (s : State w V W) (o : Nat) : Plan w V W :=
  match s.closer with
  | .none | .done => .none
  | .toClose pan => .core (.invoke o (.close pan)) fun s _ => ({ s with closer := .closing o }, [])
  | .closing a => .core (.run a) (afterTxClose c)
  | .toCloseTx => .cell (.callNotify o true) fun s _ => ({ s with closer := .closeTx o }, [])
  | .closeTx o => .cell (.run o) fun s evs =>
      if notifyOver evs then ({ s with closer := .done }, [.api .lastTxDropped]) else (s, [])

/-- A step of the channel, as `step`: /repo/src/mpsc.rs lines 261-451 and 559-573, /repo/src/mpsc/async_impl.rs and
/repo/src/mpsc/blocking.rs, with the lines given there. -/
def plan (s : State w V W) : Act V W → Plan w V W
  | .clone h h' => if h ∈ s.handles ∧ h' ∉ s.handles then
      .api ({ s with handles := h' :: s.handles, txCount := s.txCount + 1 }, [.api (.clone h h')]) else .none
  | .dropTx h pan => if h ∈ s.handles ∧ ∀ x ∈ s.calls, x.2 ≠ h then
      let s' := { s with handles := s.handles.erase h, txCount := s.txCount - 1 }
      if s.txCount > 1 then .api (s', [.api (.dropTx h pan)])
      else .api ({ s' with closer := .toClose pan }, [.api (.dropTx h pan)])
    else .none
  | .closer o => closerPlan c s o
  | .send k h wait a => match s.snd k with
    | .off => if h ∈ s.handles then
        .core (.invoke a .push) fun s _ =>
          ({ s.sgoto k (.push a (if wait then .start else .only)) with calls := (k, h) :: s.calls },
            [.api (.callSend k h wait), .api (.attempt k a)])
      else .none
    | _ => .none
  | .push k i => match s.snd k with
    | .push a att => .core (i.act a) (afterPush c k a att)
    | _ => .none
  | .retry k a => match s.snd k with
    | .retry att => .core (.invoke a .push) fun s _ => (s.sgoto k (.push a att), [.api (.attempt k a)])
    | _ => .none
  | .start k v => match s.snd k with
    | .toStart => .queue (.start k v) fun s _ => (s.sgoto k .starting, [])
    | _ => .none
  | .cont k v => match s.snd k with
    | .waiting | .toCont => .queue (.cont k v) fun s _ => (s.sgoto k .conting, [])
    | _ => .none
  | .node k spur => match s.snd k with
    | .starting => .queue (.node k spur) (afterStart k)
    | .conting => .queue (.node k spur) (afterCont k)
    | .dropping => .queue (.node k spur) (afterDrop k)
    | _ => .none
  | .cancel k => match s.snd k with
    | .waiting => if c.blocking then .none
      else .queue (.drop k) fun s _ => (s.sgoto k .dropping, [.api (.cancel k)])
    | _ => .none
  | .timeout k => match s.snd k with
    | .waiting => if c.blocking then .queue (.giveUp k) fun s _ => (s.sendEnd k, [.api (.retSend k .timeout)])
      else .none
    | _ => .none
  | .sendRead k => match s.snd k with
    | .held a => .core (.read a) fun s _ => (s, [])
    | _ => .none
  | .sendWrite k v => match s.snd k with
    | .held a => .core (.write a v) fun s _ => (s, [])
    | _ => .none
  | .dropSend k => match s.snd k with
    | .held a => .core (.dropRef a) fun s _ => (s.sgoto k .toNotify, [.api (.dropSend k)])
    | _ => .none
  | .sendNotify k o => match s.snd k with
    | .toNotify => .cell (.callNotify o false) fun s _ => (s.sgoto k (.notifying o), [])
    | _ => .none
  | .sendNotifyRun k => match s.snd k with
    | .notifying o => .cell (.run o) (afterSendNotify k)
    | _ => .none
  | .forgetSend k => match s.snd k with
    | .held a => .api (s.sendEnd k (.forgotten a), [.api (.forgetSend k)])
    | _ => .none
  | .poll v => match s.rx with
    | .idle _ => .api (s.rgoto (.toPop v), [.api (.callPoll v)])
    | _ => .none
  | .tryRecv a => match s.rx with
    | .idle p => .core (.invoke a .pop) fun s _ => (s.rgoto (.tryPop a p), [.api .callTry])
    | _ => .none
  | .rx o spur => rxPlan s o spur
  | .recvRead a => match s.ref a with
    | .held => .core (.read a) fun s _ => (s, [])
    | _ => .none
  | .recvWrite a v => match s.ref a with
    | .held => .core (.write a v) fun s _ => (s, [])
    | _ => .none
  | .dropRecv a => match s.ref a with
    | .held => .core (.dropRef a) fun s _ => (s.refgoto a .toNotify, [.api (.dropRecv a)])
    | _ => .none
  | .recvNotify a o => match s.ref a with
    | .toNotify => .queue (.notify o) fun s _ => (s.refgoto a (.notifying o), [])
    | _ => .none
  | .recvNotifyRun a spur => match s.ref a with
    | .notifying o => .queue (.op o spur) (afterRecvNotify a)
    | _ => .none
  | .forgetRecv a => match s.ref a with
    | .held => .api (s.refEnd a .forgotten, [.api (.forgetRecv a)])
    | _ => .none
  | .dropRx pan => match s.rx with
    | .idle _ => if s.refs = [] then .api (s.rgoto (.toClose pan), [.api (.dropRx pan)]) else .none
    | _ => .none

/-- The plan with the components of `Channel`. Scaffolding of the model, no counterpart in the source. -/
def Plan.run (s : State w V W) : Plan w V W → Option (Out w V W)
  | .none => Option.none
  | .api r => some r
  | .core a k => onCore c s a k
  | .cell a k => onCell c s a k
  | .queue a k => onQueue c s a k

/-- `plan` is `Chan.step`. -/
theorem step_eq_plan (s : State w V W) (act : Act V W) : step c s act = (plan c s act).run c s := by
  cases act <;> simp only [step, plan, rxStep, rxPlan, closerStep, closerPlan] <;>
    (repeat' split) <;> first | rfl | simp_all [Plan.run]

end

/-- What the memory does in a step: the message (or the write) that is read, the place of the one that is written, and
for a `notify` of the wait queue the calls that its thread knows to have ended. As the arguments of `RA.RAct`, `RA.XAct`
and `Queue.LAct`. -/
structure Choice where
  rd : Nat := 0
  wr : Nat := 0
  known : List Queue.Tid := []

/-- A step of the ring buffer with this choice. Scaffolding of the model, no counterpart in the source. -/
def Choice.core {V : Type} (ch : Choice) : Thingbuf.Act V → RA.RAct V
  | .invoke a op => .invoke a op
  | .run a => .run a ch.rd ch.wr
  | .spurious a => .spurious a ch.rd
  | .elem a v => .elem a v ch.rd
  | .elemPanic a v => .elemPanic a v ch.rd
  | .read a => .read a ch.rd
  | .write a v => .write a v
  | .dropRef a => .dropRef a ch.wr

/-- A step of the wait queue with this choice. Scaffolding of the model, no counterpart in the source. -/
def Choice.queue {W : Type} (ch : Choice) : Queue.Act W → Queue.LAct W
  | .notify o => .notify o ch.known
  | a => .act a ch.rd

/-- The channel, /repo/src/mpsc.rs lines 261-266. `ctl` has the calls in progress; of its components only the control
states are used, and they are those of `mem` and `queue`. -/
structure WState (w : Nat) (V : Type) where
  ctl : State w V Nat
  mem : RA.XState w V
  queue : Queue.LState Nat

/-- A new channel: /repo/src/mpsc/async_impl.rs lines 27-41, /repo/src/mpsc/blocking.rs lines 33-47. -/
def WState.init (w : Nat) (V : Type) : WState w V := ⟨State.init w V Nat, .init w V, .init⟩

section
variable {w : Nat} {V : Type} (o : RA.Orders) (co : RA.CellOrders) (c : Config Nat)

/-- One step of the channel. The result has the events of `Chan.step`, and those of the ring buffer and the wait cell
with what happened before them. The code is that of `Chan.step` (/repo/src/mpsc.rs lines 261-451 and 559-573,
/repo/src/mpsc/async_impl.rs, /repo/src/mpsc/blocking.rs), on this machine. -/
def wstep (s : WState w V) (act : Act V Nat) (ch : Choice) : Option (WState w V × Trace V Nat × List (RA.REv V)) :=
  match plan c s.ctl act with
  | .none => none
  | .api r => some (⟨r.1, s.mem, s.queue⟩, r.2, [])
  | .core a k =>
    match RA.rstep o c.cap s.mem.core (ch.core a) with
    | none => none
    | some (m, revs) =>
      let r := k { s.ctl with core := { s.ctl.core with pc := m.pc } } (coreRet (RA.evsOf revs))
      some (⟨r.1, { s.mem with core := m }, s.queue⟩, (RA.evsOf revs).map .core ++ r.2, revs)
  | .cell a k =>
    match s.mem.cellStep co c.cell a ch.rd with
    | none => none
    | some (x, revs) =>
      let r := k { s.ctl with cell := { s.ctl.cell with pc := x.cpc } } (RA.cellOf revs)
      some (⟨r.1, x, s.queue⟩, (RA.cellOf revs).map .cell ++ r.2, revs)
  | .queue a k =>
    match Queue.lstep c.queue s.queue (ch.queue a) with
    | none => none
    | some (l, evs) =>
      let r := k { s.ctl with queue := l.q } evs
      some (⟨r.1, s.mem, l⟩, evs.map .queue ++ r.2, [])

/-- All that operation `a` knows becomes known to `b`. Part of the machine, not of /repo: the order in which a thread
runs its operations, and the ways in which a program orders its threads. -/
def WState.sync (s : WState w V) (a b : OpId) : WState w V :=
  { s with mem := { s.mem with core := { s.mem.core with
      view := upd s.mem.core.view b ((s.mem.core.view b).join (s.mem.core.view a)) } } }

end

/-- Executions of a new channel, with the given memory orderings, in which nothing read by the ring buffer is older than a
period of the position counter. The first trace has the events of the channel and of its components, the second one
those of the ring buffer and of the wait cell with what happened before them. Scaffolding of the model, no counterpart
in the source. -/
inductive WExec (o : RA.Orders) (co : RA.CellOrders) (c : Config Nat) (w : Nat) {V : Type} :
    Trace V Nat → List (RA.REv V) → WState w V → Prop where
  | init : WExec o co c w [] [] (WState.init w V)
  | step {tr : Trace V Nat} {xtr : List (RA.REv V)} {s s' : WState w V} {act : Act V Nat} {ch : Choice} {evs : Trace V Nat}
      {revs : List (RA.REv V)} : WExec o co c w tr xtr s → wstep o co c s act ch = some (s', evs, revs) →
      RA.Timely w c.cap (xtr ++ revs) s'.mem.core → WExec o co c w (tr ++ evs) (xtr ++ revs) s'
  | sync {tr : Trace V Nat} {xtr : List (RA.REv V)} {s : WState w V} (a b : OpId) : WExec o co c w tr xtr s →
      WExec o co c w tr xtr (s.sync a b)

end Thingbuf.Chan
