import Verif.Core
import Verif.Cell
import Verif.Queue

/-!
# The MPSC channel

Model of `ChannelCore` (`src/mpsc.rs:261-451`) with the senders and the receiver of
`src/mpsc/async_impl.rs` and `src/mpsc/blocking.rs`: the machines of the ring buffer (`Core`),
of the receiver's wait cell (`Cell`) and of the senders' wait queue (`Queue`), and the control
state of every `Sender`, `send` call, `SendRef`, `RecvRef` and of the `Receiver`. An action lets
one of them take one step, which is at most one step of one of the three machines.

* There are arbitrarily many `Sender`s, `send` calls and `RecvRef`s; they interleave arbitrarily.
* A `send` call and its `SendRef` borrow a `Sender`, a `RecvRef` borrows the `Receiver`: a
  `Sender` or `Receiver` is dropped only when nothing borrows it (`calls`, `refs`).
* The `Receiver` polls, receives and is dropped by one thread at a time. (It can be shared by
  reference; `C20_two_receivers_lose_wakeup` shows what happens then.) Several receive futures may
  exist at a time, a poll that returned `Pending` need not be repeated, and `try_recv` may be called in between.
* A send future that is pending may be polled again or dropped at any time; a parked thread may
  return from `park` at any time.
* `mem::forget` of a `SendRef` or `RecvRef` is possible, and so is a panic of the user code that
  creates or recycles an element.

`Config.blocking` selects `src/mpsc/blocking.rs` rather than `src/mpsc/async_impl.rs`. The statically
allocated channels have the same code (`StaticSender`, `StaticReceiver`).

Simplifications: the operations of the three machines get a fresh number at each call, chosen by the action;
the node of send call `k` is node `k` of the wait queue; a node is not freed when its call ends regularly, only when
it is cancelled; cloning a waker does not panic; `tx_count` is a natural number (see `TxCount` for overflow);
a call of `send` that waits may return `Timeout` at any time if the channel is blocking (so `send` and `send_timeout` are one; time is not modelled here, see
`Timeout.lean`), which leaves its node in the queue, as in the source (`C29_dangling`), but the node's memory keeps its contents.
-/

namespace Thingbuf.Chan

/-- Which attempt of a `send` call this is. `State` of /repo/src/mpsc/async_impl.rs lines 1380-1384; `unqueued` of
/repo/src/mpsc/blocking.rs line 1665. -/
inductive Att where
  /-- the only attempt, of `try_send`/`try_send_ref` -/
  | only
  /-- async: in `State::Start`; blocking: while `unqueued` -/
  | start
  /-- async: in `State::Done`; blocking: after the node was queued -/
  | queued
  deriving DecidableEq, Repr

/-- What a send call returns. The results of /repo/src/mpsc.rs lines 352-364, /repo/src/mpsc/async_impl.rs lines
1436-1490 and /repo/src/mpsc/blocking.rs lines 1651-1698. -/
inductive SendRes where
  /-- a `SendRef`, from the push operation `a` -/
  | ok (a : OpId)
  | full
  | closed
  /-- user code panicked -/
  | panicked
  /-- `SendTimeoutError::Timeout` -/
  | timeout
  deriving DecidableEq, Repr

/-- What `poll_recv_ref` returns. /repo/src/mpsc.rs lines 404-451. -/
inductive PollRes where
  /-- `Ready(Some(RecvRef))`, from the pop operation `a` -/
  | some (a : OpId)
  /-- `Ready(None)` -/
  | none
  | pending
  deriving DecidableEq, Repr

/-- What `try_recv_ref` returns. /repo/src/mpsc.rs lines 379-387. -/
inductive TryRes where
  | ok (a : OpId)
  | empty
  | closed
  deriving DecidableEq, Repr

/-- What the users of the channel do and see. The public functions of /repo/src/mpsc/async_impl.rs and
/repo/src/mpsc/blocking.rs that lead to /repo/src/mpsc.rs lines 326-451. -/
inductive Api (W : Type) where
  /-- `Sender` `h` is cloned; the clone is `h'` -/
  | clone (h h' : Nat)
  /-- `Sender` `h` is dropped, maybe while its thread is panicking -/
  | dropTx (h : Nat) (panicking : Bool)
  /-- the drop of the last `Sender` is over -/
  | lastTxDropped
  /-- `send`, `send_ref` (`wait = true`), `try_send` or `try_send_ref` is called on `Sender` `h` -/
  | callSend (k h : Nat) (wait : Bool)
  /-- the push operation `a` is performed on behalf of send call `k` -/
  | attempt (k : Nat) (a : OpId)
  | retSend (k : Nat) (r : SendRes)
  /-- the pending send future `k` is dropped -/
  | cancel (k : Nat)
  /-- the drop of the send future `k` is over -/
  | cancelled (k : Nat)
  /-- send call `k` starts to wait: the future is pending, the thread parks -/
  | sleep (k : Nat)
  /-- the `SendRef` of send call `k` is being dropped; it has been dropped; it is forgotten -/
  | dropSend (k : Nat)
  | dropSendEnd (k : Nat)
  | forgetSend (k : Nat)
  /-- a receive future is polled with waker `v` -/
  | callPoll (v : W)
  | retPoll (r : PollRes)
  | callTry
  | retTry (r : TryRes)
  /-- the `RecvRef` from pop operation `a` is being dropped; it has been dropped; it is forgotten -/
  | dropRecv (a : OpId)
  | dropRecvEnd (a : OpId)
  | forgetRecv (a : OpId)
  /-- the `Receiver` is being dropped; it has been dropped -/
  | dropRx (panicking : Bool)
  | rxDropped
  deriving DecidableEq, Repr

/-- The events of the channel: those of its parts, and those of its API. Scaffolding of the model, no counterpart in
the source. -/
inductive Ev (V W : Type) where
  | core (e : Event V)
  | cell (e : Cell.Event W)
  | queue (e : Queue.Event W)
  | api (e : Api W)
  deriving DecidableEq

/-- Scaffolding of the model, no counterpart in the source. -/
abbrev Trace (V W : Type) := List (Ev V W)

/-- Where a send call, and later its `SendRef`, is. Models the control flow of /repo/src/mpsc/async_impl.rs lines
130-193 and 1436-1501, /repo/src/mpsc/blocking.rs lines 1651-1698, /repo/src/mpsc.rs lines 268-285, 352-364 and
559-565. -/
inductive SPC where
  /-- not called yet -/
  | off
  /-- in `push_ref` -/
  | push (a : OpId) (att : Att)
  /-- about to call `try_send_ref` again -/
  | retry (att : Att)
  /-- about to call `start_wait` -/
  | toStart
  /-- in `start_wait` -/
  | starting
  /-- pending (async) or parked (blocking) -/
  | waiting
  /-- about to call `continue_wait` -/
  | toCont
  /-- in `continue_wait` -/
  | conting
  /-- the future is being dropped -/
  | dropping
  /-- the call returned a `SendRef`, from the push operation `a` -/
  | held (a : OpId)
  /-- in the drop of the `SendRef`, after the drop of `slot`, before `_notify` -/
  | toNotify
  /-- in the drop of the `SendRef`, in `rx_wait.notify()` -/
  | notifying (o : OpId)
  /-- the `SendRef` from push operation `a` was forgotten -/
  | forgotten (a : OpId)
  /-- over -/
  | done
  deriving DecidableEq, Repr

/-- Where the `RecvRef` from a pop operation is. /repo/src/mpsc.rs lines 287-304 and 567-573. -/
inductive RefPC where
  | off
  | held
  /-- in its drop, after the drop of `slot`, before `_notify` -/
  | toNotify
  /-- in its drop, in `tx_wait.notify()` -/
  | notifying (o : Nat)
  | forgotten
  | done
  deriving DecidableEq, Repr

/-- Where the `Receiver` is. /repo/src/mpsc.rs lines 339-345, 379-387 and 404-451; /repo/src/mpsc/async_impl.rs
lines 586-590; /repo/src/mpsc/blocking.rs lines 1574-1578 and 1599-1616. -/
inductive RPC (W : Type) where
  /-- in no call. `some v`: the last poll, with waker `v`, returned `Pending` -/
  | idle (p : Option W)
  /-- `poll_recv_ref`, `src/mpsc.rs:404-451`: before and in the `pop_ref` at the top of the loop -/
  | toPop (v : W)
  | pop (a : OpId) (v : W)
  /-- before and in `wait_with` -/
  | toWait (v : W)
  | wait (o : OpId) (v : W)
  /-- before and in the `pop_ref` after `WaitResult::Wait` -/
  | toPop2 (v : W)
  | pop2 (a : OpId) (v : W)
  /-- before and in the `pop_ref` after `WaitResult::Closed` -/
  | toLast
  | last (a : OpId)
  /-- in `try_recv_ref` -/
  | tryPop (a : OpId) (p : Option W)
  /-- `close_rx`: before and in `core.close()` -/
  | toClose (panicking : Bool)
  | closing (a : OpId)
  /-- before and in `tx_wait.close()` -/
  | toQClose
  | qclose (o : Nat)
  | gone

/-- Where the drop of the last `Sender` is. /repo/src/mpsc/async_impl.rs lines 271-282, /repo/src/mpsc/blocking.rs
lines 1245-1257. -/
inductive CPC where
  | none
  /-- before and in `core.close()` -/
  | toClose (panicking : Bool)
  | closing (a : OpId)
  /-- before and in `rx_wait.close_tx()` -/
  | toCloseTx
  | closeTx (o : OpId)
  | done
  deriving DecidableEq, Repr

/-- `ChannelCore` (`src/mpsc.rs:261-266`), its slots, and its users. -/
structure State (w : Nat) (V W : Type) where
  core : Thingbuf.State w V
  cell : Cell.State W
  queue : Queue.State W
  txCount : Nat
  /-- the `Sender`s that have not been dropped -/
  handles : List Nat
  /-- the send calls in progress and undropped `SendRef`s, with the `Sender` they borrow -/
  calls : List (Nat × Nat)
  snd : Nat → SPC
  closer : CPC
  rx : RPC W
  ref : OpId → RefPC
  /-- the undropped `RecvRef`s -/
  refs : List OpId

/-- The capacity, the configurations of the parts, and which of /repo/src/mpsc/async_impl.rs and
/repo/src/mpsc/blocking.rs is modelled. -/
structure Config (W : Type) where
  cap : Nat
  cell : Cell.Config
  queue : Queue.Config W
  blocking : Bool

variable {w : Nat} {V W : Type}

/-- `ChannelCore::new` (`src/mpsc.rs:317-324`), with one `Sender` and the `Receiver`. -/
def State.init (w : Nat) (V W : Type) : State w V W where
  core := .init w V
  cell := .init W
  queue := .init
  txCount := 1
  handles := [0]
  calls := []
  snd := fun _ => .off
  closer := .none
  rx := .idle none
  ref := fun _ => .off
  refs := []

/-- Scaffolding of the model, no counterpart in the source. -/
def State.sgoto (s : State w V W) (k : Nat) (p : SPC) : State w V W := { s with snd := upd s.snd k p }

/-- Send call `k` is over and ends in `p`; it no longer borrows a `Sender`. The borrow of the `Sender` is that of
/repo/src/mpsc/async_impl.rs line 130 and /repo/src/mpsc/blocking.rs line 1651. -/
def State.sendEnd (s : State w V W) (k : Nat) (p : SPC := .done) : State w V W :=
  { s.sgoto k p with calls := s.calls.filter fun x => x.1 ≠ k }

/-- Scaffolding of the model, no counterpart in the source. -/
def State.rgoto (s : State w V W) (p : RPC W) : State w V W := { s with rx := p }
/-- Scaffolding of the model, no counterpart in the source. -/
def State.refgoto (s : State w V W) (a : OpId) (p : RefPC) : State w V W := { s with ref := upd s.ref a p }

/-- The `RecvRef` from pop operation `a` is no more. The borrow of the `Receiver` is that of /repo/src/mpsc.rs lines
287-304. -/
def State.refEnd (s : State w V W) (a : OpId) (p : RefPC := .done) : State w V W :=
  { s.refgoto a p with refs := s.refs.filter fun x => x ≠ a }

/-- The result of a ring buffer operation, if it has just returned. Scaffolding of the model, no counterpart in the
source. -/
def coreRet (evs : List (Event V)) : Option Ret := evs.findSome? fun | .ret _ r => some r | _ => none

/-- The result of `wait_with`; `panicked` if it panicked. Scaffolding of the model, no counterpart in the source. -/
def waitRet (evs : List (Cell.Event W)) : Option Cell.Res :=
  evs.findSome? fun | .retWait _ r => some r | .assertFailed _ => some .panicked | _ => none

/-- Has `notify` or `close_tx` ended? Scaffolding of the model, no counterpart in the source. -/
def notifyOver (evs : List (Cell.Event W)) : Bool :=
  evs.any fun | .retNotify _ _ | .assertFailed _ => true | _ => false

/-- How a step of the owner of a node ends. Scaffolding of the model, no counterpart in the source. -/
inductive NodeRes where
  | ret (r : Queue.Res3)
  | freed
  | panicked
  deriving DecidableEq

/-- Scaffolding of the model, no counterpart in the source. -/
def nodeRet (evs : List (Queue.Event W)) : Option NodeRes :=
  evs.findSome? fun
    | .retStart _ r | .retCont _ r => some (.ret r) | .free _ => some .freed | .assertFailed _ => some .panicked | _ => none

/-- Has `notify` or `close` on the wait queue ended? Scaffolding of the model, no counterpart in the source. -/
def opOver (evs : List (Queue.Event W)) : Bool :=
  evs.any fun | .retNotify _ _ | .retClose _ | .assertFailed _ => true | _ => false

/-- Scaffolding of the model, no counterpart in the source. -/
abbrev Out (w : Nat) (V W : Type) := State w V W × Trace V W

section
variable (c : Config W)

/-- A step of the ring buffer, and what its caller does next. Scaffolding of the model, no counterpart in the
source: the calls of `self.core` in /repo/src/mpsc.rs lines 339-451. -/
def onCore (s : State w V W) (act : Act V) (k : State w V W → Option Ret → Out w V W) : Option (Out w V W) :=
  match Thingbuf.step c.cap s.core act with
  | none => none
  | some (s', evs) =>
    let (t, api) := k { s with core := s' } (coreRet evs)
    some (t, evs.map .core ++ api)

/-- A step of the wait cell. Scaffolding of the model, no counterpart in the source: the calls of `rx_wait` in
/repo/src/mpsc.rs lines 404-451 and 559-565. -/
def onCell (s : State w V W) (act : Cell.Act W) (k : State w V W → List (Cell.Event W) → Out w V W) :
    Option (Out w V W) :=
  match Cell.step c.cell s.cell act with
  | none => none
  | some (s', evs) =>
    let (t, api) := k { s with cell := s' } evs
    some (t, evs.map .cell ++ api)

/-- A step of the wait queue. Scaffolding of the model, no counterpart in the source: the calls of `tx_wait` in
/repo/src/mpsc.rs lines 339-345 and 567-573, /repo/src/mpsc/async_impl.rs lines 1450-1501 and
/repo/src/mpsc/blocking.rs lines 1676-1679. -/
def onQueue (s : State w V W) (act : Queue.Act W) (k : State w V W → List (Queue.Event W) → Out w V W) :
    Option (Out w V W) :=
  match Queue.step c.queue s.queue act with
  | none => none
  | some (s', evs) =>
    let (t, api) := k { s with queue := s' } evs
    some (t, evs.map .queue ++ api)

/-- After an attempt of send call `k` by push operation `a`: `SendRefFuture::poll`
(`src/mpsc/async_impl.rs:1444-1448`, `1481-1487`), `send_ref` (`src/mpsc/blocking.rs:1658-1662`, `1684-1689`),
`try_send_ref` (`src/mpsc.rs:352-364`). In the async code the attempt after a wait is
repeated (`State::Start`) before the future waits again; in the blocking code `continue_wait` comes next. -/
def afterPush (k : Nat) (a : OpId) (att : Att) (s : State w V W) : Option Ret → Out w V W
  | none => (s, [])
  | some .pushed => (s.sgoto k (.held a), [.api (.retSend k (.ok a))])
  | some .closed => (s.sendEnd k, [.api (.retSend k .closed)])
  | some .full => match att with
    | .only => (s.sendEnd k, [.api (.retSend k .full)])
    | .start => (s.sgoto k .toStart, [])
    | .queued => if c.blocking then (s.sgoto k .toCont, []) else (s.sgoto k (.retry .start), [])
  | some _ => (s.sendEnd k, [.api (.retSend k .panicked)])

/-- After a step of `start_wait` in send call `k`: `src/mpsc/async_impl.rs:1450-1465`,
`src/mpsc/blocking.rs:1676-1696`. -/
def afterStart (k : Nat) (s : State w V W) (evs : List (Queue.Event W)) : Out w V W :=
  match nodeRet evs with
  | some (.ret .closed) => (s.sendEnd k, [.api (.retSend k .closed)])
  | some (.ret .wait) => (s.sgoto k .waiting, [.api (.sleep k)])
  | some (.ret .notified) => (s.sgoto k (.retry .start), [])
  | some _ => (s.sendEnd k, [.api (.retSend k .panicked)])
  | none => (s, [])

/-- After a step of `continue_wait` in send call `k`: `src/mpsc/async_impl.rs:1468-1479`,
`src/mpsc/blocking.rs:1678-1696`. -/
def afterCont (k : Nat) (s : State w V W) (evs : List (Queue.Event W)) : Out w V W :=
  match nodeRet evs with
  | some (.ret .closed) => (s.sendEnd k, [.api (.retSend k .closed)])
  | some (.ret .wait) => (s.sgoto k .waiting, [.api (.sleep k)])
  | some (.ret .notified) => (s.sgoto k (.retry .queued), [])
  | some _ => (s.sendEnd k, [.api (.retSend k .panicked)])
  | none => (s, [])

/-- After a step of the drop of send future `k`: `src/mpsc/async_impl.rs:1494-1501`. -/
def afterDrop (k : Nat) (s : State w V W) (evs : List (Queue.Event W)) : Out w V W :=
  match nodeRet evs with
  | some _ => (s.sendEnd k, [.api (.cancelled k)])
  | none => (s, [])

/-- After a step of `notify` in the drop of the `SendRef` of call `k`: `src/mpsc.rs:559-565`. -/
def afterSendNotify (k : Nat) (s : State w V W) (evs : List (Cell.Event W)) : Out w V W :=
  if notifyOver evs then (s.sendEnd k, [.api (.dropSendEnd k)]) else (s, [])

/-- After a step of `notify` in the drop of a `RecvRef`: `src/mpsc.rs:567-573`. -/
def afterRecvNotify (a : OpId) (s : State w V W) (evs : List (Queue.Event W)) : Out w V W :=
  if opOver evs then (s.refEnd a, [.api (.dropRecvEnd a)]) else (s, [])

/-- A pop operation returned a `Ref`: the `Receiver` hands out a `RecvRef`. /repo/src/mpsc.rs lines 287-306,
/repo/src/mpsc/async_impl.rs lines 1388-1403, /repo/src/mpsc/blocking.rs lines 1599-1612. -/
def State.newRef (s : State w V W) (a : OpId) : State w V W :=
  { s.refgoto a .held with refs := a :: s.refs }

/-- `Poll::Ready(Some(..))` /repo/src/mpsc.rs lines 409-418. -/
def gotMessage (s : State w V W) (a : OpId) : Out w V W :=
  ((s.newRef a).rgoto (.idle none), [.api (.retPoll (.some a))])

/-- After a step of the first `pop_ref` in `poll_recv_ref`: `src/mpsc.rs:409-428`. -/
def afterPop (a : OpId) (v : W) (s : State w V W) : Option Ret → Out w V W
  | none => (s, [])
  | some .popped => gotMessage s a
  | some .closed => (s.rgoto (.idle none), [.api (.retPoll .none)])
  | some _ => (s.rgoto (.toWait v), [])

/-- After a step of `wait_with` in `poll_recv_ref`: `src/mpsc.rs:429-449`. -/
def afterWait (v : W) (s : State w V W) (evs : List (Cell.Event W)) : Out w V W :=
  match waitRet evs with
  | none => (s, [])
  | some .wait => (s.rgoto (.toPop2 v), [])
  | some .closed => (s.rgoto .toLast, [])
  | some .notified => (s.rgoto (.toPop v), [])
  | some .panicked => (s.rgoto (.idle none), [])

/-- After a step of the second `pop_ref` in `poll_recv_ref`: `src/mpsc.rs:432-438`. -/
def afterPop2 (a : OpId) (v : W) (s : State w V W) : Option Ret → Out w V W
  | none => (s, [])
  | some .popped => gotMessage s a
  | some .closed => (s.rgoto (.idle none), [.api (.retPoll .none)])
  | some _ => (s.rgoto (.idle (some v)), [.api (.retPoll .pending)])

/-- After a step of the `pop_ref` after `WaitResult::Closed` in `poll_recv_ref`: `src/mpsc.rs:439-443`. -/
def afterLast (a : OpId) (s : State w V W) : Option Ret → Out w V W
  | none => (s, [])
  | some .popped => gotMessage s a
  | some _ => (s.rgoto (.idle none), [.api (.retPoll .none)])

/-- After a step of `try_recv_ref`: `src/mpsc.rs:379-387`. -/
def afterTry (a : OpId) (p : Option W) (s : State w V W) : Option Ret → Out w V W
  | none => (s, [])
  | some .popped => ((s.newRef a).rgoto (.idle p), [.api (.retTry (.ok a))])
  | some .closed => (s.rgoto (.idle p), [.api (.retTry .closed)])
  | some _ => (s.rgoto (.idle p), [.api (.retTry .empty)])

/-- After `core.close()` in `close_rx`: `src/mpsc.rs:339-345`. -/
def afterRxClose (s : State w V W) : Option Ret → Out w V W
  | some (.closeRet true) => (s.rgoto .toQClose, [])
  | none => (s, [])
  | some _ => (s.rgoto .gone, [.api .rxDropped])

/-- After `core.close()` in the drop of the last `Sender`: `src/mpsc/async_impl.rs:279-280`,
`src/mpsc/blocking.rs:1253-1255`. -/
def afterTxClose (s : State w V W) : Option Ret → Out w V W
  | none => (s, [])
  | some (.closeRet true) => ({ s with closer := .toCloseTx }, [])
  | some _ => if c.blocking then ({ s with closer := .done }, [.api .lastTxDropped])
    else ({ s with closer := .toCloseTx }, [])

/-- The next step of `wait_with`; the waker factory returns `v`. /repo/src/mpsc.rs line 429 with the closures of
/repo/src/mpsc/async_impl.rs line 1394 and /repo/src/mpsc/blocking.rs line 1602. -/
def waitAct (s : State w V W) (o : OpId) (v : W) : Cell.Act W :=
  match s.cell.pc o with
  | .waitLocked | .waitSelf => .mk o v
  | _ => .run o

/-- Scaffolding of the model, no counterpart in the source. -/
def runAct (a : OpId) (spur : Bool) : Act V := if spur then .spurious a else .run a

/-- The next step of the `Receiver`'s current call. `o` is the number of the operation that this
step calls, if it does. /repo/src/mpsc.rs lines 339-345, 379-387 and 404-451. -/
def rxStep (s : State w V W) (o : Nat) (spur : Bool) : Option (Out w V W) :=
  match s.rx with
  | .idle _ | .gone => none
  | .toPop v => onCore c s (.invoke o .pop) fun s _ => (s.rgoto (.pop o v), [])
  | .pop a v => onCore c s (runAct a spur) (afterPop a v)
  | .toWait v => onCell c s (.callWait o) fun s _ => (s.rgoto (.wait o v), [])
  | .wait o v => onCell c s (waitAct s o v) (afterWait v)
  | .toPop2 v => onCore c s (.invoke o .pop) fun s _ => (s.rgoto (.pop2 o v), [])
  | .pop2 a v => onCore c s (runAct a spur) (afterPop2 a v)
  | .toLast => onCore c s (.invoke o .pop) fun s _ => (s.rgoto (.last o), [])
  | .last a => onCore c s (runAct a spur) (afterLast a)
  | .tryPop a p => onCore c s (runAct a spur) (afterTry a p)
  | .toClose pan => onCore c s (.invoke o (.close pan)) fun s _ => (s.rgoto (.closing o), [])
  | .closing a => onCore c s (.run a) afterRxClose
  | .toQClose => onQueue c s (.close o) fun s _ => (s.rgoto (.qclose o), [])
  | .qclose o => onQueue c s (.op o spur) fun s evs =>
      if opOver evs then (s.rgoto .gone, [.api .rxDropped]) else (s, [])

/-- The next step of the drop of the last `Sender`. /repo/src/mpsc/async_impl.rs lines 276-281,
/repo/src/mpsc/blocking.rs lines 1250-1256. -/
def closerStep (s : State w V W) (o : Nat) : Option (Out w V W) :=
  match s.closer with
  | .none | .done => none
  | .toClose pan => onCore c s (.invoke o (.close pan)) fun s _ => ({ s with closer := .closing o }, [])
  | .closing a => onCore c s (.run a) (afterTxClose c)
  | .toCloseTx => onCell c s (.callNotify o true) fun s _ => ({ s with closer := .closeTx o }, [])
  | .closeTx o => onCell c s (.run o) fun s evs =>
      if notifyOver evs then ({ s with closer := .done }, [.api .lastTxDropped]) else (s, [])

/-- What user code does in a step of `push_ref`. /repo/src/lib.rs lines 217 and 226-242. -/
inductive PushIn (V : Type) where
  | run (spur : Bool)
  | elem (v : V)
  | elemPanic (v : V)

/-- Scaffolding of the model, no counterpart in the source. -/
def PushIn.act (a : OpId) : PushIn V → Act V
  | .run spur => runAct a spur
  | .elem v => .elem a v
  | .elemPanic v => .elemPanic a v

/-- The actions. The calls of `Api`, and the steps of the functions cited at `SPC`, `RefPC`, `RPC` and `CPC`. -/
inductive Act (V W : Type) where
  | clone (h h' : Nat)
  | dropTx (h : Nat) (panicking : Bool)
  /-- a step of the drop of the last `Sender` -/
  | closer (o : Nat)
  /-- a send call; `a` is the number of its first push operation -/
  | send (k h : Nat) (wait : Bool) (a : OpId)
  /-- a step of the push operation of send call `k` -/
  | push (k : Nat) (i : PushIn V)
  | retry (k : Nat) (a : OpId)
  /-- send call `k` calls `start_wait` with waker `v` -/
  | start (k : Nat) (v : W)
  /-- send future `k` is polled again, with waker `v`, or the thread wakes up -/
  | cont (k : Nat) (v : W)
  /-- a step of `start_wait`, `continue_wait` or of the removal of the node of call `k` -/
  | node (k : Nat) (spur : Bool)
  /-- the pending send future `k` is dropped -/
  | cancel (k : Nat)
  /-- the parked send call `k` returns because of its timeout -/
  | timeout (k : Nat)
  | sendRead (k : Nat)
  | sendWrite (k : Nat) (v : V)
  | dropSend (k : Nat)
  /-- `NotifyRx::drop` -/
  | sendNotify (k : Nat) (o : OpId)
  | sendNotifyRun (k : Nat)
  | forgetSend (k : Nat)
  | poll (v : W)
  | tryRecv (a : OpId)
  /-- a step of the current call of the `Receiver` -/
  | rx (o : Nat) (spur : Bool)
  | recvRead (a : OpId)
  | recvWrite (a : OpId) (v : V)
  | dropRecv (a : OpId)
  /-- `NotifyTx::drop` -/
  | recvNotify (a : OpId) (o : Nat)
  | recvNotifyRun (a : OpId) (spur : Bool)
  | forgetRecv (a : OpId)
  | dropRx (panicking : Bool)

/-- One step of the channel. /repo/src/mpsc.rs lines 261-451 and 559-573, /repo/src/mpsc/async_impl.rs,
/repo/src/mpsc/blocking.rs; each case cites its lines. -/
def step (s : State w V W) : Act V W → Option (Out w V W)
  -- `Sender::clone`, `src/mpsc/async_impl.rs:262-269`, `src/mpsc/blocking.rs:1236-1243`
  | .clone h h' => if h ∈ s.handles ∧ h' ∉ s.handles then
      some ({ s with handles := h' :: s.handles, txCount := s.txCount + 1 }, [.api (.clone h h')]) else none
  -- `Sender::drop`, `src/mpsc/async_impl.rs:271-282`, `src/mpsc/blocking.rs:1245-1257`: the `fetch_sub`
  | .dropTx h pan => if h ∈ s.handles ∧ ∀ x ∈ s.calls, x.2 ≠ h then
      let s' := { s with handles := s.handles.erase h, txCount := s.txCount - 1 }
      if s.txCount > 1 then some (s', [.api (.dropTx h pan)])
      else some ({ s' with closer := .toClose pan }, [.api (.dropTx h pan)])
    else none
  | .closer o => closerStep c s o
  -- `send_ref` and the first poll of its future, `src/mpsc/async_impl.rs:130-139`, `src/mpsc/blocking.rs:1651-1662`;
  -- `try_send_ref`, `src/mpsc.rs:352-364`
  | .send k h wait a => match s.snd k with
    | .off => if h ∈ s.handles then
        onCore c s (.invoke a .push) fun s _ =>
          ({ s.sgoto k (.push a (if wait then .start else .only)) with calls := (k, h) :: s.calls },
            [.api (.callSend k h wait), .api (.attempt k a)])
      else none
    | _ => none
  | .push k i => match s.snd k with
    | .push a att => onCore c s (i.act a) (afterPush c k a att)
    | _ => none
  | .retry k a => match s.snd k with
    | .retry att => onCore c s (.invoke a .push) fun s _ => (s.sgoto k (.push a att), [.api (.attempt k a)])
    | _ => none
  | .start k v => match s.snd k with
    | .toStart => onQueue c s (.start k v) fun s _ => (s.sgoto k .starting, [])
    | _ => none
  | .cont k v => match s.snd k with
    | .waiting | .toCont => onQueue c s (.cont k v) fun s _ => (s.sgoto k .conting, [])
    | _ => none
  | .node k spur => match s.snd k with
    | .starting => onQueue c s (.node k spur) (afterStart k)
    | .conting => onQueue c s (.node k spur) (afterCont k)
    | .dropping => onQueue c s (.node k spur) (afterDrop k)
    | _ => none
  -- `PinnedDrop for SendRefFuture`, `src/mpsc/async_impl.rs:1494-1501`; threads cannot be cancelled
  | .cancel k => match s.snd k with
    | .waiting => if c.blocking then none
      else onQueue c s (.drop k) fun s _ => (s.sgoto k .dropping, [.api (.cancel k)])
    | _ => none
  -- the return `Timeout` of `send_ref_timeout`, `src/mpsc/blocking.rs:1746-1752`
  | .timeout k => match s.snd k with
    | .waiting => if c.blocking then onQueue c s (.giveUp k) fun s _ => (s.sendEnd k, [.api (.retSend k .timeout)])
      else none
    | _ => none
  | .sendRead k => match s.snd k with
    | .held a => onCore c s (.read a) fun s _ => (s, [])
    | _ => none
  | .sendWrite k v => match s.snd k with
    | .held a => onCore c s (.write a v) fun s _ => (s, [])
    | _ => none
  -- drop of `SendRefInner`: `slot` first, then `_notify`, `src/mpsc.rs:268-285`
  | .dropSend k => match s.snd k with
    | .held a => onCore c s (.dropRef a) fun s _ => (s.sgoto k .toNotify, [.api (.dropSend k)])
    | _ => none
  | .sendNotify k o => match s.snd k with
    | .toNotify => onCell c s (.callNotify o false) fun s _ => (s.sgoto k (.notifying o), [])
    | _ => none
  | .sendNotifyRun k => match s.snd k with
    | .notifying o => onCell c s (.run o) (afterSendNotify k)
    | _ => none
  | .forgetSend k => match s.snd k with
    | .held a => some (s.sendEnd k (.forgotten a), [.api (.forgetSend k)])
    | _ => none
  -- `poll_recv_ref`, `src/mpsc.rs:404-451`; `recv_ref`, `src/mpsc/blocking.rs:1599-1616`
  | .poll v => match s.rx with
    | .idle _ => some (s.rgoto (.toPop v), [.api (.callPoll v)])
    | _ => none
  | .tryRecv a => match s.rx with
    | .idle p => onCore c s (.invoke a .pop) fun s _ => (s.rgoto (.tryPop a p), [.api .callTry])
    | _ => none
  | .rx o spur => rxStep c s o spur
  | .recvRead a => match s.ref a with
    | .held => onCore c s (.read a) fun s _ => (s, [])
    | _ => none
  | .recvWrite a v => match s.ref a with
    | .held => onCore c s (.write a v) fun s _ => (s, [])
    | _ => none
  -- drop of `RecvRefInner`: `slot` first, then `_notify`, `src/mpsc.rs:287-304`
  | .dropRecv a => match s.ref a with
    | .held => onCore c s (.dropRef a) fun s _ => (s.refgoto a .toNotify, [.api (.dropRecv a)])
    | _ => none
  | .recvNotify a o => match s.ref a with
    | .toNotify => onQueue c s (.notify o) fun s _ => (s.refgoto a (.notifying o), [])
    | _ => none
  | .recvNotifyRun a spur => match s.ref a with
    | .notifying o => onQueue c s (.op o spur) (afterRecvNotify a)
    | _ => none
  | .forgetRecv a => match s.ref a with
    | .held => some (s.refEnd a .forgotten, [.api (.forgetRecv a)])
    | _ => none
  -- `Receiver::drop`, `src/mpsc/async_impl.rs:586-590`, `src/mpsc/blocking.rs:1574-1578`
  | .dropRx pan => match s.rx with
    | .idle _ => if s.refs = [] then some (s.rgoto (.toClose pan), [.api (.dropRx pan)]) else none
    | _ => none

end

/-- Executions of a new channel. Scaffolding of the model, no counterpart in the source: the interleavings of the
functions cited at `step`. If `m` is true, the plain loads of the wait queue may return old values, see `Queue.Stale`,
and the memory of the ring buffer and of the wait cell may hold anything: only the control states of their operations
are kept. This allows more than a memory model would, and is there to state what holds whatever the memory does.
`WeakChan` has the channel on the memory model. -/
inductive ExecM (m : Bool) (c : Config W) : Trace V W → State w V W → Prop where
  | init : ExecM m c [] (State.init w V W)
  | step {tr : Trace V W} {s s' : State w V W} {act : Act V W} {evs : Trace V W} :
      ExecM m c tr s → step c s act = some (s', evs) → ExecM m c (tr ++ evs) s'
  | stale {tr : Trace V W} {s : State w V W} {t : Queue.Tid} {p : Queue.PC W} (hm : m = true) :
      ExecM m c tr s → Queue.Stale s.queue t p → ExecM m c tr { s with queue := s.queue.goto t p }
  | mem {tr : Trace V W} {s : State w V W} (core : Thingbuf.State w V) (cell : Cell.State W) (hm : m = true) :
      ExecM m c tr s → core.pc = s.core.pc → cell.pc = s.cell.pc → ExecM m c tr { s with core := core, cell := cell }

/-- Executions of a new channel in which every access reads the last value. Scaffolding of the model, no counterpart in
the source, as `ExecM`. -/
abbrev Exec (c : Config W) : Trace V W → State w V W → Prop := ExecM false c

theorem Exec.init {c : Config W} : Exec c [] (State.init w V W) := ExecM.init

theorem Exec.step {c : Config W} {tr : Trace V W} {s s' : State w V W} {act : Act V W} {evs : Trace V W} (h : Exec c tr s)
    (hs : Chan.step c s act = some (s', evs)) : Exec c (tr ++ evs) s' := ExecM.step h hs

/-- Run a list of actions. Scaffolding of the model, no counterpart in the source. -/
def runActs (c : Config W) (s : State w V W) : List (Act V W) → Option (Out w V W)
  | [] => some (s, [])
  | a :: as => do
    let (s1, e1) ← step c s a
    let (s2, e2) ← runActs c s1 as
    pure (s2, e1 ++ e2)

end Thingbuf.Chan
