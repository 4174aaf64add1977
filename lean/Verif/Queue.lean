import Verif.WaitList

/-!
# The senders' wait queue

Model of `WaitQueue` (`src/wait/queue.rs`) over the pointer-level list of `WaitList`. One
step is at most one access to an atomic word or one acquisition of the lock. The contents of
the list and of the nodes are only accessed under the lock; such accesses are merged with the
atomic access next to them, and the release of the lock and the return are merged with the
last access under the lock. Sequential consistency is assumed.

One of these mergers is not innocent: `List::dequeue` publishes the new state of a node, which
its owner reads without the lock, *before* its other accesses to the node. `QueueFine` is this
model with `dequeue` in two steps. The two models agree on everything but the accesses to
memory (`fine_refines`, `fine_complete` in `QueueFineProps`).

There are arbitrarily many nodes, each with one owner (the send future or blocking send
call that contains it), and arbitrarily many `notify` and `close` calls; all interleave
arbitrarily.

What the callers in `src/mpsc*` do is part of the model:
* the owner of a node is sequential (it has the only `&mut` to it);
* `start_wait` is called on a node that has not waited yet or whose last wait was notified,
  `continue_wait` only after a `start_wait` on the same node returned `Wait`
  (`src/mpsc/async_impl.rs:1436-1490`, `src/mpsc/blocking.rs:1664-1697`);
* `close` is called at most once, when the `Receiver` is dropped (`src/mpsc.rs:339-345`),
  and `notify` only when a `RecvRef` is dropped (`src/mpsc.rs:567-571`). A `RecvRef` borrows
  the `Receiver`, so no `notify` overlaps with or follows `close`.

Not modelled: reuse of the memory of a node after it was freed (every node has its own
address), user code run by `wake`, `clone` and `drop` of a waker. The lock is assumed to be
a mutex (`parking_lot`; for `no_std` see `SpinMutex`).
-/

namespace Thingbuf.Queue

/-- `WaitResult`, `src/wait.rs:33-54`. -/
inductive Res3 where
  | wait | closed | notified
  deriving DecidableEq, Repr

/-- A thread of control: the owner of a node, or a `notify`/`close` call. Scaffolding of the model, no counterpart
in the source. -/
inductive Tid where
  | node (n : Nat)
  | op (o : Nat)
  deriving DecidableEq, Repr

/-- What the owner of a node knows from its last call. What the callers know: /repo/src/mpsc/async_impl.rs lines
1436-1490, /repo/src/mpsc/blocking.rs lines 1664-1697. -/
inductive Last where
  /-- no call yet -/
  | fresh
  /-- the last call returned `Wait` -/
  | waiting
  /-- the last call was `start_wait` and returned `Notified` -/
  | startNotified
  /-- the last call was `continue_wait` and returned `Notified` -/
  | contNotified
  /-- the last call returned `Closed` -/
  | closed
  deriving DecidableEq, Repr

/-- Program counters. Models the control flow of /repo/src/wait/queue.rs lines 189-491; each constructor cites its
lines. -/
inductive PC (W : Type) where
  /-- the owner of a node is not in a call -/
  | idle (l : Last)
  /-- `start_wait`: at the CAS of line 193 -/
  | startCas (v : W)
  /-- `start_wait_slow`: at the lock of line 215 -/
  | startLock (v : W)
  /-- holding the lock, at the load of line 218 -/
  | startLoad (v : W)
  /-- holding the lock, at the `match` of line 221 with this value of `state` -/
  | startLoop (v : W) (q : QSt)
  /-- holding the lock, about to fill in the node, lines 271-279 -/
  | startSet (v : W)
  /-- holding the lock, about to enqueue the node, line 287 -/
  | startEnq (v : W)
  /-- `continue_wait`: at the load of line 305 -/
  | contLoad (v : W)
  /-- `continue_wait_slow`: at the lock of line 332 -/
  | contLock (v : W)
  /-- holding the lock, at the load of line 336 -/
  | contReload (v : W)
  /-- holding the lock, about to update the waiter, lines 349-358 -/
  | contUpd (v : W)
  /-- drop of a send future that is waiting: at `is_linked` -/
  | remCheck
  /-- `Waiter::remove`: at the lock of line 474 -/
  | remLock
  /-- holding the lock, about to remove the node, line 481 -/
  | remList
  /-- holding the lock, at lines 483-485 -/
  | remCas
  /-- about to release the lock, line 486 -/
  | remUnlock
  /-- the memory of the node has been freed -/
  | gone
  /-- the memory of the node has been freed by a blocking send that timed out -/
  | abandoned
  /-- a `notify`/`close` that has not been called yet -/
  | off
  /-- `notify`: at the load of line 375 -/
  | nLoad
  /-- at the loop of line 377 with this value of `state` -/
  | nLoop (q : QSt)
  /-- `notify_slow(state)`: at the lock of line 401 -/
  | nLock (q : QSt)
  /-- holding the lock, at the `match` of line 402 -/
  | nMatch (q : QSt)
  /-- holding the lock, at the store of line 406 -/
  | nForce
  /-- holding the lock, about to look whether the list is empty, line 419; the waiter taken -/
  | nStore (w : Option (Nat × W))
  /-- about to release the lock, line 424 -/
  | nUnlock (w : Option (Nat × W))
  /-- lock released, about to wake, line 428 -/
  | nWake (n : Nat) (v : W)
  /-- `close`: at the swap of line 446 -/
  | cSwap
  /-- at the lock of line 447 -/
  | cLock
  /-- holding the lock, at the loop of line 448 -/
  | cLoop
  /-- holding the lock, about to wake, line 450 -/
  | cWake (n : Nat) (v : W)
  /-- the `notify`/`close` has returned -/
  | done
  /-- unwinding from a failed debug assertion -/
  | panicked

/-- What happens. What /repo/src/wait/queue.rs lines 189-491 does, as seen by its callers, and its accesses to
nodes. -/
inductive Event (W : Type) where
  | callStart (n : Nat) (v : W)
  | retStart (n : Nat) (r : Res3)
  | callCont (n : Nat) (v : W)
  | retCont (n : Nat) (r : Res3)
  /-- a send future (whatever its state) or the frame of a blocking send that got a result
  is being dropped -/
  | callDrop (n : Nat)
  /-- a blocking send gives up waiting because of its timeout -/
  | giveUp (n : Nat)
  /-- the memory of the node is freed -/
  | free (n : Nat)
  | callNotify (o : Nat)
  | retNotify (o : Nat) (woke : Bool)
  | callClose (o : Nat)
  /-- the queue becomes closed -/
  | closing (o : Nat)
  | retClose (o : Nat)
  /-- the node is put into the list, with this waiter -/
  | enq (n : Nat) (v : W)
  /-- the waiter of a node in the list is replaced -/
  | upd (n : Nat) (v : W)
  /-- the node is taken out of the list by a `notify` or `close` -/
  | deq (o : Nat) (n : Nat)
  /-- the waiter `v` taken from node `n` is woken -/
  | wake (o : Nat) (n : Nat) (v : W)
  /-- a notification is stored in the queue -/
  | store (o : Nat)
  /-- the stored notification is consumed -/
  | consume (n : Nat)
  /-- the node is taken out of the list by its owner -/
  | rem (n : Nat)
  /-- the memory of node `n` is accessed through the list -/
  | touch (t : Tid) (n : Nat)
  | assertFailed (t : Tid)
  deriving DecidableEq

/-- The queue, its list, and every thread of control. `borrows` are the `notify` calls in
progress, `rxGone` says that the receiver is being or has been dropped: see the header. `WaitQueue` and its list,
/repo/src/wait/queue.rs lines 60-101 and 151-154. -/
structure State (W : Type) where
  st : QSt
  lock : Option Tid
  list : WList W
  pc : Tid → PC W
  borrows : List Nat
  rxGone : Bool

variable {W : Type}

/-- `WaitQueue::new`, `src/wait/queue.rs:163-178`. -/
def State.init : State W where
  st := .empty
  lock := none
  list := WList.new
  pc := fun | .node _ => .idle .fresh | .op _ => .off
  borrows := []
  rxGone := false

/-- Scaffolding of the model, no counterpart in the source. -/
def State.goto (s : State W) (t : Tid) (p : PC W) : State W :=
  { s with pc := fun u => if u = t then p else s.pc u }

/-- Compile-time and type parameters: are debug assertions on, and `Notify::same`
(`src/wait.rs:59`). -/
structure Config (W : Type) where
  debug : Bool
  same : W → W → Bool

/-- Scaffolding of the model, no counterpart in the source. -/
abbrev Out (W : Type) := State W × List (Event W)

/-- Take the lock and go on. The lock of /repo/src/wait/queue.rs lines 215, 332, 401, 447 and 474. -/
def acquire (s : State W) (t : Tid) (p : PC W) : Option (Out W) :=
  match s.lock with
  | none => some ({ s.goto t p with lock := some t }, [])
  | some _ => none

/-- A debug assertion failed: unwinding releases the lock (the guard is dropped). `debug_assert!` in
/repo/src/wait/queue.rs. -/
def fail (s : State W) (t : Tid) (evs : List (Event W)) : Out W :=
  ({ s.goto t .panicked with lock := if s.lock = some t then none else s.lock },
    evs ++ [.assertFailed t])

/-- The return of `start_wait` with the lock held. The release of the lock at the end of /repo/src/wait/queue.rs
lines 215-290, 332-361, 401-440, 447-452 and 474-486. -/
def State.unlock (s : State W) : State W := { s with lock := none }

/-- `start_wait`, `src/wait/queue.rs:193-202`. -/
def startCas (s : State W) (n : Nat) (v : W) : Out W :=
  match s.st with
  | .waking => ({ s.goto (.node n) (.idle .startNotified) with st := .empty },
      [.consume n, .retStart n .notified])
  | .closed => (s.goto (.node n) (.idle .closed), [.retStart n .closed])
  | _ => (s.goto (.node n) (.startLock v), [])

/-- The loop of `start_wait_slow`, `src/wait/queue.rs:220-266`. `spur`: the weak CAS fails
spuriously. -/
def startLoop (c : Config W) (s : State W) (n : Nat) (v : W) (q : QSt) (spur : Bool) : Out W :=
  match q with
  | .empty =>
    if s.st = .empty ∧ spur = false then
      ({ s.goto (.node n) (.startSet v) with st := .waiting }, [])
    else if c.debug ∧ ¬ (s.st = .empty ∨ s.st = .waking ∨ s.st = .closed) then
      fail s (.node n) []
    else (s.goto (.node n) (.startLoop v s.st), [])
  | .waking =>
    if s.st = .waking ∧ spur = false then
      ({ (s.goto (.node n) (.idle .startNotified)).unlock with st := .empty },
        [.consume n, .retStart n .notified])
    else if c.debug ∧ ¬ (s.st = .waking ∨ s.st = .empty ∨ s.st = .closed) then
      fail s (.node n) []
    else (s.goto (.node n) (.startLoop v s.st), [])
  | .closed => ((s.goto (.node n) (.idle .closed)).unlock, [.retStart n .closed])
  | .waiting => (s.goto (.node n) (.startSet v), [])

/-- Filling in the node, `src/wait/queue.rs:271-286`. -/
def startSet (c : Config W) (s : State W) (n : Nat) (v : W) : Out W :=
  let nd := s.list.node n
  let s' := { s with list := s.list.set n fun nd => { nd with waiter := some v, state := .waiting } }
  if c.debug ∧ ¬ (nd.waiter.isNone ∧ (nd.state = .empty ∨ nd.state = .waking)) then
    fail s' (.node n) []
  else (s'.goto (.node n) (.startEnq v), [])

/-- Enqueueing, unlocking and returning, `src/wait/queue.rs:287-290`. -/
def startEnq (c : Config W) (s : State W) (n : Nat) (v : W) : Out W :=
  let r := s.list.enqueue n
  let evs := r.touched.map (.touch (.node n)) ++ [.enq n v]
  if c.debug ∧ r.ok = false then fail { s with list := r.list } (.node n) evs
  else (({ s with list := r.list }.goto (.node n) (.idle .waiting)).unlock,
    evs ++ [.retStart n .wait])

/-- `continue_wait`, `src/wait/queue.rs:305-319`. -/
def contLoad (c : Config W) (s : State W) (n : Nat) (v : W) : Out W :=
  match (s.list.node n).state with
  | .waking => (s.goto (.node n) (.idle .contNotified), [.retCont n .notified])
  | .closed => (s.goto (.node n) (.idle .closed), [.retCont n .closed])
  | .waiting => (s.goto (.node n) (.contLock v), [])
  | .empty => if c.debug then fail s (.node n) [] else (s.goto (.node n) (.contLock v), [])

/-- The second look of `continue_wait_slow`, `src/wait/queue.rs:336-345`. -/
def contReload (c : Config W) (s : State W) (n : Nat) (v : W) : Out W :=
  match (s.list.node n).state with
  | .waking => ((s.goto (.node n) (.idle .contNotified)).unlock, [.retCont n .notified])
  | .closed => ((s.goto (.node n) (.idle .closed)).unlock, [.retCont n .closed])
  | .waiting => (s.goto (.node n) (.contUpd v), [])
  | .empty => if c.debug then fail s (.node n) [] else (s.goto (.node n) (.contUpd v), [])

/-- The waiter after `continue_wait_slow`, `src/wait/queue.rs:350-357`. -/
def newWaiter (c : Config W) (old : Option W) (v : W) : W :=
  match old with
  | some u => if c.same u v then u else v
  | none => v

/-- Updating the waiter, unlocking and returning, `src/wait/queue.rs:349-361`. -/
def contUpd (c : Config W) (s : State W) (n : Nat) (v : W) : Out W :=
  let w := newWaiter c (s.list.node n).waiter v
  (({ s with list := s.list.set n fun nd => { nd with waiter := some w } }.goto (.node n)
      (.idle .waiting)).unlock, [.upd n w, .retCont n .wait])

/-- `PinnedDrop for SendRefFuture`, `src/mpsc/async_impl.rs:1498` with
`Waiter::is_linked`, `src/wait/queue.rs:489-491`. -/
def remCheck (s : State W) (n : Nat) : Out W :=
  if (s.list.node n).state = .waiting then (s.goto (.node n) .remLock, [])
  else (s.goto (.node n) .gone, [.free n])

/-- `list.remove` in `Waiter::remove`, `src/wait/queue.rs:481`. -/
def remList (c : Config W) (s : State W) (n : Nat) : Out W :=
  let r := s.list.remove n
  let evs := r.touched.map (.touch (.node n)) ++ [.rem n]
  if c.debug ∧ r.ok = false then fail { s with list := r.list } (.node n) evs
  else ({ s with list := r.list }.goto (.node n) .remCas, evs)

/-- The rest of `Waiter::remove`, `src/wait/queue.rs:483-485`. -/
def remCas (s : State W) (n : Nat) : Out W :=
  if s.list.isEmpty ∧ s.st = .waiting then
    ({ s.goto (.node n) .remUnlock with st := .empty }, [])
  else (s.goto (.node n) .remUnlock, [])

/-- The next step of the owner of node `n`. /repo/src/wait/queue.rs lines 189-361 and 474-491; lines as at `PC`. -/
def nodeStep (c : Config W) (s : State W) (n : Nat) (spur : Bool) : Option (Out W) :=
  match s.pc (.node n) with
  | .startCas v => some (startCas s n v)
  | .startLock v => acquire s (.node n) (.startLoad v)
  | .startLoad v => some (s.goto (.node n) (.startLoop v s.st), [])
  | .startLoop v q => some (startLoop c s n v q spur)
  | .startSet v => some (startSet c s n v)
  | .startEnq v => some (startEnq c s n v)
  | .contLoad v => some (contLoad c s n v)
  | .contLock v => acquire s (.node n) (.contReload v)
  | .contReload v => some (contReload c s n v)
  | .contUpd v => some (contUpd c s n v)
  | .remCheck => some (remCheck s n)
  | .remLock => acquire s (.node n) .remList
  | .remList => some (remList c s n)
  | .remCas => some (remCas s n)
  | .remUnlock => some ((s.goto (.node n) .gone).unlock, [.free n])
  | _ => none

/-- `notify` is over. The return of /repo/src/wait/queue.rs lines 375-440. -/
def State.endNotify (s : State W) (o : Nat) : State W :=
  { s.goto (.op o) .done with borrows := s.borrows.erase o }

/-- The loop of `notify`, `src/wait/queue.rs:377-391`. -/
def nLoop (s : State W) (o : Nat) (q : QSt) (spur : Bool) : Out W :=
  if q = .waking ∨ q = .empty then
    if s.st = q ∧ spur = false then
      ({ s.endNotify o with st := .waking }, [.store o, .retNotify o false])
    else (s.goto (.op o) (.nLoop s.st), [])
  else (s.goto (.op o) (.nLock q), [])

/-- The waiter that `List::dequeue` returns, with the node it comes from. /repo/src/wait/queue.rs lines 576-599,
410-428 and 448-451. -/
def taken (val : Option (Nat × Option W)) : Option (Nat × W) :=
  match val with
  | some (n, some v) => some (n, v)
  | _ => none

/-- The event of a node being dequeued. Scaffolding of the model, no counterpart in the source. -/
def deqEvents (o : Nat) (val : Option (Nat × Option W)) : List (Event W) :=
  match val with
  | some (n, _) => [.deq o n]
  | none => []

/-- `notify_slow`, `src/wait/queue.rs:402-437`. The borrow of the receiver ends when the
panic of a failed assertion unwinds. -/
def nMatch (c : Config W) (s : State W) (o : Nat) (q : QSt) : Out W :=
  match q with
  | .empty | .waking =>
    if s.st = q then
      (({ s.endNotify o with st := .waking }).unlock, [.store o, .retNotify o false])
    else if c.debug ∧ ¬ (s.st = .empty ∨ s.st = .waking) then
      fail { s with borrows := s.borrows.erase o } (.op o) []
    else (s.goto (.op o) .nForce, [])
  | .waiting =>
    let r := s.list.dequeue .waking
    let evs := r.touched.map (.touch (.op o)) ++ deqEvents o r.val
    if c.debug ∧ ¬ (r.ok = true ∧ (taken r.val).isSome) then
      fail { s with list := r.list, borrows := s.borrows.erase o } (.op o) evs
    else ({ s with list := r.list }.goto (.op o) (.nStore (taken r.val)), evs)
  | .closed =>
    if c.debug then fail { s with borrows := s.borrows.erase o } (.op o) []
    else ((s.endNotify o).unlock, [.retNotify o false])

/-- Back to the empty state after the last node was popped, `src/wait/queue.rs:419-421`. -/
def nStore (s : State W) (o : Nat) (w : Option (Nat × W)) : Out W :=
  if s.list.isEmpty then ({ s.goto (.op o) (.nUnlock w) with st := .empty }, [])
  else (s.goto (.op o) (.nUnlock w), [])

/-- `drop(list)` and, if there is nobody to wake, the return: `src/wait/queue.rs:424-440`. -/
def nUnlock (s : State W) (o : Nat) (w : Option (Nat × W)) : Out W :=
  match w with
  | some (n, v) => ((s.goto (.op o) (.nWake n v)).unlock, [])
  | none => ((s.endNotify o).unlock, [.retNotify o false])

/-- One iteration of the loop of `close`, `src/wait/queue.rs:448-452`. -/
def cLoop (c : Config W) (s : State W) (o : Nat) : Out W :=
  if s.list.isEmpty then ((s.goto (.op o) .done).unlock, [.retClose o])
  else
    let r := s.list.dequeue .closed
    let evs := r.touched.map (.touch (.op o)) ++ deqEvents o r.val
    if c.debug ∧ r.ok = false then fail { s with list := r.list } (.op o) evs
    else match taken r.val with
      | some (n, v) => ({ s with list := r.list }.goto (.op o) (.cWake n v), evs)
      | none => ({ s with list := r.list }.goto (.op o) .cLoop, evs)

/-- The next step of a `notify` or `close`. /repo/src/wait/queue.rs lines 375-452; lines as at `PC`. -/
def opStep (c : Config W) (s : State W) (o : Nat) (spur : Bool) : Option (Out W) :=
  match s.pc (.op o) with
  | .nLoad => some (s.goto (.op o) (.nLoop s.st), [])
  | .nLoop q => some (nLoop s o q spur)
  | .nLock q => acquire s (.op o) (.nMatch q)
  | .nMatch q => some (nMatch c s o q)
  | .nForce => some (({ s.endNotify o with st := .waking }).unlock, [.store o, .retNotify o false])
  | .nStore w => some (nStore s o w)
  | .nUnlock w => some (nUnlock s o w)
  | .nWake n v => some (s.endNotify o, [.wake o n v, .retNotify o true])
  | .cSwap => some ({ s.goto (.op o) .cLock with st := .closed }, [.closing o])
  | .cLock => acquire s (.op o) .cLoop
  | .cLoop => some (cLoop c s o)
  | .cWake n v => some (s.goto (.op o) .cLoop, [.wake o n v])
  | _ => none

/-- What can happen next. Calls made by /repo/src/mpsc/async_impl.rs lines 1436-1501, /repo/src/mpsc/blocking.rs
lines 1651-1755 and /repo/src/mpsc.rs lines 339-345 and 567-573. -/
inductive Act (W : Type) where
  /-- the owner of node `n` calls `start_wait` with waiter `v` -/
  | start (n : Nat) (v : W)
  /-- the owner of node `n` calls `continue_wait` with waiter `v` -/
  | cont (n : Nat) (v : W)
  /-- the future with node `n` is dropped, or the blocking send with node `n` returns -/
  | drop (n : Nat)
  /-- the blocking send with node `n` returns because of its timeout -/
  | giveUp (n : Nat)
  /-- a `RecvRef` is dropped -/
  | notify (o : Nat)
  /-- the `Receiver` is dropped -/
  | close (o : Nat)
  /-- the owner of node `n` takes a step -/
  | node (n : Nat) (spur : Bool)
  /-- the `notify` or `close` call `o` takes a step -/
  | op (o : Nat) (spur : Bool)

/-- May `start_wait` be called? (see the header) /repo/src/mpsc/async_impl.rs lines 1450-1465,
/repo/src/mpsc/blocking.rs lines 1676-1677 and 1729-1730. -/
def Last.mayStart : Last → Bool
  | .fresh | .startNotified | .contNotified => true
  | _ => false

/-- May `continue_wait` be called? (see the header) /repo/src/mpsc/async_impl.rs lines 1468-1479,
/repo/src/mpsc/blocking.rs lines 1678-1679 and 1731-1732. -/
def Last.mayCont : Last → Bool
  | .waiting | .contNotified => true
  | _ => false

/-- One step. `drop` is `PinnedDrop for SendRefFuture`, `src/mpsc/async_impl.rs:1494-1501`,
and the end of `send_ref`, `src/mpsc/blocking.rs:1651-1698`; `giveUp` is the return
`Timeout` in `send_ref_timeout`, `src/mpsc/blocking.rs:1746-1752`, which does not touch the
node. -/
def step (c : Config W) (s : State W) : Act W → Option (Out W)
  | .start n v => match s.pc (.node n) with
    | .idle l => if l.mayStart then some (s.goto (.node n) (.startCas v), [.callStart n v])
      else none
    | _ => none
  | .cont n v => match s.pc (.node n) with
    | .idle l => if l.mayCont then some (s.goto (.node n) (.contLoad v), [.callCont n v])
      else none
    | _ => none
  | .drop n => match s.pc (.node n) with
    | .idle .waiting => some (s.goto (.node n) .remCheck, [.callDrop n])
    | .idle _ => some (s.goto (.node n) .gone, [.callDrop n, .free n])
    | _ => none
  | .giveUp n => match s.pc (.node n) with
    | .idle .waiting => some (s.goto (.node n) .abandoned, [.giveUp n, .free n])
    | _ => none
  | .notify o => match s.pc (.op o) with
    | .off => if s.rxGone then none
      else some ({ s.goto (.op o) .nLoad with borrows := o :: s.borrows }, [.callNotify o])
    | _ => none
  | .close o => match s.pc (.op o), s.borrows with
    | .off, [] => if s.rxGone then none
      else some ({ s.goto (.op o) .cSwap with rxGone := true }, [.callClose o])
    | _, _ => none
  | .node n spur => nodeStep c s n spur
  | .op o spur => opStep c s o spur

/-- Who takes a step. Scaffolding of the model, no counterpart in the source. -/
def Act.tid : Act W → Tid
  | .start n _ | .cont n _ | .drop n | .giveUp n | .node n _ => .node n
  | .notify o | .close o | .op o _ => .op o

/-- Scaffolding of the model, no counterpart in the source. -/
abbrev Trace (W : Type) := List (Event W)

/-- What a call may do when one of the four plain loads, `state.load(Acquire)` in `start_wait_slow` and `notify` and
`node.state.load(Acquire)` in `continue_wait` and `is_linked`, returns a value that is out of date: call `t` goes on at
`p`, and nothing else changes. /repo/src/wait/queue.rs lines 218, 305, 375 and 490. This allows more than a memory
model would; `QueueLoads` has the machine that keeps the old values and says which of them a load may return. The other
accesses of the two words are `SeqCst` operations, or made under the lock, and read the last value. -/
inductive Stale (s : State W) : Tid → PC W → Prop where
  /-- an old "empty" or "waking" is read, under the lock -/
  | start (n : Nat) (v : W) (q : QSt) (h : s.pc (.node n) = .startLoad v) (hq : q = .empty ∨ q = .waking)
      (hs : s.st ≠ .waiting) : Stale s (.node n) (.startLoop v q)
  /-- "waiting" is read, under the lock, although `close` has stored "closed" -/
  | startWaiting (n : Nat) (v : W) (h : s.pc (.node n) = .startLoad v) (hs : s.st = .closed)
      (hl : s.list.isEmpty = false) : Stale s (.node n) (.startLoop v .waiting)
  /-- `continue_wait` reads an old "waiting" -/
  | cont (n : Nat) (v : W) (h : s.pc (.node n) = .contLoad v) : Stale s (.node n) (.contLock v)
  /-- `is_linked` reads an old "waiting" -/
  | rem (n : Nat) (h : s.pc (.node n) = .remCheck) : Stale s (.node n) .remLock
  /-- `notify` reads an old value -/
  | notify (o : Nat) (q : QSt) (h : s.pc (.op o) = .nLoad) (hq : q ≠ .closed) : Stale s (.op o) (.nLoop q)

/-- Executions of a new queue. If `b` is true the plain loads may return old values, see `Stale`. Scaffolding of the
model, no counterpart in the source: the interleavings of the functions of /repo/src/wait/queue.rs lines 189-491. -/
inductive ExecM (b : Bool) (c : Config W) : Trace W → State W → Prop where
  | init : ExecM b c [] State.init
  | step {tr : Trace W} {s s' : State W} {act : Act W} {evs : Trace W} :
      ExecM b c tr s → step c s act = some (s', evs) → ExecM b c (tr ++ evs) s'
  | stale {tr : Trace W} {s : State W} {t : Tid} {p : PC W} (hb : b = true) :
      ExecM b c tr s → Stale s t p → ExecM b c tr (s.goto t p)

/-- Executions of a new queue in which every load returns the last value. Scaffolding of the model, no counterpart in
the source, as `ExecM`. -/
abbrev Exec (c : Config W) : Trace W → State W → Prop := ExecM false c

theorem Exec.init {c : Config W} : Exec c [] State.init := ExecM.init

theorem Exec.step {c : Config W} {tr : Trace W} {s s' : State W} {act : Act W} {evs : Trace W} (h : Exec c tr s)
    (hs : Queue.step c s act = some (s', evs)) : Exec c (tr ++ evs) s' := ExecM.step h hs

/-- Run a list of actions. Scaffolding of the model, no counterpart in the source. -/
def runActs (c : Config W) (s : State W) : List (Act W) → Option (State W × Trace W)
  | [] => some (s, [])
  | a :: as => do
    let (s1, e1) ← step c s a
    let (s2, e2) ← runActs c s1 as
    pure (s2, e1 ++ e2)

end Thingbuf.Queue
