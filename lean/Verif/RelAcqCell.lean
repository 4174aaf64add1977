import Verif.RelAcqSpec
/-
The ring buffer and the receiver's wait cell together, under the memory orderings written in the source.

`Verif/RelAcq.lean` runs the ring buffer on a release/acquire view machine.  Here the code of the wait cell
(`Cell.step` of `Verif/Cell.lean`) runs on the same machine, beside the ring buffer: the operations of both have
views of both, so that what a sender did to the ring buffer before it notified the cell is published through the cell,
and the other way round.

The simplifications of `Verif/RelAcq.lean` and `Verif/Cell.lean` apply.  In addition:
* Every write to `WaitCell::lock` is a read-modify-write, so each message follows immediately the one it
  has read, and its number can serve as its timestamp.
* The two compare-and-swaps of the cell are strong (cell.rs line 188): they fail only if they find a different value;
  that may be an outdated one.
* The stored waker is not atomic: an access may find any write that is not hidden by a later write known to happen before
  the access.
-/
namespace Thingbuf.RA

/-- The memory orderings of the accesses of /repo/src/wait/cell.rs. -/
structure CellOrders where
  /-- first `compare_exchange` of `wait_with` (line 69), success -/
  startOk : MOrd
  /-- first `compare_exchange` of `wait_with` (line 69), failure (line 188) -/
  startFail : MOrd
  /-- second `compare_exchange` of `wait_with` (line 101), success -/
  unlockOk : MOrd
  /-- second `compare_exchange` of `wait_with` (line 101), failure (line 188) -/
  unlockFail : MOrd
  /-- `fetch_and(TX_CLOSED)` in `wait_with` (line 116) -/
  reset : MOrd
  /-- `fetch_or` in `notify2` (line 164) -/
  signal : MOrd
  /-- `fetch_and(!NOTIFYING)` in `notify2` (line 168) -/
  clear : MOrd

/-- The orderings written in the source. /repo/src/wait/cell.rs, lines as in `CellOrders`. -/
def CellOrders.source : CellOrders where
  startOk := .acquire
  startFail := .acquire
  unlockOk := .acqRel
  unlockFail := .acquire
  reset := .acqRel
  signal := .acqRel
  clear := .acqRel

/-- A write to `WaitCell::lock`. Part of the machine, not of /repo. -/
structure LMsg where
  val : Cell.Bits
  view : View
  /-- bookkeeping: the call of `wait_with` that was the last to set `PARKING` -/
  holder : OpId

/-- The ring buffer of `RState`, and `WaitCell` (/repo/src/wait/cell.rs lines 36-39) as messages and writes. -/
structure XState (w : Nat) (V : Type) where
  /-- the ring buffer, the views of all operations, and the number of events so far -/
  core : RState w V
  /-- the messages of `WaitCell::lock`, oldest first (cell.rs line 37) -/
  lock : List LMsg
  /-- the writes to `WaitCell::waiter`, oldest first: position in the trace, value (cell.rs line 38) -/
  waiter : List (Nat × Option Nat)
  cpc : OpId → Cell.PC Nat

/-- A new channel core: `Core::new` (/repo/src/lib.rs lines 108-123) and `WaitCell::new` (cell.rs lines 48-53). -/
def XState.init (w : Nat) (V : Type) : XState w V where
  core := .init w V
  lock := [⟨Cell.WAITING, .bot, 0⟩]
  waiter := []
  cpc := fun _ => .idle

/-- What the environment chooses.  For a step of the cell, `n` is the number of the message of `lock` that is read,
or the number of the write to the waker that is seen (0: the initial value). As `Act` of `Verif/Cell.lean`, with the
choices of the machine. -/
inductive XAct (V : Type) where
  | core (act : RAct V)
  | cell (act : Cell.Act Nat) (n : Nat)

/-- The access to shared memory that is next at some place of the code of the cell. /repo/src/wait/cell.rs, lines as
in `CellOrders`. -/
inductive CAcc where
  | none
  | waker
  | rmw (o : MOrd)
  | cas (expected : Cell.Bits) (ok fail : MOrd)

/-- Which access the code makes at each place (cell.rs, lines as in `CellOrders`). /repo/src/wait/cell.rs, lines as
in `CellOrders`. -/
def CellOrders.acc (o : CellOrders) : Cell.PC Nat → CAcc
  | .waitStart => .cas Cell.WAITING o.startOk o.startFail
  | .waitUnlock _ _ => .cas Cell.PARKING o.unlockOk o.unlockFail
  | .waitReset _ _ _ _ => .rmw o.reset
  | .notifyStart _ => .rmw o.signal
  | .notifyClear _ => .rmw o.clear
  | .waitStoring _ | .waitTaking _ _ _ | .notifyTaking => .waker
  | _ => .none

/-- The operation that takes a step. Scaffolding of the model, no counterpart in the source. -/
def cellActOp : Cell.Act Nat → OpId
  | .callWait a | .callNotify a _ | .run a | .mk a _ | .mkPanic a => a

/-- The access made by a step: only `run` touches shared memory. /repo/src/wait/cell.rs, lines as in `CellOrders`.
-/
def CellOrders.actAcc (o : CellOrders) (pc : Cell.PC Nat) : Cell.Act Nat → CAcc
  | .run _ => o.acc pc
  | _ => .none

section
variable {w : Nat} {V : Type}

/-- The waker last written. Scaffolding of the model, no counterpart in the source. -/
def XState.latest (s : XState w V) : Option Nat := (s.waiter.getLast?.map Prod.snd).getD none

/-- The state that the code of `Verif/Cell.lean` sees when it finds `l` in `lock` or `x` in `waiter`. Scaffolding of
the model, no counterpart in the source. -/
def XState.snap (s : XState w V) (l : Cell.Bits) (x : Option Nat) : Cell.State Nat := ⟨l, x, s.cpc⟩

/-- The message number `n` of `lock`, if operation `a` may read it. Part of the machine, not of /repo. -/
def XState.readLock (s : XState w V) (a : OpId) (n : Nat) : Option LMsg :=
  if (s.core.view a).ts .lock ≤ n then s.lock[n]? else none

/-- What operation `a` may see of the stored waker: the `n`-th write, unless it knows of a later one. Part of the
machine, not of /repo. -/
def XState.seen (s : XState w V) (a : OpId) (n : Nat) : Option (Option Nat) :=
  if n ≤ s.waiter.length ∧ ∀ e ∈ s.waiter.drop n, e.1 ∉ (s.core.view a).hb then
    some (if n = 0 then none else (s.waiter[n - 1]?.map Prod.snd).getD none)
  else none

/-- Operation `a` moves to `p`. Scaffolding of the model, no counterpart in the source. -/
def XState.goto (s : XState w V) (a : OpId) (p : Cell.PC Nat) : XState w V := { s with cpc := upd s.cpc a p }

/-- Operation `a` comes to know `v`. Scaffolding of the model, no counterpart in the source. -/
def XState.setView (s : XState w V) (a : OpId) (v : View) : XState w V :=
  { s with core := { s.core with view := upd s.core.view a v } }

/-- Operation `a` reads message number `n` of `lock`. Part of the machine, not of /repo. -/
def XState.load (s : XState w V) (a : OpId) (n : Nat) (m : LMsg) (acq : Bool) : XState w V :=
  s.setView a (if acq then ((s.core.view a).see .lock n).join m.view else (s.core.view a).see .lock n)

/-- Operation `a` has the events `evs`. Scaffolding of the model, no counterpart in the source. -/
def XState.emit (s : XState w V) (a : OpId) (evs : List (Cell.Event Nat)) : XState w V × List (REv V) :=
  ({ s with core := { s.core with
      view := upd s.core.view a ⟨(s.core.view a).ts, List.range' s.core.now evs.length ++ (s.core.view a).hb⟩
      now := s.core.now + evs.length } },
   stamp (s.core.view a).hb s.core.now (evs.map .cell))

/-- Operation `a` writes message number `n` of `lock`; `base` is the view of the message it has read. Part of the
machine, not of /repo. -/
def XState.put (s : XState w V) (a : OpId) (n : Nat) (v : Cell.Bits) (rel : Bool) (base : View) (h : OpId) :
    XState w V :=
  { s.setView a ((s.core.view a).see .lock n) with
    lock := s.lock ++
      [⟨v, (if rel then (s.core.view a).see .lock n else View.bot.see .lock n).join base, h⟩] }

/-- The events that are the read-modify-write itself; others that come with it, such as the return of the call, come after
it. Scaffolding of the model, no counterpart in the source. -/
def atomicEv : Cell.Event Nat → Bool
  | .signal _ _ | .register _ _ => true
  | _ => false

/-- A step that does not touch shared memory. Part of the machine; the code is `Cell.step`. -/
def XState.doNone (s : XState w V) (a : OpId) (k : Cell.State Nat × List (Cell.Event Nat)) :
    XState w V × List (REv V) :=
  (s.goto a (k.1.pc a)).emit a k.2

/-- A step that replaces the stored waker. Part of the machine; the code is `Cell.step`. -/
def XState.doWaker (s : XState w V) (a : OpId) (k : Cell.State Nat × List (Cell.Event Nat)) :
    XState w V × List (REv V) :=
  ({ s.goto a (k.1.pc a) with waiter := s.waiter ++ [(s.core.now, k.1.waiter)] }).emit a k.2

/-- A step that loads message number `n` of `lock`. Part of the machine; the code is `Cell.step`. -/
def XState.doLoad (s : XState w V) (a : OpId) (n : Nat) (m : LMsg) (o : MOrd)
    (k : Cell.State Nat × List (Cell.Event Nat)) : XState w V × List (REv V) :=
  ((s.load a n m o.acq).goto a (k.1.pc a)).emit a k.2

/-- A step that replaces message number `n` of `lock`, the last one. Part of the machine; the code is `Cell.step`.
-/
def XState.doRmw (s : XState w V) (a : OpId) (n : Nat) (m : LMsg) (o : MOrd)
    (k : Cell.State Nat × List (Cell.Event Nat)) : XState w V × List (REv V) :=
  let h := if s.cpc a = .waitStart then a else m.holder
  let r1 := ((s.load a n m o.acq).goto a (k.1.pc a)).emit a (k.2.takeWhile atomicEv)
  let r2 := (r1.1.put a (n + 1) k.1.lock o.rel m.view h).emit a (k.2.dropWhile atomicEv)
  (r2.1, r1.2 ++ r2.2)

/-- A step of the cell (cell.rs, all lines: the code is `Cell.step`). The code is `Cell.step` of `Verif/Cell.lean`
(/repo/src/wait/cell.rs lines 65-176), on this machine. -/
def XState.cellStep (o : CellOrders) (c : Cell.Config) (s : XState w V) (act : Cell.Act Nat) (n : Nat) :
    Option (XState w V × List (REv V)) :=
  let a := cellActOp act
  match o.actAcc (s.cpc a) act with
  | .none => (Cell.step c (s.snap Cell.WAITING none) act).map (s.doNone a)
  | .waker =>
    match s.seen a n with
    | none => none
    | some x => (Cell.step c (s.snap Cell.WAITING x) act).map (s.doWaker a)
  | .rmw od =>
    match s.readLock a n with
    | none => none
    | some m =>
      if n + 1 = s.lock.length then (Cell.step c (s.snap m.val s.latest) act).map (s.doRmw a n m od) else none
  | .cas e ok fail =>
    match s.readLock a n with
    | none => none
    | some m =>
      if m.val = e then
        if n + 1 = s.lock.length then (Cell.step c (s.snap m.val s.latest) act).map (s.doRmw a n m ok) else none
      else (Cell.step c (s.snap m.val s.latest) act).map (s.doLoad a n m fail)

/-- The machine. The code is that of `Verif/Core.lean` and `Verif/Cell.lean`, on this machine. -/
def xstep (o : Orders) (co : CellOrders) (c : Cell.Config) (cap : Nat) (s : XState w V) :
    XAct V → Option (XState w V × List (REv V))
  | .core act => (rstep o cap s.core act).map fun r => ({ s with core := r.1 }, r.2)
  | .cell act n => s.cellStep co c act n

end

/-- Executions, with the given orderings, in which nothing read by the ring buffer is older than a period of the
position counter. Scaffolding of the model, no counterpart in the source. -/
inductive XExec (o : Orders) (co : CellOrders) (c : Cell.Config) (w cap : Nat) {V : Type} :
    List (REv V) → XState w V → Prop where
  | init : XExec o co c w cap [] (XState.init w V)
  | step {tr : List (REv V)} {s s' : XState w V} {act : XAct V} {evs : List (REv V)} :
      XExec o co c w cap tr s → xstep o co c cap s act = some (s', evs) → Timely w cap (tr ++ evs) s'.core →
      XExec o co c w cap (tr ++ evs) s'

/-- Run a list of actions (executable; used for concrete cases). Scaffolding of the model, no counterpart in the
source. -/
def runXActs {w : Nat} {V : Type} (o : Orders) (co : CellOrders) (c : Cell.Config) (cap : Nat) :
    XState w V → List (XAct V) → Option (XState w V × List (REv V))
  | s, [] => some (s, [])
  | s, act :: acts =>
    match xstep o co c cap s act with
    | none => none
    | some (s1, e1) =>
      match runXActs o co c cap s1 acts with
      | none => none
      | some (s2, e2) => some (s2, e1 ++ e2)

/-- The events of the wait cell. Scaffolding of the model, no counterpart in the source. -/
def XEv.cell? {V : Type} : XEv V → Option (Cell.Event Nat)
  | .core _ => none
  | .cell e => some e

/-- The events of the wait cell in a trace, without what happened before them. Scaffolding of the model, no
counterpart in the source. -/
def cellOf {V : Type} (tr : List (REv V)) : Cell.Trace Nat := tr.filterMap fun e => e.1.cell?

end Thingbuf.RA
