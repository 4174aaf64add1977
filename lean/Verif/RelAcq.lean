import Verif.Core
import Verif.Cell
/-
The ring buffer under the memory orderings written in the source.

`Verif/Core.lean` lets every load return the current value.  Here the same code (the same `runStep` and
`step`) runs on a release/acquire view machine: the writes to an atomic location are messages with
timestamps (the modification order), a load may return any message that is not older than what
the caller has already seen, a read-modify-write reads the message immediately before the one it
writes, and views travel with messages only from a release write to an acquire read.  The elements
are not atomic: a read of an element may return any write that is not hidden by a later write known
to happen before the read.

Simplifications:
* `SeqCst` is treated as acquire+release: executions that the single total order of `SeqCst` accesses
  would forbid are allowed, so what is proved holds for `SeqCst` too.
* A view belongs to an operation instance, not to a thread.  Two operations of one thread, a `Ref` that is
  sent to another thread, or any other synchronisation between the callers is an action `sync`, which
  the environment may perform at any time or not at all.
* There are no relaxed writes in the code, so the machine has no "promises" (load buffering).
* The timestamps are natural numbers chosen by the environment; any finite modification order can be
  so numbered, with room for insertions.
-/
namespace Thingbuf.RA

/-- The atomic locations: `Core::head`, `Core::tail` (/repo/src/lib.rs lines 89-91), `Slot::state` (line 103) and
`WaitCell::lock` (/repo/src/wait/cell.rs line 37).  The ring buffer does not access the last one: see
`Verif/RelAcqCell.lean`. -/
inductive Loc where
  | head
  | tail
  | slot (i : Nat)
  | lock
deriving DecidableEq

/-- `core::sync::atomic::Ordering`. Part of the machine (of the Rust memory model), not of /repo. -/
inductive MOrd where
  | relaxed
  | acquire
  | release
  | acqRel
  | seqCst
deriving DecidableEq

/-- A load with this ordering synchronises with the write it reads. Part of the machine, not of /repo. -/
def MOrd.acq : MOrd → Bool
  | .acquire | .acqRel | .seqCst => true
  | _ => false

/-- A write with this ordering publishes what happened before it. Part of the machine, not of /repo. -/
def MOrd.rel : MOrd → Bool
  | .release | .acqRel | .seqCst => true
  | _ => false

/-- The memory orderings of the accesses of /repo/src/lib.rs. -/
structure Orders where
  /-- `tail.load` at the start of `push_ref` (line 187) -/
  pushStart : MOrd
  /-- `slot.state.load` in `push_ref` (line 213) -/
  pushSlot : MOrd
  /-- `tail.compare_exchange_weak` (lines 218-220), success -/
  pushCasOk : MOrd
  /-- `tail.compare_exchange_weak` (lines 218-220), failure -/
  pushCasFail : MOrd
  /-- `head.fetch_or(0)` (line 268) -/
  pushHead : MOrd
  /-- `tail.load` at the end of the loop of `push_ref` (line 279) -/
  pushReload : MOrd
  /-- `head.load` at the start of `pop_ref` (line 287) -/
  popStart : MOrd
  /-- `slot.state.load` in `pop_ref` (line 311) -/
  popSlot : MOrd
  /-- `head.compare_exchange_weak` (lines 317-319), success -/
  popCasOk : MOrd
  /-- `head.compare_exchange_weak` (lines 317-319), failure -/
  popCasFail : MOrd
  /-- `tail.fetch_or(0)` (line 346) -/
  popTail : MOrd
  /-- `head.load` at the end of the loop of `pop_ref` (line 366) -/
  popReload : MOrd
  /-- the loads of `len` (lines 372-375) -/
  len : MOrd
  /-- `tail.fetch_or(closed)` in `close` (line 173) -/
  close : MOrd
  /-- `slot.state.store` in the drop of a `Ref` (line 479) -/
  dropRef : MOrd

/-- The orderings written in the source. /repo/src/lib.rs, lines as in `Orders`. -/
def Orders.source : Orders where
  pushStart := .relaxed
  pushSlot := .acquire
  pushCasOk := .seqCst
  pushCasFail := .acquire
  pushHead := .seqCst
  pushReload := .acquire
  popStart := .relaxed
  popSlot := .acquire
  popCasOk := .seqCst
  popCasFail := .acquire
  popTail := .seqCst
  popReload := .acquire
  len := .seqCst
  close := .seqCst
  dropRef := .release

/-- What an operation knows, or what a message tells to those who acquire it: for each location the newest
message known, and the events that happened before. Part of the machine, not of /repo. -/
structure View where
  ts : Loc → Nat
  /-- positions in the trace -/
  hb : List Nat

/-- Knowing nothing but the initial values. Part of the machine, not of /repo. -/
def View.bot : View := ⟨fun _ => 0, []⟩

/-- The least view above both. Part of the machine, not of /repo. -/
def View.join (v u : View) : View := ⟨fun l => max (v.ts l) (u.ts l), v.hb ++ u.hb⟩

/-- Having seen the message `t` at `l`. Part of the machine, not of /repo. -/
def View.see (v : View) (l : Loc) (t : Nat) : View :=
  ⟨fun k => if k = l then max (v.ts k) t else v.ts k, v.hb⟩

/-- A write to an atomic location.  It occupies the interval `(frm, ts]` of the modification order:
nothing can be written between a read-modify-write and the message it read. Part of the machine, not of /repo. -/
structure Msg (w : Nat) where
  frm : Nat
  ts : Nat
  val : BitVec w
  view : View
  /-- bookkeeping: how many reservations there were when this was written -/
  born : Nat
  /-- bookkeeping: how many elements had been dequeued when this was written -/
  deqs : Nat

/-- An event of the ring buffer, or of the wait cell that the same threads use (`Verif/RelAcqCell.lean`; there are none
in the executions of the ring buffer alone).  Wakers are numbers. Scaffolding of the model, no counterpart in the
source. -/
inductive XEv (V : Type) where
  | core (e : Event V)
  | cell (e : Cell.Event Nat)
deriving DecidableEq

/-- An event together with the positions of the events that happened before it. Scaffolding of the model, no
counterpart in the source. -/
abbrev REv (V : Type) := XEv V × List Nat

/-- The memory of `Core` and its slots (/repo/src/lib.rs lines 89-104) as messages, and what every operation knows.
-/
structure RState (w : Nat) (V : Type) where
  /-- the messages of each location -/
  mem : Loc → List (Msg w)
  /-- the writes to the element of each slot, oldest first: position in the trace, value -/
  cont : Nat → List (Nat × V)
  pc : OpId → PC w
  view : OpId → View
  /-- the number of events so far -/
  now : Nat
  /-- bookkeeping: the number of reservations so far -/
  res : Nat
  /-- bookkeeping: the number of elements dequeued so far -/
  deq : Nat
  /-- bookkeeping: how many reservations there were when the oldest message read by the operation was
  written -/
  oldest : OpId → Nat

/-- `Core::new` and the slots (/repo/src/lib.rs lines 108-123, 519-546): one initial message
per location, seen by everybody. -/
def RState.init (w : Nat) (V : Type) : RState w V where
  mem := fun l => [⟨0, 0, match l with | .slot i => BitVec.ofNat w i | _ => 0#w, .bot, 0, 0⟩]
  cont := fun _ => []
  pc := fun _ => .idle
  view := fun _ => .bot
  now := 0
  res := 0
  deq := 0
  oldest := fun _ => 0

/-- What the environment chooses.  `rd` is the timestamp of the message that is read, `wr` the timestamp of
the message that is written, `k` the number of the write to the element that is seen (0: the
uninitialised memory). As `Act` of `Verif/Core.lean`, with the choices of the machine. -/
inductive RAct (V : Type) where
  | invoke (a : OpId) (op : Op)
  | run (a : OpId) (rd wr : Nat)
  | spurious (a : OpId) (rd : Nat)
  | elem (a : OpId) (v : V) (k : Nat)
  | elemPanic (a : OpId) (v : V) (k : Nat)
  | read (a : OpId) (k : Nat)
  | write (a : OpId) (v : V)
  | dropRef (a : OpId) (wr : Nat)
  /-- everything that `a` knows becomes known to `b`: program order of a thread, moving a
  `Ref` to another thread, joining a thread, ... -/
  | sync (a b : OpId)

/-- The atomic access that is next at some place of the code. /repo/src/lib.rs, lines as in `Orders`. -/
inductive Acc (w : Nat) where
  | none
  | load (l : Loc) (o : MOrd)
  | rmw (l : Loc) (o : MOrd)
  | cas (l : Loc) (expected : BitVec w) (ok fail : MOrd)

section
variable {w : Nat} {V : Type}

/-- Which access the code makes at each place (/repo/src/lib.rs, lines as in `Orders`). -/
def Orders.acc (o : Orders) (c : Params w) (cap : Nat) : PC w → Acc w
  | .pushStart => .load .tail o.pushStart
  | .pushLoop _ t =>
    if t &&& c.closed ≠ 0#w then .none
    else if (c.idxGen t).1.toNat < cap then .load (.slot (c.idxGen t).1.toNat) o.pushSlot
    else .none
  | .pushCas _ t => .cas .tail t o.pushCasOk o.pushCasFail
  | .pushHead _ _ => .rmw .head o.pushHead
  | .pushReload _ => .load .tail o.pushReload
  | .popStart => .load .head o.popStart
  | .popLoop _ h =>
    if (c.idxGen h).1.toNat < cap then .load (.slot (c.idxGen h).1.toNat) o.popSlot else .none
  | .popCas _ h => .cas .head h o.popCasOk o.popCasFail
  | .popTail _ _ => .rmw .tail o.popTail
  | .popReload _ => .load .head o.popReload
  | .lenStart => .load .tail o.len
  | .lenHead _ => .load .head o.len
  | .lenTail _ _ => .load .tail o.len
  | .closeStart p => if p then .none else .rmw .tail o.close
  | _ => .none

/-- The newest value of a location in modification order (for the initial state and the executions below
this is the last message written). Scaffolding of the model, no counterpart in the source. -/
def RState.last (s : RState w V) (l : Loc) : BitVec w :=
  match (s.mem l).getLast? with
  | some m => m.val
  | none => 0#w

/-- The value last written to an element. Scaffolding of the model, no counterpart in the source. -/
def RState.latest (s : RState w V) (i : Nat) : Option V := (s.cont i).getLast?.map Prod.snd

/-- The state that the code of `Verif/Core.lean` sees when it accesses the location `l` and finds `v`
there.  Everything else is hidden from it.  (`val` only labels the events `dequeue`, `commit` and
`release`.) Scaffolding of the model, no counterpart in the source. -/
def RState.snap (s : RState w V) (l : Option Loc) (v : BitVec w) : State w V where
  head := if l = some .head then v else 0#w
  tail := if l = some .tail then v else 0#w
  st := fun i => if l = some (.slot i) then v else 0#w
  val := s.latest
  pc := s.pc

/-- The content of a location after a step of the code. /repo/src/lib.rs lines 89-104. -/
def cell (s : State w V) : Loc → BitVec w
  | .head => s.head
  | .tail => s.tail
  | .slot i => s.st i
  | .lock => 0#w

/-- The message `t` of location `l`, if operation `a` may read it. Part of the machine, not of /repo. -/
def RState.readMsg (s : RState w V) (a : OpId) (l : Loc) (t : Nat) : Option (Msg w) :=
  if (s.view a).ts l ≤ t then (s.mem l).find? (fun m => m.ts = t) else none

/-- Operation `a` reads the message `m`. Part of the machine, not of /repo. -/
def RState.load (s : RState w V) (a : OpId) (l : Loc) (m : Msg w) (acq : Bool) : RState w V :=
  { s with
    view := upd s.view a (if acq then ((s.view a).see l m.ts).join m.view else (s.view a).see l m.ts)
    oldest := upd s.oldest a (min (s.oldest a) m.born) }

/-- The events `evs`, as the positions `n`, `n+1`, ... of the trace, after the events `hb`. Scaffolding of the
model, no counterpart in the source. -/
def stamp {α : Type} (hb : List Nat) (n : Nat) : List α → List (α × List Nat)
  | [] => []
  | e :: evs => (e, hb) :: stamp (n :: hb) (n + 1) evs

/-- The same for events of the ring buffer. Scaffolding of the model, no counterpart in the source. -/
def cstamp (hb : List Nat) (n : Nat) (evs : List (Event V)) : List (REv V) := stamp hb n (evs.map .core)

/-- Operation `a` moves to `pc`, with the events `evs`. Scaffolding of the model, no counterpart in the source. -/
def RState.emit (s : RState w V) (a : OpId) (pc : PC w) (evs : List (Event V)) :
    RState w V × List (REv V) :=
  ({ s with
      pc := upd s.pc a pc
      view := upd s.view a ⟨(s.view a).ts, (List.range' s.now evs.length) ++ (s.view a).hb⟩
      now := s.now + evs.length
      res := s.res + nRes evs
      deq := s.deq + nDeq evs },
   cstamp (s.view a).hb s.now evs)

/-- There is room for a write in the interval `(frm, ts]`. Part of the machine, not of /repo. -/
def RState.fits (s : RState w V) (l : Loc) (frm ts : Nat) : Bool :=
  decide (frm < ts) && (s.mem l).all fun m => decide (m.ts ≤ frm) || decide (ts ≤ m.frm)

/-- Operation `a` writes a message.  `base` is the view of the message that a read-modify-write has read
(release sequences). Part of the machine, not of /repo. -/
def RState.put (s : RState w V) (a : OpId) (l : Loc) (frm ts : Nat) (v : BitVec w) (rel : Bool)
    (base : View) : RState w V :=
  { s with
    mem := fun k => if k = l then s.mem k ++
      [⟨frm, ts, v, (if rel then (s.view a).see l ts else View.bot.see l ts).join base, s.res, s.deq⟩]
      else s.mem k
    view := upd s.view a ((s.view a).see l ts) }

/-- A step of the code that loads `m` from `l`. Part of the machine; the code is `runStep` of `Verif/Core.lean`. -/
def RState.doLoad (s : RState w V) (a : OpId) (l : Loc) (m : Msg w) (o : MOrd)
    (k : State w V × List (Event V)) : RState w V × List (REv V) :=
  (s.load a l m o.acq).emit a (k.1.pc a) k.2

/-- A step of the code that replaces the message `m` of `l`. Part of the machine; the code is `runStep` of
`Verif/Core.lean`. -/
def RState.doRmw (s : RState w V) (a : OpId) (l : Loc) (m : Msg w) (o : MOrd) (wr : Nat)
    (k : State w V × List (Event V)) : RState w V × List (REv V) :=
  let r := (s.load a l m o.acq).emit a (k.1.pc a) k.2
  (r.1.put a l m.ts wr (cell k.1 l) o.rel m.view, r.2)

/-- The next atomic step of operation `a`. The code is `runStep` of `Verif/Core.lean` (/repo/src/lib.rs lines
168-386), on this machine. -/
def RState.run (o : Orders) (cap : Nat) (s : RState w V) (a : OpId) (rd wr : Nat) :
    Option (RState w V × List (REv V)) :=
  let c := Params.new w cap
  match o.acc c cap (s.pc a) with
  | .none => (runStep c cap (s.snap none 0#w) a).map fun k => s.emit a (k.1.pc a) k.2
  | .load l od =>
    match s.readMsg a l rd with
    | none => none
    | some m => (runStep c cap (s.snap (some l) m.val) a).map (s.doLoad a l m od)
  | .rmw l od =>
    match s.readMsg a l rd with
    | none => none
    | some m =>
      if s.fits l m.ts wr then (runStep c cap (s.snap (some l) m.val) a).map (s.doRmw a l m od wr)
      else none
  | .cas l e ok fail =>
    match s.readMsg a l rd with
    | none => none
    | some m =>
      if m.val = e then
        if s.fits l m.ts wr then (runStep c cap (s.snap (some l) m.val) a).map (s.doRmw a l m ok wr)
        else none
      else (runStep c cap (s.snap (some l) m.val) a).map (s.doLoad a l m fail)

/-- What operation `a` may see of the element of slot `i`: the `k`-th write, unless it knows of a later
one. Part of the machine, not of /repo. -/
def RState.visible (s : RState w V) (a : OpId) (i k : Nat) : Option (Option V) :=
  if k ≤ (s.cont i).length ∧ ∀ e ∈ (s.cont i).drop k, e.1 ∉ (s.view a).hb then
    some (if k = 0 then none else (s.cont i)[k - 1]?.map Prod.snd)
  else none

/-- The state that the code sees when it finds `x` in the element of slot `i`. Scaffolding of the model, no
counterpart in the source. -/
def RState.snapVal (s : RState w V) (i : Nat) (x : Option V) : State w V :=
  { s.snap none 0#w with val := upd (fun _ => none) i x }

/-- Write to the element of slot `i`, as the next event of the trace. Part of the machine, not of /repo. -/
def RState.putVal (s : RState w V) (i : Nat) (v : V) : RState w V :=
  { s with cont := upd s.cont i (s.cont i ++ [(s.now, v)]) }

/-- The slot whose element `a` may access at some place of the code. /repo/src/lib.rs lines 226-248, 323-327 and
426-473. -/
def elemOf (c : Params w) : PC w → Option Nat
  | .pushInit t => some (c.idxGen t).1.toNat
  | .pushHeld i _ | .popHeld i _ => some i
  | _ => none

/-- The push at this place of the code creates its element (there is nothing to recycle): /repo/src/lib.rs
lines 226-237. -/
def fresh (c : Params w) : PC w → Bool
  | .pushInit t => decide ((c.idxGen t).2 = 0#w)
  | _ => false

/-- The machine. The code is `step` of `Verif/Core.lean` (/repo/src/lib.rs lines 168-481), on this machine. -/
def rstep (o : Orders) (cap : Nat) (s : RState w V) (act : RAct V) :
    Option (RState w V × List (REv V)) :=
  let c := Params.new w cap
  match act with
  | .invoke a op =>
    (step cap (s.snap none 0#w) (.invoke a op)).map fun k =>
      { s with oldest := upd s.oldest a s.res }.emit a (k.1.pc a) k.2
  | .run a rd wr => s.run o cap a rd wr
  | .spurious a rd =>
    match o.acc c cap (s.pc a) with
    | .cas l _ _ fail =>
      match s.readMsg a l rd with
      | none => none
      | some m => (step cap (s.snap (some l) m.val) (.spurious a)).map (s.doLoad a l m fail)
    | _ => none
  | .elem a v n =>
    match elemOf c (s.pc a) with
    | none => none
    | some i =>
      match s.visible a i n with
      | none => none
      | some x => (step cap (s.snapVal i x) (.elem a v)).map fun k =>
          (s.putVal i v).emit a (k.1.pc a) k.2
  | .elemPanic a v n =>
    match elemOf c (s.pc a) with
    | none => none
    | some i =>
      match s.visible a i n with
      | none => none
      | some x => (step cap (s.snapVal i x) (.elemPanic a v)).map fun k =>
          (if fresh c (s.pc a) then s else s.putVal i v).emit a (k.1.pc a) k.2
  | .read a n =>
    match elemOf c (s.pc a) with
    | none => none
    | some i =>
      match s.visible a i n with
      | none => none
      | some x => (step cap (s.snapVal i x) (.read a)).map fun k => s.emit a (k.1.pc a) k.2
  | .write a v =>
    match elemOf c (s.pc a) with
    | none => none
    | some i => (step cap (s.snap none 0#w) (.write a v)).map fun k =>
        (s.putVal i v).emit a (k.1.pc a) k.2
  | .dropRef a wr =>
    match elemOf c (s.pc a) with
    | none => none
    | some i =>
      if (s.view a).ts (.slot i) < wr ∧ s.fits (.slot i) (wr - 1) wr then
        (step cap (s.snap none 0#w) (.dropRef a)).map fun k =>
          let r := s.emit a (k.1.pc a) k.2
          (r.1.put a (.slot i) (wr - 1) wr (cell k.1 (.slot i)) o.dropRef.rel .bot, r.2)
      else none
  | .sync a b => some ({ s with view := upd s.view b ((s.view b).join (s.view a)) }, [])

end

/-- The events of the ring buffer. Scaffolding of the model, no counterpart in the source. -/
def XEv.core? {V : Type} : XEv V → Option (Event V)
  | .core e => some e
  | .cell _ => none

/-- The events of the ring buffer in a trace, without what happened before them. Scaffolding of the model, no
counterpart in the source. -/
def evsOf {V : Type} (tr : List (REv V)) : Trace V := tr.filterMap fun e => e.1.core?

/-- Everything read by a call in progress was written less than (nearly) a period of the position
counter ago. An assumption about schedules. Scaffolding of the model, no counterpart in the source. -/
def Timely (w cap : Nat) {V : Type} (tr : List (REv V)) (s : RState w V) : Prop :=
  ∀ a, Pending (evsOf tr) a → nRes (evsOf tr) + 2 * cap < s.oldest a + period w cap

/-- Executions, with the orderings `o`, in which nothing read is older than a period of the position
counter. Scaffolding of the model, no counterpart in the source. -/
inductive RExec (o : Orders) (w cap : Nat) {V : Type} : List (REv V) → RState w V → Prop where
  | init : RExec o w cap [] (RState.init w V)
  | step {tr : List (REv V)} {s s' : RState w V} {act : RAct V} {evs : List (REv V)} :
      RExec o w cap tr s → rstep o cap s act = some (s', evs) → Timely w cap (tr ++ evs) s' →
      RExec o w cap (tr ++ evs) s'

/-- Run a list of actions (executable; used for concrete cases). Scaffolding of the model, no counterpart in the
source. -/
def runRActs {w : Nat} {V : Type} (o : Orders) (cap : Nat) : RState w V → List (RAct V) →
    Option (RState w V × List (REv V))
  | s, [] => some (s, [])
  | s, act :: acts =>
    match rstep o cap s act with
    | none => none
    | some (s1, e1) =>
      match runRActs o cap s1 acts with
      | none => none
      | some (s2, e2) => some (s2, e1 ++ e2)

end Thingbuf.RA
