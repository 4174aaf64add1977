import Verif.RelAcq
import Verif.SpinMutex
/-
The `no_std` spin lock (/repo/src/util/mutex/spin_impl.rs) under the memory orderings written in the source: C60.

`Verif/SpinMutex.lean` lets every load return the current value. Here the same code (`Spin.step`) runs on a
release/acquire view machine like that of `Verif/RelAcq.lean`: the writes to `locked` are messages with timestamps; a
load may return any message not older than what the caller has seen; a successful compare-and-swap occupies the place
immediately after the message it read; the guarded data is not atomic, so a read of it may find any write that is not
hidden by a later write known to the reader. The simplifications are those of `Verif/RelAcq.lean`: in particular every
call of `lock`, together with the guard it returns, has its own view, and any other synchronisation between the callers,
such as program order or moving a guard to another thread, is an action `sync`, which may happen or not.
-/
namespace Thingbuf.SpinRA

open RA (MOrd)

/-- The memory orderings of the accesses of /repo/src/util/mutex/spin_impl.rs. -/
structure Orders where
  /-- `compare_exchange` in `lock` (line 43), success -/
  casOk : MOrd
  /-- `compare_exchange` in `lock` (line 43), failure -/
  casFail : MOrd
  /-- `load` in the inner loop of `lock` (line 44) -/
  spin : MOrd
  /-- `store` in the drop of the guard (line 93) -/
  unlock : MOrd

/-- The orderings written in the source. /repo/src/util/mutex/spin_impl.rs, lines as in `Orders`. -/
def Orders.source : Orders where
  casOk := .acqRel
  casFail := .acquire
  spin := .relaxed
  unlock := .release

/-- What a call knows: the newest message of `locked` seen, and the events that happened before. Part of the machine,
not of /repo. -/
structure View where
  ts : Nat
  /-- positions in the trace -/
  hb : List Nat

/-- Part of the machine, not of /repo. -/
def View.join (v u : View) : View := ⟨max v.ts u.ts, v.hb ++ u.hb⟩

/-- A write to `locked`; it occupies the interval `(frm, ts]` of the modification order. Part of the machine, not of
/repo. -/
structure Msg where
  frm : Nat
  ts : Nat
  val : Bool
  view : View

/-- What happens: the lock is acquired, the data is accessed through the guard, the guard is dropped.
/repo/src/util/mutex/spin_impl.rs lines 50-53, 71-88 and 91-96. -/
inductive Event (T : Type) where
  | lock (a : OpId)
  | read (a : OpId) (x : T)
  | write (a : OpId) (x : T)
  | unlock (a : OpId)
deriving DecidableEq

/-- The events, each with the positions of the events that happened before it. Scaffolding of the model, no counterpart in
the source. -/
abbrev Trace (T : Type) := List (Event T × List Nat)

/-- `Mutex<T>` (/repo/src/util/mutex/spin_impl.rs lines 10-13) as messages and writes, and the calls. -/
structure State (T : Type) where
  /-- the messages of `locked` -/
  msgs : List Msg
  /-- the data, when the lock was created -/
  first : T
  /-- the writes to the data, oldest first: position in the trace, value -/
  data : List (Nat × T)
  pc : OpId → Spin.PC
  view : OpId → View
  /-- the number of events so far -/
  now : Nat

/-- `const_mutex` / `Mutex::new` (/repo/src/util/mutex/spin_impl.rs lines 22-36). -/
def State.init {T : Type} (d : T) : State T where
  msgs := [⟨0, 0, false, ⟨0, []⟩⟩]
  first := d
  data := []
  pc := fun _ => .idle
  view := fun _ => ⟨0, []⟩
  now := 0

/-- What the environment chooses: `rd` is the timestamp of the message that is read, `wr` that of the message that is
written, `k` the number of the write to the data that is seen (0: the first value). As `Act` of
`Verif/SpinMutex.lean`, with the choices of the machine. -/
inductive Act (T : Type) where
  | call (a : OpId)
  | run (a : OpId) (rd wr : Nat)
  | read (a : OpId) (k : Nat)
  | write (a : OpId) (x : T)
  | unlock (a : OpId) (wr : Nat)
  /-- everything that `a` knows becomes known to `b` -/
  | sync (a b : OpId)

section
variable {T : Type}

/-- The state that the code of `Verif/SpinMutex.lean` sees when it finds `b` in `locked`. Scaffolding of the model, no
counterpart in the source. -/
def State.snap (s : State T) (b : Bool) : Spin.State Unit := ⟨b, (), s.pc⟩

/-- The message `t`, if call `a` may read it. Part of the machine, not of /repo. -/
def State.readMsg (s : State T) (a : OpId) (t : Nat) : Option Msg :=
  if (s.view a).ts ≤ t then s.msgs.find? (fun m => m.ts = t) else none

/-- There is room for a write in the interval `(frm, ts]`. Part of the machine, not of /repo. -/
def State.fits (s : State T) (frm ts : Nat) : Bool :=
  decide (frm < ts) && s.msgs.all fun m => decide (m.ts ≤ frm) || decide (ts ≤ m.frm)

/-- Scaffolding of the model, no counterpart in the source. -/
def State.goto (s : State T) (a : OpId) (p : Spin.PC) : State T := { s with pc := upd s.pc a p }

/-- Call `a` reads the message `m`. Part of the machine, not of /repo. -/
def State.load (s : State T) (a : OpId) (m : Msg) (acq : Bool) : State T :=
  { s with view := upd s.view a ⟨max (s.view a).ts (if acq then max m.ts m.view.ts else m.ts), (s.view a).hb ++ if acq then m.view.hb else []⟩ }

/-- Call `a` has the event `e`. Scaffolding of the model, no counterpart in the source. -/
def State.emit (s : State T) (a : OpId) (e : Event T) : State T × Trace T :=
  ({ s with view := upd s.view a ⟨(s.view a).ts, s.now :: (s.view a).hb⟩, now := s.now + 1 }, [(e, (s.view a).hb)])

/-- Call `a` writes a message; `base` is what the message that a compare-and-swap has read tells. Part of the
machine, not of /repo. -/
def State.put (s : State T) (a : OpId) (frm ts : Nat) (b : Bool) (rel : Bool) (base : List Nat) : State T :=
  { s with
    msgs := s.msgs ++ [⟨frm, ts, b, ⟨ts, (if rel then (s.view a).hb else []) ++ base⟩⟩]
    view := upd s.view a ⟨max (s.view a).ts ts, (s.view a).hb⟩ }

/-- What call `a` may see of the data: the `k`-th write, unless it knows of a later one. Part of the machine, not of
/repo. -/
def State.visible (s : State T) (a : OpId) (k : Nat) : Option T :=
  if k ≤ s.data.length ∧ ∀ e ∈ s.data.drop k, e.1 ∉ (s.view a).hb then
    some (if k = 0 then s.first else (s.data[k - 1]?.map Prod.snd).getD s.first)
  else none

/-- The machine. The code is `Spin.step` of `Verif/SpinMutex.lean` (/repo/src/util/mutex/spin_impl.rs lines 40-54 and
71-96), on this machine. The compare-and-swap is a strong one: it fails only if it finds `true`, which may be
outdated. -/
def step (o : Orders) (s : State T) : Act T → Option (State T × Trace T)
  | .call a => (Spin.step (s.snap false) (.call a)).map fun k => (s.goto a (k.pc a), [])
  | .run a rd wr =>
    match s.readMsg a rd with
    | none => none
    | some m =>
      (Spin.step (s.snap m.val) (.run a)).bind fun k =>
        if s.pc a = .cas then
          if m.val = false then
            if s.fits m.ts wr then
              let r := ((s.load a m o.casOk.acq).goto a (k.pc a)).emit a (.lock a)
              some (r.1.put a m.ts wr k.locked o.casOk.rel m.view.hb, r.2)
            else none
          else some ((s.load a m o.casFail.acq).goto a (k.pc a), [])
        else some ((s.load a m o.spin.acq).goto a (k.pc a), [])
  | .read a k =>
    if s.pc a = .held then (s.visible a k).map fun x => s.emit a (.read a x) else none
  | .write a x =>
    (Spin.step (s.snap true) (.write a ())).map fun _ =>
      ({ s with data := s.data ++ [(s.now, x)] }).emit a (.write a x)
  | .unlock a wr =>
    (Spin.step (s.snap true) (.unlock a)).bind fun k =>
      if (s.view a).ts < wr ∧ s.fits (wr - 1) wr then
        let r := (s.goto a (k.pc a)).emit a (.unlock a)
        some (r.1.put a (wr - 1) wr k.locked o.unlock.rel [], r.2)
      else none
  | .sync a b => some ({ s with view := upd s.view b ((s.view b).join (s.view a)) }, [])

/-- Executions. Scaffolding of the model, no counterpart in the source: the interleavings of the functions cited at
`step`. -/
inductive Exec (o : Orders) (d : T) : Trace T → State T → Prop where
  | init : Exec o d [] (State.init d)
  | step {tr : Trace T} {s s' : State T} {act : Act T} {evs : Trace T} :
      Exec o d tr s → step o s act = some (s', evs) → Exec o d (tr ++ evs) s'

/-- Run a list of actions (executable; used for concrete cases). Scaffolding of the model, no counterpart in the
source. -/
def runActs (o : Orders) : State T → List (Act T) → Option (State T × Trace T)
  | s, [] => some (s, [])
  | s, act :: acts =>
    match step o s act with
    | none => none
    | some (s1, e1) =>
      match runActs o s1 acts with
      | none => none
      | some (s2, e2) => some (s2, e1 ++ e2)

/-- The lock is acquired by `a`, or released, or neither. Scaffolding of the model, no counterpart in the source. -/
def Event.change : Event T → Option (Option OpId)
  | .lock a => some (some a)
  | .unlock _ => some none
  | _ => none

/-- Who holds the lock after these events: the last to have acquired it, unless it was released since. Scaffolding of
the model, no counterpart in the source. -/
def holder (tr : Trace T) : Option OpId := (tr.filterMap fun e => e.1.change).getLast?.join

/-- The value that was written last. Scaffolding of the model, no counterpart in the source. -/
def lastWrite (d : T) (tr : Trace T) : T :=
  (tr.filterMap fun e => match e.1 with | .write _ x => some x | _ => none).getLast?.getD d

end
end Thingbuf.SpinRA
