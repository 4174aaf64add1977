/-!
# The receiver's wait cell

Model of `WaitCell` (/repo/src/wait/cell.rs).  One step is at most one access to shared memory; access to the
stored waker, which is not atomic, takes two steps (`accBegin`, `accEnd`) so that an overlap of two accesses
would show.  There are arbitrarily many operation instances (calls of `wait_with`, `notify`, `close_tx`) and
they interleave arbitrarily; sequential consistency is assumed.

Parameters: `std` says whether `catch_unwind` catches (feature `std`, /repo/src/util/panic.rs), `debug` whether
`debug_assert!` is compiled in.  Simplifications: `wake()` and the drop of a waker do not panic (in the
source most of these calls are wrapped in `catch_unwind`); only the three low bits of `lock` are represented,
the others are always zero.
-/

namespace Thingbuf.Cell

/-- Scaffolding of the model, no counterpart in the source. -/
abbrev OpId := Nat

/-- `State` (cell.rs lines 42-43, 224-232): the bits of `lock`. -/
abbrev Bits := BitVec 3

/-- cell.rs line 225 -/
def WAITING : Bits := 0b000#3
/-- cell.rs line 226 -/
def PARKING : Bits := 0b001#3
/-- cell.rs line 227 -/
def NOTIFYING : Bits := 0b010#3
/-- cell.rs line 228 -/
def TX_CLOSED : Bits := 0b100#3

/-- `State::contains` (cell.rs lines 230-232) -/
def contains (x s : Bits) : Bool := x &&& s = s

/-- `WaitResult` (/repo/src/wait.rs lines 34-55); `panicked` is unwinding out of `wait_with`. -/
inductive Res where | wait | closed | notified | panicked
  deriving DecidableEq, Repr

/-- Program counter of an operation instance; `W` is the type of wakers. Models the control flow of
/repo/src/wait/cell.rs lines 65-176; each constructor cites its lines. -/
inductive PC (W : Type) where
  | idle
  /-- `wait_with`, before the first CAS (line 69) -/
  | waitStart
  /-- the cell is being notified: about to call `f().notify()` (line 75) -/
  | waitSelf
  /-- locked; about to call `f` (line 90) -/
  | waitLocked
  /-- `f` returned `v`; about to store it (lines 93-95) -/
  | waitStore (v : W)
  /-- storing -/
  | waitStoring (v : W)
  /-- about to unlock by CAS (line 101); `prev` is the waker that was replaced -/
  | waitUnlock (prev : Option W) (panicked : Bool)
  /-- the CAS failed with `actual`; about to take the waker back (line 113) -/
  | waitTake (prev : Option W) (panicked : Bool) (actual : Bits)
  | waitTaking (prev : Option W) (panicked : Bool) (actual : Bits)
  /-- about to reset the state (line 116) -/
  | waitReset (prev : Option W) (panicked : Bool) (actual : Bits) (taken : Option W)
  /-- about to wake `prev` and `taken` and return (lines 124-149) -/
  | waitWake (prev : Option W) (panicked : Bool) (taken : Option W) (closed : Bool)
  /-- `notify2`, before `fetch_or` (line 164) -/
  | notifyStart (close : Bool)
  /-- holds the lock; about to take the waker (line 166) -/
  | notifyTake
  | notifyTaking
  /-- about to clear NOTIFYING (line 168) -/
  | notifyClear (taken : Option W)
  /-- about to wake and return (lines 170-175) -/
  | notifyWake (taken : Option W)
  | done
  deriving DecidableEq

/-- What /repo/src/wait/cell.rs lines 65-176 does, as seen by its callers, and the accesses to `waiter` (line 38).
-/
inductive Event (W : Type) where
  /-- `wait_with` is called -/
  | callWait (a : OpId)
  /-- the waker factory passed to call `a` returned `v` -/
  | mk (a : OpId) (v : W)
  /-- the waker factory panicked -/
  | mkPanic (a : OpId)
  /-- a non-atomic access to the stored waker begins / ends -/
  | accBegin (a : OpId)
  | accEnd (a : OpId)
  /-- call `a` wakes `v` -/
  | wake (a : OpId) (v : W)
  /-- the CAS of line 101 made `v`, the waker of call `a`, the registered one (bookkeeping) -/
  | register (a : OpId) (v : W)
  | retWait (a : OpId) (r : Res)
  /-- `notify` (`close = false`) or `close_tx` (`close = true`) is called -/
  | callNotify (a : OpId) (close : Bool)
  /-- the `fetch_or` of line 164 (bookkeeping) -/
  | signal (a : OpId) (close : Bool)
  | retNotify (a : OpId) (woke : Bool)
  /-- a `debug_assert!` failed -/
  | assertFailed (a : OpId)
  deriving DecidableEq

/-- Calls of /repo/src/wait/cell.rs lines 65, 152 and 156, scheduling, and what the closure passed to `wait_with`
does (lines 75, 90). -/
inductive Act (W : Type) where
  | callWait (a : OpId)
  | callNotify (a : OpId) (close : Bool)
  /-- the next step of `a` -/
  | run (a : OpId)
  /-- the waker factory returns `v` -/
  | mk (a : OpId) (v : W)
  /-- the waker factory panics -/
  | mkPanic (a : OpId)

/-- `WaitCell` (cell.rs lines 36-39) and the program counters of all calls. -/
structure State (W : Type) where
  lock : Bits
  waiter : Option W
  pc : OpId → PC W

/-- `WaitCell::new` (cell.rs lines 48-53) -/
def State.init (W : Type) : State W := { lock := WAITING, waiter := none, pc := fun _ => .idle }

/-- Scaffolding of the model, no counterpart in the source. -/
def State.goto {W : Type} (s : State W) (a : OpId) (p : PC W) : State W :=
  { s with pc := fun b => if b = a then p else s.pc b }

/-- Compile-time configuration. `std`: the feature of /repo/Cargo.toml that selects `catch_unwind` in
/repo/src/util/panic.rs; `debug`: `debug_assert!` in /repo/src/wait/cell.rs lines 81, 119 and 133. -/
structure Config where
  std : Bool
  debug : Bool

section
variable {W : Type} (c : Config)

/-- First CAS of `wait_with` (cell.rs lines 69-86). -/
def waitStart (s : State W) (a : OpId) : State W × List (Event W) :=
  if s.lock = WAITING then ({ s.goto a .waitLocked with lock := PARKING }, [])
  else if contains s.lock TX_CLOSED then (s.goto a .done, [.retWait a .closed])
  else if contains s.lock NOTIFYING then (s.goto a .waitSelf, [])
  else if c.debug ∧ ¬ (s.lock = PARKING ∨ s.lock = PARKING ||| NOTIFYING) then
    (s.goto a .done, [.assertFailed a])
  else (s.goto a .done, [.retWait a .wait])

/-- Second CAS of `wait_with` (cell.rs lines 101-111, 145-149). `prev` is dropped on success; `stored` is
the waker this call stored, if the factory did not panic. -/
def waitUnlock (s : State W) (a : OpId) (prev : Option W) (panicked : Bool) : State W × List (Event W) :=
  if s.lock = PARKING then
    ({ s.goto a .done with lock := WAITING },
      if panicked then [.retWait a .panicked]
      else match s.waiter with
        | some v => [.register a v, .retWait a .wait]
        | none => [.retWait a .wait])
  else (s.goto a (.waitTake prev panicked s.lock), [])

/-- `fetch_and(TX_CLOSED)` and the assertion (cell.rs lines 116-122). -/
def waitReset (s : State W) (a : OpId) (prev : Option W) (panicked : Bool) (actual : Bits) (taken : Option W) :
    State W × List (Event W) :=
  let s' := { s with lock := s.lock &&& TX_CLOSED }
  if c.debug ∧ ¬ (s.lock = actual ∨ s.lock = actual ||| TX_CLOSED) then (s'.goto a .done, [.assertFailed a])
  else (s'.goto a (.waitWake prev panicked taken (contains s.lock TX_CLOSED)), [])

/-- Waking and returning (cell.rs lines 124-149), one waker per step. -/
def waitWake (s : State W) (a : OpId) (prev : Option W) (panicked : Bool) (taken : Option W) (closed : Bool) :
    State W × List (Event W) :=
  match prev with
  | some p => (s.goto a (.waitWake none panicked taken closed), [.wake a p])
  | none => match taken with
    | some v =>
      if c.debug ∧ panicked then (s.goto a .done, [.assertFailed a])
      else (s.goto a (.waitWake none panicked none closed), [.wake a v])
    | none => (s.goto a .done,
        [.retWait a (if panicked then .panicked else if closed then .closed else .notified)])

/-- `fetch_or` in `notify2` (cell.rs lines 161-164, 175). -/
def notifyStart (s : State W) (a : OpId) (close : Bool) : State W × List (Event W) :=
  let bits := NOTIFYING ||| (if close then TX_CLOSED else WAITING)
  let s' := { s with lock := s.lock ||| bits }
  if s.lock = WAITING then (s'.goto a .notifyTake, [.signal a close])
  else (s'.goto a .done, [.signal a close, .retNotify a false])

/-- The next step of call `a`. /repo/src/wait/cell.rs lines 69-176; lines as at `PC`. -/
def runStep (s : State W) (a : OpId) : Option (State W × List (Event W)) :=
  match s.pc a with
  | .waitStart => some (waitStart c s a)
  | .waitStore v => some (s.goto a (.waitStoring v), [.accBegin a])
  | .waitStoring v =>
    some ({ s.goto a (.waitUnlock s.waiter false) with waiter := some v }, [.accEnd a])
  | .waitUnlock prev p => some (waitUnlock s a prev p)
  | .waitTake prev p actual => some (s.goto a (.waitTaking prev p actual), [.accBegin a])
  | .waitTaking prev p actual =>
    some ({ s.goto a (.waitReset prev p actual s.waiter) with waiter := none }, [.accEnd a])
  | .waitReset prev p actual taken => some (waitReset c s a prev p actual taken)
  | .waitWake prev p taken closed => some (waitWake c s a prev p taken closed)
  | .notifyStart close => some (notifyStart s a close)
  | .notifyTake => some (s.goto a .notifyTaking, [.accBegin a])
  | .notifyTaking => some ({ s.goto a (.notifyClear s.waiter) with waiter := none }, [.accEnd a])
  | .notifyClear taken => some ({ s.goto a (.notifyWake taken) with lock := s.lock &&& ~~~NOTIFYING }, [])
  | .notifyWake (some v) => some (s.goto a .done, [.wake a v, .retNotify a true])
  | .notifyWake none => some (s.goto a .done, [.retNotify a false])
  | _ => none

/-- One step of the cell. /repo/src/wait/cell.rs lines 65-176. -/
def step (s : State W) : Act W → Option (State W × List (Event W))
  | .callWait a => match s.pc a with
    | .idle => some (s.goto a .waitStart, [.callWait a])
    | _ => none
  | .callNotify a close => match s.pc a with
    | .idle => some (s.goto a (.notifyStart close), [.callNotify a close])
    | _ => none
  | .run a => runStep c s a
  | .mk a v => match s.pc a with
    | .waitLocked => some (s.goto a (.waitStore v), [.mk a v])
    | .waitSelf => some (s.goto a .done, [.mk a v, .wake a v, .retWait a .notified])
    | _ => none
  | .mkPanic a => match s.pc a with
    -- with `std` the panic is caught (line 90); without, it unwinds out of `wait_with` at once
    | .waitLocked =>
      if c.std then some (s.goto a (.waitUnlock none true), [.mkPanic a])
      else some (s.goto a .done, [.mkPanic a, .retWait a .panicked])
    | .waitSelf => some (s.goto a .done, [.mkPanic a, .retWait a .panicked])
    | _ => none

end

/-- Scaffolding of the model, no counterpart in the source. -/
abbrev Trace (W : Type) := List (Event W)

/-- Executions of a new cell. Scaffolding of the model, no counterpart in the source: the interleavings of the
functions of /repo/src/wait/cell.rs lines 65-176. -/
inductive Exec (c : Config) {W : Type} : Trace W → State W → Prop where
  | init : Exec c [] (State.init W)
  | step {tr : Trace W} {s s' : State W} {act : Act W} {evs : Trace W} :
      Exec c tr s → step c s act = some (s', evs) → Exec c (tr ++ evs) s'

end Thingbuf.Cell
