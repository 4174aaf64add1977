import Verif.TraceProps
/-
The calls of `ThingBuf` and `StaticThingBuf` that do not give a `Ref` away: `push`, `push_with`, `pop`, `pop_with`.
Any number of them run concurrently on one queue, and the user code they call may panic: `Recycle::new_element`,
`Recycle::recycle`, the closure, and the `Drop` of the element that `push` overwrites.
-/
namespace Thingbuf.ByVal

variable {w cap : Nat} {V U : Type}

/-- The calls. `U`: what closures return. /repo/src/thingbuf.rs lines 415-423, 434-436, 477-480, 491-493. -/
inductive Call (V : Type) where
  | push (v : V)
  | pushWith
  | pop
  | popWith
deriving DecidableEq, Repr

/-- How a call ends. Results of the functions cited at `Call`. -/
inductive Res (V U : Type) where
  /-- `push`: `Ok(())` -/
  | ok
  /-- `push`: `Err(Full(v))` -/
  | full (v : V)
  /-- `push_with`: `Err(Full(()))` -/
  | fullUnit
  /-- `pop`: `Some(x)`; `none` is uninitialised memory -/
  | value (x : Option V)
  /-- `pop`, `pop_with`: `None` -/
  | none
  /-- `push_with`: `Ok(u)`; `pop_with`: `Some(u)` -/
  | returned (u : U)
  /-- user code panicked, and the panic leaves the call -/
  | panicked
  /-- `unreachable!()` (/repo/src/thingbuf.rs line 393), an overflow, or an access out of bounds -/
  | bug
deriving DecidableEq, Repr

/-- Events: those of the queue, calls, runs of a closure, and results. Part of the model. -/
inductive Ev (V U : Type) where
  | core (e : Event V)
  | call (a : OpId) (c : Call V)
  /-- the closure found the element `old` and left `new`; it returned (`some u`) or panicked (`none`) -/
  | body (a : OpId) (old : Option V) (new : V) (r : Option U)
  /-- in `push`, the `Drop` of the overwritten element panicked; in `pop`, `new_element` did -/
  | panic (a : OpId)
  | ret (a : OpId) (r : Res V U)
deriving DecidableEq, Repr

/-- Where a call is. Part of the model: positions in the functions cited at `Call`. -/
inductive PC (V U : Type) where
  | idle
  /-- in `push_ref` or `pop_ref` -/
  | ref (c : Call V)
  /-- has the `Ref` -/
  | hold (c : Call V)
  /-- the `Ref` goes out of scope next (also when unwinding), then the call ends with `r` -/
  | drop (r : Res V U)
  | done

/-- The queue, and where every call is. Part of the model. -/
structure State (w : Nat) (V U : Type) where
  core : Thingbuf.State w V
  pc : OpId → PC V U

/-- A new queue. /repo/src/lib.rs lines 108-123. -/
def State.init (w : Nat) (V U : Type) : State w V U := ⟨.init w V, fun _ => .idle⟩

/-- What the environment chooses: the schedule and what user code does. Part of the model. -/
inductive Act (V U : Type) where
  | call (a : OpId) (c : Call V)
  /-- a step of `push_ref` or `pop_ref` -/
  | run (a : OpId)
  /-- `compare_exchange_weak` fails spuriously -/
  | spurious (a : OpId)
  /-- `new_element` or `recycle`, called by `push_ref`, returns -/
  | elem (a : OpId) (v : V)
  /-- `new_element` or `recycle`, called by `push_ref`, panics -/
  | elemPanic (a : OpId) (v : V)
  /-- `*slot = val` in `push`; the `Drop` of the old element panics or not -/
  | assign (a : OpId) (panics : Bool)
  /-- `recycling::take` in `pop`; `new_element` returns (`some`) or panics -/
  | take (a : OpId) (fresh : Option V)
  /-- the closure of `push_with` or `pop_with` runs: it leaves `new` and returns (`some u`) or panics -/
  | closure (a : OpId) (new : V) (r : Option U)
  /-- the `Ref` is dropped and the call ends -/
  | finish (a : OpId)

/-- `push` and `push_with` start with `push_ref`, `pop` and `pop_with` with `pop_ref`. Lines as at `Call`. -/
def Call.op : Call V → Op
  | .push _ | .pushWith => .push
  | .pop | .popWith => .pop

/-- After `push_ref` or `pop_ref` has ended with `r`: `hold` with a `Ref`, else the result of the call.
/repo/src/thingbuf.rs lines 388-395 (`push_ref`: `Full` is passed on, all else is `unreachable!()`), 415-423, 434-436, 461-463
(`pop_ref`: every error becomes `None`), 477-480, 491-493; /repo/src/static_thingbuf.rs lines 407-414, 434-442, 453-455,
480-482, 496-499, 510-512. -/
def afterRef (c : Call V) : Ret → Option (Res V U)
  | .panicked => some .panicked
  | .crash _ => some .bug
  | r => match c with
    | .push v => match r with
      | .pushed => none
      | .full => some (.full v)
      | _ => some .bug
    | .pushWith => match r with
      | .pushed => none
      | .full => some .fullUnit
      | _ => some .bug
    | .pop | .popWith => match r with
      | .popped => none
      | _ => some .none

/-- The result among the events of one step, if any. Scaffolding of the model, no counterpart in the source. -/
def retOf (evs : List (Event V)) : Option Ret := evs.findSome? fun | .ret _ r => some r | _ => none

/-- A step of the queue. Scaffolding of the model, no counterpart in the source. -/
def onCore (cap : Nat) (s : State w V U) (act : Thingbuf.Act V) : Option (State w V U × List (Event V)) :=
  (Thingbuf.step cap s.core act).map fun r => ({ s with core := r.1 }, r.2)

/-- Move call `a`. Scaffolding of the model, no counterpart in the source. -/
def State.goto (s : State w V U) (a : OpId) (pc : PC V U) : State w V U := { s with pc := upd s.pc a pc }

/-- A step of `push_ref` or `pop_ref` inside call `a`. Lines as at `afterRef`. -/
def inRef (cap : Nat) (s : State w V U) (a : OpId) (act : Thingbuf.Act V) : Option (State w V U × List (Ev V U)) :=
  match s.pc a with
  | .ref c => (onCore cap s act).map fun r =>
    match retOf r.2 with
    | none => (r.1, r.2.map .core)
    | some x => match afterRef c x with
      | none => (r.1.goto a (.hold c), r.2.map .core)
      | some y => (r.1.goto a .done, r.2.map .core ++ [.ret a y])
  | _ => none

/-- What was read. Scaffolding of the model, no counterpart in the source. -/
def readOf : List (Event V) → Option V
  | [.access _ _ (.read x)] => x
  | _ => none

/-- The closure returned `u`, or panicked. /repo/src/thingbuf.rs lines 434-436 and 491-493. -/
def endWith : Option U → Res V U
  | some u => .returned u
  | none => .panicked

/-- The machine. `none`: the action is not possible in this state. The functions cited at `Call` and `afterRef`;
`recycling::take` (/repo/src/recycling.rs lines 196-201): `new_element` is called before the element is replaced.
`*slot = val` drops the old element in place and stores `val` also if that drop panics.  Simplified: a run of user code on the
element is one step; the call has the slot for itself, so nothing else can be in between. -/
def step (cap : Nat) (s : State w V U) : Act V U → Option (State w V U × List (Ev V U))
  | .call a c =>
    match s.pc a with
    | .idle => (onCore cap s (.invoke a c.op)).map fun r => (r.1.goto a (.ref c), .call a c :: r.2.map .core)
    | _ => none
  | .run a => inRef cap s a (.run a)
  | .spurious a => inRef cap s a (.spurious a)
  | .elem a v => inRef cap s a (.elem a v)
  | .elemPanic a v => inRef cap s a (.elemPanic a v)
  | .assign a panics =>
    match s.pc a with
    | .hold (.push v) => (onCore cap s (.write a v)).map fun r =>
        (r.1.goto a (.drop (if panics then .panicked else .ok)), r.2.map .core ++ if panics then [.panic a] else [])
    | _ => none
  | .take a fresh =>
    match s.pc a, fresh with
    | .hold .pop, none => some (s.goto a (.drop .panicked), [.panic a])
    | .hold .pop, some v =>
      (onCore cap s (.read a)).bind fun r => (onCore cap r.1 (.write a v)).map fun r' =>
        (r'.1.goto a (.drop (.value (readOf r.2))), (r.2 ++ r'.2).map .core)
    | _, _ => none
  | .closure a new x =>
    match s.pc a with
    | .hold .pushWith | .hold .popWith =>
      (onCore cap s (.read a)).bind fun r => (onCore cap r.1 (.write a new)).map fun r' =>
        (r'.1.goto a (.drop (endWith x)),
         (r.2 ++ r'.2).map .core ++ [.body a (readOf r.2) new x])
    | _ => none
  | .finish a =>
    match s.pc a with
    | .drop r => (onCore cap s (.dropRef a)).map fun x => (x.1.goto a .done, x.2.map .core ++ [.ret a r])
    | _ => none

/-- Executions. Scaffolding of the model, no counterpart in the source. -/
inductive Exec (w cap : Nat) {V U : Type} : List (Ev V U) → State w V U → Prop where
  | init : Exec w cap [] (State.init w V U)
  | step {tr : List (Ev V U)} {s s' : State w V U} {act : Act V U} {evs : List (Ev V U)} :
      Exec w cap tr s → step cap s act = some (s', evs) → Exec w cap (tr ++ evs) s'

/-- The events of the queue. Specification. -/
def coreOf (tr : List (Ev V U)) : Trace V := tr.filterMap fun | .core e => some e | _ => none

/-- The runs of the closure of call `a`. Specification. -/
def bodies (a : OpId) (tr : List (Ev V U)) : List (Option V × V × Option U) :=
  tr.filterMap fun | .body b x y r => if b = a then some (x, y, r) else none | _ => none

/-- User code called by `a` has panicked: `new_element` or `recycle` in `push_ref`, the closure, `Drop` in `push`, or `new_element` in
`pop`. Specification. -/
def UserPanic (tr : List (Ev V U)) (a : OpId) : Prop :=
  .ret a .panicked ∈ coreOf tr ∨ .panic a ∈ tr ∨ ∃ o n, .body a o n none ∈ tr

/-- As for the queue (`Thingbuf.Run`): the capacity fits the word size, and no call is stalled for a whole period of the
position counter. An assumption about schedules. -/
structure Run (w cap : Nat) {V U : Type} (tr : List (Ev V U)) (s : State w V U) : Prop where
  sized : WellSized w cap
  exec : Exec w cap tr s
  noStall : NoStall w cap (coreOf tr)

/-- Run a list of actions (executable; used for concrete cases). Scaffolding of the model, no counterpart in the
source. -/
def runActs (cap : Nat) : State w V U → List (Act V U) → Option (State w V U × List (Ev V U))
  | s, [] => some (s, [])
  | s, act :: acts =>
    match step cap s act with
    | none => none
    | some (s1, e1) =>
      match runActs cap s1 acts with
      | none => none
      | some (s2, e2) => some (s2, e1 ++ e2)

end Thingbuf.ByVal
