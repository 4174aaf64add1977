import Verif.Word
import Verif.Backoff
import Verif.Spec
/-
Small-step model of `Core` and `Ref` (/repo/src/lib.rs), under sequential consistency.

One step performs at most one access to shared memory (`head`, `tail`, a slot state, or a
slot's content).  Memory orderings are not represented here.
-/
namespace Thingbuf

/-- Where an operation instance is in the code. Words held in local variables are stored
exactly as the source has them. Models the control flow of /repo/src/lib.rs lines 168-386 and 475-481; each
constructor cites its lines. -/
inductive PC (w : Nat) where
  /-- not called yet -/
  | idle
  /-- finished; for a push/pop that succeeded: the `Ref` has been dropped -/
  | done
  /-- `push_ref`, before `tail.load` (/repo/src/lib.rs line 187) -/
  | pushStart
  /-- `push_ref`, top of the loop (lines 190-216), local `tail` -/
  | pushLoop (b : Backoff) (tail : BitVec w)
  /-- `push_ref`, before the CAS on `tail` (lines 217-220) -/
  | pushCas (b : Backoff) (tail : BitVec w)
  /-- `push_ref`, slot claimed, user code initialises or recycles the element (226-242) -/
  | pushInit (tail : BitVec w)
  /-- `push_ref`, before `head.fetch_or(0)` (line 268) -/
  | pushHead (b : Backoff) (tail : BitVec w)
  /-- `push_ref`, before `tail.load` at the bottom of the loop (line 279) -/
  | pushReload (b : Backoff)
  /-- `push_ref` returned a `Ref` (lines 244-248), `idx` is its slot -/
  | pushHeld (idx : Nat) (newState : BitVec w)
  /-- user code panicked in lines 233-240: no `Ref` was created -/
  | pushPanicked (idx : Nat)
  /-- `pop_ref`, before `head.load` (line 287) -/
  | popStart
  /-- `pop_ref`, top of the loop (lines 289-315) -/
  | popLoop (b : Backoff) (head : BitVec w)
  /-- `pop_ref`, before the CAS on `head` (lines 316-319) -/
  | popCas (b : Backoff) (head : BitVec w)
  /-- `pop_ref`, before `tail.fetch_or(0)` (line 346) -/
  | popTail (b : Backoff) (head : BitVec w)
  /-- `pop_ref`, before `head.load` at the bottom of the loop (line 366) -/
  | popReload (b : Backoff)
  /-- `pop_ref` returned a `Ref` (lines 323-327) -/
  | popHeld (idx : Nat) (newState : BitVec w)
  /-- `len`, before the first load of `tail` (line 372) -/
  | lenStart
  /-- `len`, before the load of `head` (line 373) -/
  | lenHead (tail : BitVec w)
  /-- `len`, before the second load of `tail` (line 375) -/
  | lenTail (tail head : BitVec w)
  /-- `close`, before `panicking()`/`fetch_or` (lines 170-173) -/
  | closeStart (panicking : Bool)
  /-- an out-of-bounds access or an arithmetic overflow happened -/
  | crashed (c : Crash)
deriving DecidableEq

/-- Shared memory of one queue, and the program counter of every operation instance:
`Core{head, tail}` (/repo/src/lib.rs lines 89-99) and `Slot{value, state}` (lines 101-104). -/
structure State (w : Nat) (V : Type) where
  head : BitVec w
  tail : BitVec w
  /-- `slots[i].state` -/
  st : Nat → BitVec w
  /-- `slots[i].value`; `none` is uninitialised memory -/
  val : Nat → Option V
  pc : OpId → PC w

/-- Pointwise update of a function. Scaffolding of the model, no counterpart in the source. -/
def upd {α : Type} (f : Nat → α) (i : Nat) (x : α) : Nat → α := fun j => if j = i then x else f j

@[simp] theorem upd_self {α : Type} (f : Nat → α) (i : Nat) (x : α) : upd f i x i = x := by
  simp [upd]

theorem upd_ne {α : Type} (f : Nat → α) {i j : Nat} (x : α) (h : j ≠ i) : upd f i x j = f j := by
  simp [upd, h]

theorem upd_apply {α : Type} (f : Nat → α) (i j : Nat) (x : α) :
    upd f i x j = if j = i then x else f j := rfl

/-- What the environment chooses: which operation moves, whether a weak CAS fails
spuriously, what user code does. Choices left open by /repo/src/lib.rs lines 168-481: scheduling, spurious failure
of `compare_exchange_weak` (lines 217, 316), user code (lines 226-242). -/
inductive Act (V : Type) where
  | invoke (a : OpId) (op : Op)
  /-- the operation performs its next atomic step -/
  | run (a : OpId)
  /-- `compare_exchange_weak` fails spuriously -/
  | spurious (a : OpId)
  /-- `new_element`/`recycle` returns, leaving the element `v` -/
  | elem (a : OpId) (v : V)
  /-- `new_element`/`recycle` panics; a panicking `recycle` leaves the element `v` -/
  | elemPanic (a : OpId) (v : V)
  /-- the user reads through the `Ref` (`Deref`, `with`: /repo/src/lib.rs lines 426-461) -/
  | read (a : OpId)
  /-- the user writes through the `Ref` (`DerefMut`, `with_mut`, lines 438-473) -/
  | write (a : OpId) (v : V)
  /-- the `Ref` is dropped (lines 475-481) -/
  | dropRef (a : OpId)

/-- `Core::new` with `Slot::make_boxed_array`/`make_static_array`
(/repo/src/lib.rs lines 108-123, 519-537, 541-546): slot `i` starts in state `i`. -/
def State.init (w : Nat) (V : Type) : State w V where
  head := 0#w
  tail := 0#w
  st := fun i => BitVec.ofNat w i
  val := fun _ => none
  pc := fun _ => .idle

section
variable {w : Nat} {V : Type}

/-- Move operation `a` to `pc`. Scaffolding of the model, no counterpart in the source. -/
def State.goto (s : State w V) (a : OpId) (pc : PC w) : State w V := { s with pc := upd s.pc a pc }

/-- Calling an operation. The calls of /repo/src/lib.rs lines 168, 177, 284 and 370. -/
def startPC : Op → PC w
  | .push => .pushStart
  | .pop => .popStart
  | .len => .lenStart
  | .close p => .closeStart p

/-- `Core::len`, lines 376-383: the number computed from the two words. `capacity - head_idx +
tail_idx` is `Nat` arithmetic here: neither the subtraction nor the sum can wrap for indices
below the capacity. -/
def lenOf (c : Params w) (cap : Nat) (tail head : BitVec w) : Nat :=
  let headIdx := (c.idxGen head).1.toNat
  let tailIdx := (c.idxGen tail).1.toNat
  if headIdx < tailIdx then tailIdx - headIdx
  else if headIdx > tailIdx then cap - headIdx + tailIdx
  else if tail = head then 0
  else cap

/-- Top of the `push_ref` loop: /repo/src/lib.rs lines 190-216, 260, 275-276. One shared access: the
load of the slot state. -/
def pushLoop (c : Params w) (cap : Nat) (s : State w V) (a : OpId) (b : Backoff) (tail : BitVec w) :
    State w V × List (Event V) :=
  if tail &&& c.closed ≠ 0#w then (s.goto a .done, [.ret a .closed])
  else
    let idx := (c.idxGen tail).1.toNat
    if ¬ idx < cap then (s.goto a (.crashed .oob), [.ret a (.crash .oob)])
    else
      let state := s.st idx
      if state = tail then (s.goto a (.pushCas b tail), [])
      else match checkedAdd tail 1#w with
        | none => (s.goto a (.crashed .overflow), [.ret a (.crash .overflow)])
        | some tail1 =>
          if state + c.gen = tail1 then (s.goto a (.pushHead b tail), [])
          else (s.goto a (.pushReload b.spinYield), [])

/-- The CAS on `tail`: /repo/src/lib.rs lines 217-257. `spurious` makes the weak CAS fail although
the value matches. -/
def pushCas (c : Params w) (s : State w V) (a : OpId) (b : Backoff) (tail : BitVec w)
    (spurious : Bool) : State w V × List (Event V) :=
  let (idx, gen) := c.idxGen tail
  match c.next idx gen with
  | none => (s.goto a (.crashed .overflow), [.ret a (.crash .overflow)])
  | some nextTail =>
    if s.tail = tail ∧ spurious = false then
      ({ s.goto a (.pushInit tail) with tail := nextTail }, [.reserve a idx.toNat])
    else (s.goto a (.pushLoop b.spin s.tail), [])

/-- User code initialises or recycles the claimed element: /repo/src/lib.rs lines 226-248. -/
def pushElem (c : Params w) (s : State w V) (a : OpId) (tail : BitVec w) (v : V) :
    State w V × List (Event V) :=
  let (idx, gen) := c.idxGen tail
  let i := idx.toNat
  let acc : Access V := if gen = 0#w then .create v else .recycle (s.val i) v
  let s' := { s with val := upd s.val i (some v) }
  match checkedAdd tail 1#w with
  | none => (s'.goto a (.crashed .overflow), [.access a i acc, .ret a (.crash .overflow)])
  | some newState => (s'.goto a (.pushHeld i newState), [.access a i acc, .ret a .pushed])

/-- User code panics at /repo/src/lib.rs line 234 (nothing is written) or line 239 (`recycle` may have
changed the element to `v`). -/
def pushElemPanic (c : Params w) (s : State w V) (a : OpId) (tail : BitVec w) (v : V) :
    State w V × List (Event V) :=
  let (idx, gen) := c.idxGen tail
  let i := idx.toNat
  if gen = 0#w then (s.goto a (.pushPanicked i), [.ret a .panicked])
  else ({ s with val := upd s.val i (some v) }.goto a (.pushPanicked i),
        [.access a i (.recyclePanic (s.val i)), .ret a .panicked])

/-- The full check: /repo/src/lib.rs lines 268-274. -/
def pushHead (c : Params w) (s : State w V) (a : OpId) (b : Backoff) (tail : BitVec w) :
    State w V × List (Event V) :=
  if s.head + c.gen = tail then (s.goto a .done, [.ret a .full])
  else (s.goto a (.pushReload b.spin), [])

/-- Top of the `pop_ref` loop: /repo/src/lib.rs lines 289-315, 337, 362-364. -/
def popLoop (c : Params w) (cap : Nat) (s : State w V) (a : OpId) (b : Backoff) (head : BitVec w) :
    State w V × List (Event V) :=
  let idx := (c.idxGen head).1.toNat
  if ¬ idx < cap then (s.goto a (.crashed .oob), [.ret a (.crash .oob)])
  else
    let state := s.st idx
    match checkedAdd head 1#w with
    | none => (s.goto a (.crashed .overflow), [.ret a (.crash .overflow)])
    | some head1 =>
      if state = head1 then (s.goto a (.popCas b head), [])
      else if state = head then (s.goto a (.popTail b head), [])
      else (s.goto a (.popReload b.spinYield), [])

/-- The CAS on `head`: /repo/src/lib.rs lines 316-334. -/
def popCas (c : Params w) (s : State w V) (a : OpId) (b : Backoff) (head : BitVec w)
    (spurious : Bool) : State w V × List (Event V) :=
  let (idx, gen) := c.idxGen head
  match c.next idx gen with
  | none => (s.goto a (.crashed .overflow), [.ret a (.crash .overflow)])
  | some nextHead =>
    if s.head = head ∧ spurious = false then
      ({ s.goto a (.popHeld idx.toNat (head + c.gen)) with head := nextHead },
        [.dequeue a idx.toNat (s.val idx.toNat), .ret a .popped])
    else (s.goto a (.popLoop b.spin s.head), [])

/-- The empty check: /repo/src/lib.rs lines 346-361. -/
def popTail (c : Params w) (s : State w V) (a : OpId) (b : Backoff) (head : BitVec w) :
    State w V × List (Event V) :=
  if s.tail &&& ~~~c.closed = head then
    if s.tail &&& c.closed ≠ 0#w then (s.goto a .done, [.ret a .closed])
    else (s.goto a .done, [.ret a .empty])
  else if b.doneSpinning then (s.goto a .done, [.ret a .empty])
  else (s.goto a (.popReload b.spin), [])

/-- `Core::close` (/repo/src/lib.rs lines 168-174). -/
def closeStep (c : Params w) (s : State w V) (a : OpId) (panicking : Bool) :
    State w V × List (Event V) :=
  if panicking then (s.goto a .done, [.ret a (.closeRet false)])
  else ({ s.goto a .done with tail := s.tail ||| c.closed },
        [.close a, .ret a (.closeRet (s.tail &&& c.closed = 0#w))])

/-- The next atomic step of operation `a`. /repo/src/lib.rs lines 168-386; the cases cite their lines at their
definitions and at `PC`. -/
def runStep (c : Params w) (cap : Nat) (s : State w V) (a : OpId) :
    Option (State w V × List (Event V)) :=
  match s.pc a with
  | .pushStart => some (s.goto a (.pushLoop .new s.tail), [])
  | .pushLoop b t => some (pushLoop c cap s a b t)
  | .pushCas b t => some (pushCas c s a b t false)
  | .pushHead b t => some (pushHead c s a b t)
  | .pushReload b => some (s.goto a (.pushLoop b s.tail), [])
  | .popStart => some (s.goto a (.popLoop .new s.head), [])
  | .popLoop b h => some (popLoop c cap s a b h)
  | .popCas b h => some (popCas c s a b h false)
  | .popTail b h => some (popTail c s a b h)
  | .popReload b => some (s.goto a (.popLoop b s.head), [])
  | .lenStart => some (s.goto a (.lenHead s.tail), [])
  | .lenHead t => some (s.goto a (.lenTail t s.head), [])
  | .lenTail t h =>
    if s.tail = t then some (s.goto a .done, [.ret a (.len (lenOf c cap t h))])
    else some (s.goto a .lenStart, [])
  | .closeStart p => some (closeStep c s a p)
  | _ => none

/-- The machine. `none`: the action is not possible in this state. /repo/src/lib.rs lines 168-386 and 426-481; one
case per action, lines as at `Act` and `PC`. -/
def step (cap : Nat) (s : State w V) (act : Act V) : Option (State w V × List (Event V)) :=
  let c := Params.new w cap
  match act with
  | .invoke a op =>
    if s.pc a = .idle then some (s.goto a (startPC op), [.invoke a op]) else none
  | .run a => runStep c cap s a
  | .spurious a =>
    match s.pc a with
    | .pushCas b t => some (pushCas c s a b t true)
    | .popCas b h => some (popCas c s a b h true)
    | _ => none
  | .elem a v =>
    match s.pc a with
    | .pushInit t => some (pushElem c s a t v)
    | _ => none
  | .elemPanic a v =>
    match s.pc a with
    | .pushInit t => some (pushElemPanic c s a t v)
    | _ => none
  | .read a =>
    match s.pc a with
    | .pushHeld i _ => some (s, [.access a i (.read (s.val i))])
    | .popHeld i _ => some (s, [.access a i (.read (s.val i))])
    | _ => none
  | .write a v =>
    match s.pc a with
    | .pushHeld i _ => some ({ s with val := upd s.val i (some v) }, [.access a i (.write v)])
    | .popHeld i _ => some ({ s with val := upd s.val i (some v) }, [.access a i (.write v)])
    | _ => none
  | .dropRef a =>
    match s.pc a with
    | .pushHeld i ns => some ({ s.goto a .done with st := upd s.st i ns }, [.commit a i (s.val i)])
    | .popHeld i ns => some ({ s.goto a .done with st := upd s.st i ns }, [.release a i (s.val i)])
    | _ => none

end

/-- Executions: `Exec w cap tr s` says that some schedule takes a new queue of capacity `cap`
to the state `s`, producing the events `tr`. Scaffolding of the model, no counterpart in the source: the
interleavings of the functions of /repo/src/lib.rs lines 168-481. -/
inductive Exec (w cap : Nat) {V : Type} : Trace V → State w V → Prop where
  | init : Exec w cap [] (State.init w V)
  | step {tr : Trace V} {s s' : State w V} {act : Act V} {evs : List (Event V)} :
      Exec w cap tr s → step cap s act = some (s', evs) → Exec w cap (tr ++ evs) s'

/-- No call that is in progress has been so for (nearly) a whole period of the position
counter. An assumption about schedules. Scaffolding of the model, no counterpart in the source. -/
def Fresh (w cap : Nat) {V : Type} (tr : Trace V) : Prop :=
  ∀ a, Pending tr a → nRes tr + 2 * cap < born a tr + period w cap

/-- At no time did a call in progress span (nearly) a whole period of the position counter. An assumption about
schedules. Scaffolding of the model, no counterpart in the source. -/
def NoStall (w cap : Nat) {V : Type} (tr : Trace V) : Prop :=
  ∀ pre, pre <+: tr → Fresh w cap pre

/-- The conditions under which the properties hold: an execution of a queue whose capacity fits
the word size, in which no call is stalled for a whole period of the position counter. Scaffolding of the model, no
counterpart in the source. -/
structure Run (w cap : Nat) {V : Type} (tr : Trace V) (s : State w V) : Prop where
  sized : WellSized w cap
  exec : Exec w cap tr s
  noStall : NoStall w cap tr

/-- Run a list of actions (executable; used for concrete cases). Scaffolding of the model, no counterpart in the
source. -/
def runActs {w : Nat} {V : Type} (cap : Nat) : State w V → List (Act V) →
    Option (State w V × List (Event V))
  | s, [] => some (s, [])
  | s, act :: acts =>
    match step cap s act with
    | none => none
    | some (s1, e1) =>
      match runActs cap s1 acts with
      | none => none
      | some (s2, e2) => some (s2, e1 ++ e2)

end Thingbuf
