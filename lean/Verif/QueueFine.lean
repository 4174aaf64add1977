import Verif.QueueSafe

/-!
# The senders' wait queue with `List::dequeue` in two steps

`Queue` performs the whole of `List::dequeue` in one step. The code does not: line 581 of
`src/wait/queue.rs` publishes the new state of the node (`last.state.swap(new_state, Release)`),
and only then, lines 584-599, does it read and clear the `next`, `prev` and `waiter` fields of
the node and unhook it. All of that happens under the lock, but the owner of the node does not
need the lock to see the new state: `continue_wait` (line 305) and `is_linked` (line 489) load
it without. So the owner can act between the two halves of a dequeue.

Here the two halves are two steps. Everything else is `Queue.step`, on the same state.
-/

namespace Thingbuf.Queue

variable {W : Type}

/-- The end of `List::dequeue`, `src/wait/queue.rs:584-599`, for the last node `t`: clear its
fields, cut the link to it, move the tail. -/
def WList.unlinkLast (l : WList W) (t : Nat) : WList W :=
  let prev := (l.node t).prev
  let l1 := l.set t fun nd => { nd with next := none, prev := none, waiter := none }
  match prev with
  | some p => { (l1.set p fun nd => { nd with next := none }) with tail := some p }
  | none => { l1 with head := none, tail := none }

/-- The state that a `notify` or `close` about to dequeue gives to the node:
`src/wait/queue.rs:410` (`WAKING`) and `:449` (`CLOSED`). -/
def PC.deqState : PC W → Option QSt
  | .nMatch .waiting => some .waking
  | .cLoop => some .closed
  | _ => none

/-- The queue with, if a call is between the two halves of `List::dequeue`, that call and the
node. The point between lines 581 and 584 of /repo/src/wait/queue.rs. -/
structure FState (W : Type) where
  q : State W
  half : Option (Nat × Nat)

/-- `WaitQueue::new`, `src/wait/queue.rs:163-178`. -/
def FState.init : FState W := ⟨State.init, none⟩

/-- A failed assertion in `notify_slow` ends the borrow of the receiver, one in `close` does not
need to. `debug_assert!` of /repo/src/wait/queue.rs lines 411 and 582; see `nMatch` in `Queue`. -/
def deqFail (s : State W) (o : Nat) (evs : List (Event W)) : Out W :=
  match s.pc (.op o) with
  | .nMatch _ => fail { s with borrows := s.borrows.erase o } (.op o) evs
  | _ => fail s (.op o) evs

/-- The first half of `List::dequeue`, `src/wait/queue.rs:577-582`: the tail `t` gets its new
state. -/
def deqSwap (c : Config W) (s : State W) (o t : Nat) (ns : QSt) : FState W × List (Event W) :=
  let s' := { s with list := s.list.set t fun nd => { nd with state := ns } }
  let evs := [.touch (.op o) t, .deq o t]
  if c.debug ∧ (s.list.node t).state ≠ .waiting then
    (⟨(deqFail s' o evs).1, none⟩, (deqFail s' o evs).2)
  else (⟨s', some (o, t)⟩, evs)

/-- What follows the dequeue: `notify_slow` goes on at line 419 of /repo/src/wait/queue.rs, `close` at line 450 or,
if the node had no waiter, at line 448. -/
def afterDeq (p : PC W) (t : Nat) (w : Option W) : PC W :=
  match p, w with
  | .cLoop, some v => .cWake t v
  | .cLoop, none => .cLoop
  | _, some v => .nStore (some (t, v))
  | _, none => .nStore none

/-- The second half of `List::dequeue`, `src/wait/queue.rs:584-599`, without its failing path:
the rest of the accesses to node `t` and to its predecessor. -/
def deqDone (s : State W) (o t : Nat) : State W :=
  { s with list := s.list.unlinkLast t }.goto (.op o)
    (afterDeq (s.pc (.op o)) t (s.list.node t).waiter)

/-- The second half of `List::dequeue`, `src/wait/queue.rs:584-599`, and the assertion of
line 411. -/
def deqRest (c : Config W) (s : State W) (o t : Nat) : Out W :=
  let evs := .touch (.op o) t :: (s.list.node t).prev.toList.map (.touch (.op o))
  match s.pc (.op o), (s.list.node t).waiter with
  | .nMatch _, none =>
    if c.debug then deqFail { s with list := s.list.unlinkLast t } o evs
    else (deqDone s o t, evs)
  | _, _ => (deqDone s o t, evs)

/-- One step. /repo/src/wait/queue.rs lines 189-491, with `List::dequeue` (lines 576-599) in two steps. -/
def fstep (c : Config W) (f : FState W) (act : Act W) :
    Option (FState W × List (Event W)) :=
  match act with
  | .op o spur =>
    match f.half with
    | some (o', t) =>
      if o' = o then some (⟨(deqRest c f.q o t).1, none⟩, (deqRest c f.q o t).2)
      else (step c f.q (.op o spur)).map fun r => (⟨r.1, f.half⟩, r.2)
    | none =>
      match (f.q.pc (.op o)).deqState, f.q.list.tail with
      | some ns, some t => some (deqSwap c f.q o t ns)
      | _, _ => (step c f.q (.op o spur)).map fun r => (⟨r.1, f.half⟩, r.2)
  | act => (step c f.q act).map fun r => (⟨r.1, f.half⟩, r.2)

/-- Executions of a new queue. Scaffolding of the model, no counterpart in the source: the interleavings of the
functions of /repo/src/wait/queue.rs lines 189-491. -/
inductive FExec (c : Config W) : Trace W → FState W → Prop where
  | init : FExec c [] FState.init
  | step {tr : Trace W} {f f' : FState W} {act : Act W} {evs : Trace W} :
      FExec c tr f → fstep c f act = some (f', evs) → FExec c (tr ++ evs) f'

/-- Run a list of actions. Scaffolding of the model, no counterpart in the source. -/
def frunActs (c : Config W) (f : FState W) : List (Act W) → Option (FState W × Trace W)
  | [] => some (f, [])
  | a :: as => do
    let (s1, e1) ← fstep c f a
    let (s2, e2) ← frunActs c s1 as
    pure (s2, e1 ++ e2)

/-- The queue after the dequeue in progress, if any, has been completed. Scaffolding of the model, no counterpart in
the source. -/
def FState.abs (f : FState W) : State W :=
  match f.half with
  | some (o, t) => deqDone f.q o t
  | none => f.q

/-- A trace without the accesses to memory. Scaffolding of the model, no counterpart in the source. -/
def quiet (tr : Trace W) : Trace W :=
  tr.filter fun e => match e with | .touch _ _ => false | _ => true

end Thingbuf.Queue
