import Verif.Queue

/-!
# The wait queue with plain loads that may be out of date

`Queue` assumes sequential consistency. The code does not ask for it everywhere: the words
`WaitQueue::state` and `Waiter::state` are read by five plain `load(Acquire)`, which may yield any
value written so far that the reader is not already known to have seen overwritten. This is the
machine for that. The rest of a step is that of `Queue`.

* Each of the words is a list of messages, the values written so far, in their order. (A write of
  the value that is already there adds no message. A reader could not tell.)
* Each call has a view: for each word the newest message it knows of. A plain load yields the
  value of any message that is at least as new as the view, and the view moves there.
* The other accesses to `WaitQueue::state` are `SeqCst` read-modify-write operations (also when
  the comparison fails) and `SeqCst` stores. All writes to that word are among them, so they read
  and write the newest message, and they move the view there. The writes to `Waiter::state` are
  `swap`s, which do the same.
* Taking the lock joins the view of the call that last released it. This is the ordering between
  threads that the lock provides (for the crate's own lock that is C60).
* A `notify` call is made by a thread that knows of some earlier calls that have ended, `as`. It
  starts with their views.

Nothing else is assumed to order the threads. The program may have more ordering (an acquire load
that reads a `SeqCst` store synchronises with it, the channel's ring buffer orders senders and
receiver), which only excludes executions.

The list, and the fields of a node other than its state, are only accessed under the lock (C61), so
these plain accesses are ordered by it.
-/

namespace Thingbuf.Queue

variable {W : Type}

/-- The values that an atomic word had, oldest first: message 0 is the initial value, message `top` the last one.
`AtomicUsize`, /repo/src/wait/queue.rs lines 82 and 125. -/
structure Word where
  msg : Nat → QSt
  top : Nat

/-- A word with this initial value. `AtomicUsize::new`, /repo/src/wait/queue.rs lines 165, 173 and 461. -/
def Word.new (x : QSt) : Word := ⟨fun _ => x, 0⟩

/-- A new value is written. Writing the value that is there already adds no message. `swap`, `store` and
`compare_exchange` of /repo/src/wait/queue.rs lines 193, 227, 242, 280, 380, 404, 406, 420, 446, 484 and 581. -/
def Word.write (w : Word) (x : QSt) : Word :=
  if x = w.msg w.top then w else ⟨fun i => if i = w.top + 1 then x else w.msg i, w.top + 1⟩

/-- The atomic words: the state of the queue and the states of the nodes. /repo/src/wait/queue.rs lines 82 and 125. -/
inductive Loc where
  | st
  | node (n : Nat)
  deriving DecidableEq

/-- How much of the history of each word is known: the newest message. Scaffolding of the model, no counterpart in the
source. -/
abbrev View := Loc → Nat

/-- All that is known in either of two views. Scaffolding of the model, no counterpart in the source. -/
def View.join (v w : View) : View := fun x => max (v x) (w x)

/-- The wait queue with the history of its words. `view t` is what call `t` knows of, `lockView` what the last holder
of the lock knew of when it released it, `before o` the calls that `notify` call `o` knows to have ended before it was
made. -/
structure LState (W : Type) where
  q : State W
  word : Loc → Word
  view : Tid → View
  lockView : View
  before : Nat → List Tid

/-- `WaitQueue::new`, /repo/src/wait/queue.rs lines 163-178, and `Waiter::new`, lines 459-469. -/
def LState.init : LState W where
  q := State.init
  word := fun _ => .new .empty
  view := fun _ _ => 0
  lockView := fun _ => 0
  before := fun _ => []

/-- The word that a call is about to read with a plain load: /repo/src/wait/queue.rs lines 218, 305, 336, 375
and 490. -/
def PC.plain : PC W → Tid → Option Loc
  | .startLoad _, _ | .nLoad, _ => some .st
  | .contLoad _, .node n | .contReload _, .node n | .remCheck, .node n => some (.node n)
  | _, _ => none

/-- Is the call about to access the state of the queue with a `SeqCst` operation? /repo/src/wait/queue.rs lines 193,
227, 242, 380, 404, 406, 420 (only if the list is empty), 446 and 484 (only if the list is empty). -/
def PC.sc (empty : Bool) : PC W → Bool
  | .startCas _ | .startLoop _ .empty | .startLoop _ .waking | .nLoop .empty | .nLoop .waking
  | .nMatch .empty | .nMatch .waking | .nForce | .cSwap => true
  | .nStore _ | .remCas => empty
  | _ => false

/-- The value of a word. Scaffolding of the model, no counterpart in the source. -/
def State.get (s : State W) : Loc → QSt
  | .st => s.st
  | .node n => (s.list.node n).state

/-- The queue as it looks to a load that yields `x`. Scaffolding of the model, no counterpart in the source. -/
def State.see (s : State W) (x : QSt) : Loc → State W
  | .st => { s with st := x }
  | .node n => { s with list := s.list.set n fun nd => { nd with state := x } }

/-- The view that a later holder of the lock gets. Unlocking publishes what the holder knows of. The guard of the lock,
/repo/src/wait/queue.rs lines 215, 332, 401, 447 and 474. -/
def LState.publish (l : LState W) (t : Tid) (s' : State W) (v : View) : View :=
  if l.q.lock = some t ∧ s'.lock ≠ some t then v else l.lockView

/-- After a plain load that yielded message `i` of word `x`; `s'` is what the step made of the queue as it looked to the
load. Scaffolding of the model, no counterpart in the source: the loads of `PC.plain`. -/
def LState.loaded (l : LState W) (t : Tid) (x : Loc) (i : Nat) (s' : State W) : LState W :=
  let v : View := fun y => if y = x then i else l.view t y
  { l with
    q := { s' with st := l.q.st, list := l.q.list }
    view := fun u => if u = t then v else l.view u
    lockView := l.publish t s' v }

/-- What a call knows of after a step that is not a plain load: what the last holder of the lock knew, if the step took
the lock; the newest message of a word it wrote, or that it accessed with a `SeqCst` operation. Scaffolding of the
model, no counterpart in the source. -/
def LState.newView (l : LState W) (t : Tid) (s' : State W) : View := fun x =>
  if s'.get x ≠ l.q.get x ∨ (x = .st ∧ (l.q.pc t).sc l.q.list.isEmpty = true) then
    ((l.word x).write (s'.get x)).top
  else if l.q.lock ≠ some t ∧ s'.lock = some t then max (l.view t x) (l.lockView x)
  else l.view t x

/-- After a step that is not a plain load. Scaffolding of the model, no counterpart in the source. -/
def LState.synced (l : LState W) (t : Tid) (s' : State W) : LState W :=
  { l with
    q := s'
    word := fun x => (l.word x).write (s'.get x)
    view := fun u => if u = t then l.newView t s' else l.view u
    lockView := l.publish t s' (l.newView t s') }

/-- Has the call, or everything that the owner of the node did, ended? Scaffolding of the model, no counterpart in the
source. -/
def PC.ended : PC W → Bool
  | .done | .gone | .panicked => true
  | _ => false

/-- What can happen next: a `notify` call, made by a thread that knows of the calls `as`, or another step of `Queue`; if
that is a plain load it yields message `i`. As `Act`. -/
inductive LAct (W : Type) where
  | notify (o : Nat) (as : List Tid)
  | act (a : Act W) (i : Nat)

/-- One step. /repo/src/wait/queue.rs lines 189-491, as `Queue.step`. -/
def lstep (c : Config W) (l : LState W) : LAct W → Option (LState W × List (Event W))
  | .notify o as =>
    if as.all fun t => (l.q.pc t).ended then
      (step c l.q (.notify o)).map fun r =>
        ({ l with
            q := r.1
            view := fun u => if u = .op o then as.foldl (fun v t => v.join (l.view t)) (l.view u) else l.view u
            before := fun p => if p = o then as else l.before p }, r.2)
    else none
  | .act (.notify _) _ => none
  | .act a i =>
    match (l.q.pc a.tid).plain a.tid with
    | some x =>
      if l.view a.tid x ≤ i ∧ i ≤ (l.word x).top then
        (step c (l.q.see ((l.word x).msg i) x) a).map fun r => (l.loaded a.tid x i r.1, r.2)
      else none
    | none => (step c l.q a).map fun r => (l.synced a.tid r.1, r.2)

/-- Executions of a new queue. Scaffolding of the model, no counterpart in the source. -/
inductive LExec (c : Config W) : Trace W → LState W → Prop where
  | init : LExec c [] .init
  | step {tr : Trace W} {l l' : LState W} {act : LAct W} {evs : Trace W} :
      LExec c tr l → lstep c l act = some (l', evs) → LExec c (tr ++ evs) l'

end Thingbuf.Queue
