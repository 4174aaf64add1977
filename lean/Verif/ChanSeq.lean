import Verif.Channel
/-!
# Sequential use of the asynchronous channel

What happens when the calls to an asynchronous channel do not overlap: for instance when all its tasks run on one
thread, where every poll of a future runs to its end before anything else happens.

* `Call`: the by-value API, with polls of `send` and `recv` futures, cancellation, and drops of senders and receiver.
* `Spec`: what the channel does, said without queues, slots, atomics and wait lists.
* `CallRun`, `CallsRun`: the same calls run by the model of the code (`Verif/Channel.lean`), each to its end.

`Verif/ChanSeqProps.lean` proves that the two agree.
-/

namespace Thingbuf.Chan

/-! ## The calls -/

/-- A call to the channel. Senders and send futures have numbers; the first `Sender` is 0, and clones, send futures
and calls of `try_send` get the next unused number when they are created. The functions of
/repo/src/mpsc/async_impl.rs lines 130-282, 1421-1501 and 568-590, called one at a time. -/
inductive Call (V W : Type) where
  /-- `Sender::clone` -/
  | clone (h : Nat)
  /-- drop of `Sender` `h` -/
  | dropTx (h : Nat)
  | trySend (h : Nat) (v : V)
  /-- `send(v)` on `Sender` `h`: the future is created and polled for the first time, with waker `u` -/
  | send (h : Nat) (v : V) (u : W)
  /-- the pending `send(v)` future `k` is polled again, with waker `u` -/
  | pollSend (k : Nat) (v : V) (u : W)
  /-- the pending `send` future `k` is dropped -/
  | cancel (k : Nat)
  | tryRecv
  /-- a `recv()` future is polled, with waker `u` -/
  | recv (u : W)
  /-- drop of the `Receiver` -/
  | dropRx
  deriving Repr

/-- What can be observed during a call. The results of the functions cited at `Call`. -/
inductive Obs (V W : Type) where
  /-- the send succeeds -/
  | sent
  | full
  /-- the send fails because the receiver is gone -/
  | closed
  /-- the future returns `Pending` -/
  | pending
  /-- a message is received -/
  | got (v : Option V)
  /-- `try_recv` returns `Empty` -/
  | empty
  /-- `try_recv` returns `Closed`, `recv` returns `None` -/
  | ended
  /-- user code or an assertion panicked -/
  | panicked
  /-- a task is woken -/
  | woke (u : W)
  deriving DecidableEq, Repr

/-! ## The specification -/

/-- A channel, for its users. Specification, independent of the code. -/
structure Spec (V W : Type) where
  /-- the messages in the channel -/
  msgs : List V
  /-- the living `Sender`s -/
  senders : List Nat
  /-- the `Receiver` is alive -/
  rx : Bool
  closed : Bool
  /-- the waker of the receive future that was told to wait and has not been woken -/
  rxWaker : Option W
  /-- a message was received when no sender was waiting, and no sender has had to wait since -/
  stored : Bool
  /-- the waiting send futures that have not been woken, longest waiting first, with their wakers -/
  waiting : List (Nat × W)
  /-- the pending send futures, with their `Sender`s -/
  futs : List (Nat × Nat)
  /-- the next unused number -/
  next : Nat
  deriving Repr

variable {V W : Type}

/-- A new channel. Specification, independent of the code. -/
def Spec.init : Spec V W where
  msgs := []
  senders := [0]
  rx := true
  closed := false
  rxWaker := none
  stored := false
  waiting := []
  futs := []
  next := 1

/-- A message is sent: the receiver is woken if it waits. Specification, independent of the code. -/
def Spec.put (σ : Spec V W) (v : V) : Spec V W × List (Obs V W) :=
  ({ σ with msgs := σ.msgs ++ [v], rxWaker := none }, .sent :: σ.rxWaker.toList.map .woke)

/-- The send future `k` has resolved. Specification, independent of the code. -/
def Spec.resolved (σ : Spec V W) (k : Nat) : Spec V W := { σ with futs := σ.futs.filter fun x => x.1 ≠ k }

/-- A poll of the send future `k`, which is not in the line of waiting futures. Specification, independent of the
code. -/
def Spec.attempt (cap : Nat) (σ : Spec V W) (k : Nat) (v : V) (u : W) : Spec V W × List (Obs V W) :=
  if σ.closed then (σ.resolved k, [.closed])
  else if σ.msgs.length < cap then (σ.resolved k).put v
  else ({ σ with stored := false, waiting := σ.waiting ++ [(k, u)] }, [.pending])

/-- A message was taken out: the longest waiting send future is woken. Specification, independent of the code. -/
def Spec.freed (σ : Spec V W) : Spec V W × List (Obs V W) :=
  match σ.waiting with
  | (_, u) :: l => ({ σ with waiting := l }, [.woke u])
  | [] => ({ σ with stored := true }, [])

/-- Replace the waker of future `k` by `u`, unless they wake the same task. Specification, independent of the code.
-/
def rewake (same : W → W → Bool) (k : Nat) (u : W) (l : List (Nat × W)) : List (Nat × W) :=
  l.map fun x => if x.1 = k then (k, if same x.2 u then x.2 else u) else x

/-- The channel with its next call. `none`: the call is not possible, because what it is made on does not exist.
Specification, independent of the code. -/
def Spec.step (cap : Nat) (same : W → W → Bool) (σ : Spec V W) : Call V W → Option (Spec V W × List (Obs V W))
  | .clone h => if h ∈ σ.senders then some ({ σ with senders := σ.next :: σ.senders, next := σ.next + 1 }, []) else none
  | .dropTx h => if h ∈ σ.senders ∧ ∀ x ∈ σ.futs, x.2 ≠ h then
      let σ' := { σ with senders := σ.senders.erase h }
      if σ'.senders = [] then
        -- the last one: the receiver is woken
        some ({ σ' with closed := true, rxWaker := none }, σ.rxWaker.toList.map .woke)
      else some (σ', [])
    else none
  | .trySend h v => if h ∈ σ.senders then
      let σ' := { σ with next := σ.next + 1 }
      some (if σ.closed then (σ', [.closed]) else if σ.msgs.length < cap then σ'.put v else (σ', [.full]))
    else none
  | .send h v u => if h ∈ σ.senders then
      some ({ σ with next := σ.next + 1, futs := (σ.next, h) :: σ.futs }.attempt cap σ.next v u)
    else none
  | .pollSend k v u => if k ∈ σ.futs.map Prod.fst then
      if k ∈ σ.waiting.map Prod.fst then some ({ σ with waiting := rewake same k u σ.waiting }, [.pending])
      else some (σ.attempt cap k v u)
    else none
  | .cancel k => if k ∈ σ.futs.map Prod.fst then
      some ({ σ.resolved k with waiting := σ.waiting.filter fun x => x.1 ≠ k }, [])
    else none
  | .tryRecv => if σ.rx then
      match σ.msgs with
      | x :: l => let r := { σ with msgs := l }.freed; some (r.1, .got (some x) :: r.2)
      | [] => some (σ, [if σ.closed then .ended else .empty])
    else none
  | .recv u => if σ.rx then
      match σ.msgs with
      | x :: l => let r := { σ with msgs := l }.freed; some (r.1, .got (some x) :: r.2)
      | [] => if σ.closed then some (σ, [.ended]) else some ({ σ with rxWaker := some u }, [.pending])
    else none
  | .dropRx => if σ.rx then
      -- all waiting send futures are woken, and will find the channel closed
      some ({ σ with rx := false, closed := true, stored := false, waiting := [] }, σ.waiting.map fun x => .woke x.2)
    else none

/-- A sequence of calls: the final state, and what is observed during each call. Specification, independent of the
code. -/
def Spec.run (cap : Nat) (same : W → W → Bool) : Spec V W → List (Call V W) → Option (Spec V W × List (List (Obs V W)))
  | σ, [] => some (σ, [])
  | σ, c :: cs =>
    match σ.step cap same c with
    | none => none
    | some (σ1, o) =>
      match Spec.run cap same σ1 cs with
      | none => none
      | some (σ2, os) => some (σ2, o :: os)

/-! ## The calls, run by the model of the code -/

/-- What can be observed of the events of the model. Scaffolding of the model, no counterpart in the source. -/
def Ev.obs : Ev V W → Option (Obs V W)
  | .core (.access _ _ (.read x)) => some (.got x)
  | .cell (.wake _ u) => some (.woke u)
  | .queue (.wake _ _ u) => some (.woke u)
  | .api (.retSend _ (.ok _)) => some .sent
  | .api (.retSend _ .full) => some .full
  | .api (.retSend _ .closed) => some .closed
  | .api (.retSend _ .panicked) => some .panicked
  | .api (.sleep _) => some .pending
  | .api (.retPoll .none) => some .ended
  | .api (.retPoll .pending) => some .pending
  | .api (.retTry .empty) => some .empty
  | .api (.retTry .closed) => some .ended
  | .core (.ret _ .panicked) => some .panicked
  | .cell (.assertFailed _) => some .panicked
  | .queue (.assertFailed _) => some .panicked
  | _ => none

/-- Scaffolding of the model, no counterpart in the source. -/
def obs (tr : Trace V W) : List (Obs V W) := tr.filterMap Ev.obs

/-- What the environment decides at the `i`-th step: whether a weak compare-and-swap fails spuriously, and what
`new_element` or `recycle` produces. Choices left open by the source: spurious failure of `compare_exchange_weak`
and the content of a new element (/repo/src/lib.rs lines 217-242). -/
structure Env (V : Type) where
  spur : Nat → Bool
  junk : Nat → V

variable {w : Nat}

/-- The machine runs by the actions that `next` says, until there are no more. Goes are numbered from `i` on, and the
next step after these is `j`; the number of a step also serves as the number of the operation that it calls.
Scaffolding of the model, no counterpart in the source. -/
inductive Goes (c : Config W) (next : State w V W → Nat → Option (Act V W)) :
    State w V W → Nat → State w V W → Trace V W → Nat → Prop where
  | stop {s : State w V W} {i : Nat} : next s i = none → Goes c next s i s [] i
  | step {s s1 s2 : State w V W} {i j : Nat} {act : Act V W} {e1 e2 : Trace V W} : next s i = some act →
      step c s act = some (s1, e1) → Goes c next s1 (i + 1) s2 e2 j → Goes c next s i s2 (e1 ++ e2) j

/-- A weak compare-and-swap of operation `a` of the ring buffer fails spuriously, if it is at one. Scaffolding of
the model, no counterpart in the source. -/
def spurAt (s : Thingbuf.State w V) (a : OpId) (spur : Bool) : Bool :=
  match s.pc a with
  | .pushCas _ _ | .popCas _ _ => spur
  | _ => false

/-- The next step of the call that send future `k` is in, polled with waker `u`. /repo/src/mpsc/async_impl.rs lines
130-193 and 1436-1501: the next step of a send call. -/
def sendNext (env : Env V) (k : Nat) (u : Option W) (s : State w V W) (i : Nat) : Option (Act V W) :=
  match s.snd k with
  | .push a _ =>
    match s.core.pc a with
    | .pushInit _ => some (.push k (.elem (env.junk i)))
    | _ => some (.push k (.run (spurAt s.core a (env.spur i))))
  | .retry _ => some (.retry k i)
  | .toStart => u.map fun u => .start k u
  | .starting | .conting | .dropping => some (.node k (env.spur i))
  | .toNotify => some (.sendNotify k i)
  | .notifying _ => some (.sendNotifyRun k)
  | _ => none

/-- The next step of the `Receiver`. /repo/src/mpsc.rs lines 379-451: the next step of the `Receiver`. -/
def rxNext (env : Env V) (s : State w V W) (i : Nat) : Option (Act V W) :=
  match s.rx with
  | .idle _ | .gone => none
  | .pop a _ | .pop2 a _ | .last a | .tryPop a _ => some (.rx i (spurAt s.core a (env.spur i)))
  | _ => some (.rx i (env.spur i))

/-- The next step of the drop of the `RecvRef` `a`. /repo/src/mpsc.rs lines 287-304 and 567-573: the next step of
the drop of a `RecvRef`. -/
def refNext (env : Env V) (a : OpId) (s : State w V W) (i : Nat) : Option (Act V W) :=
  match s.ref a with
  | .toNotify => some (.recvNotify a i)
  | .notifying _ => some (.recvNotifyRun a (env.spur i))
  | _ => none

/-- The next step of the drop of the last `Sender`. /repo/src/mpsc/async_impl.rs lines 271-282: the next step of the
drop of the last `Sender`. -/
def closerNext (s : State w V W) (i : Nat) : Option (Act V W) :=
  match s.closer with
  | .none | .done => none
  | _ => some (.closer i)

/-- One action and then the rest of the call. The functions cited at `Call`. -/
def Begins (c : Config W) (next : State w V W → Nat → Option (Act V W)) (act : Act V W) (s : State w V W) (i : Nat)
    (s' : State w V W) (tr : Trace V W) (j : Nat) : Prop :=
  ∃ s1 e1 e2, step c s act = some (s1, e1) ∧ Goes c next s1 (i + 1) s' e2 j ∧ tr = e1 ++ e2

/-- `send` and `try_send` (/repo/src/mpsc.rs lines 366-377, /repo/src/mpsc/async_impl.rs lines 185-193): if there is a
`SendRef`, the message is written and the `SendRef` is dropped. -/
inductive ThenWrite (c : Config W) (env : Env V) (k : Nat) (v : V) :
    State w V W → Nat → State w V W → Trace V W → Nat → Prop where
  | write {s s1 s2 : State w V W} {i j : Nat} {e1 e2 : Trace V W} {a : OpId} : s.snd k = .held a →
      step c s (.sendWrite k v) = some (s1, e1) → Begins c (sendNext env k none) (.dropSend k) s1 i s2 e2 j →
      ThenWrite c env k v s i s2 (e1 ++ e2) j
  | skip {s : State w V W} {i : Nat} : (∀ a, s.snd k ≠ .held a) → ThenWrite c env k v s i s [] i

/-- `recv` and `try_recv` (/repo/src/mpsc.rs lines 389-397, /repo/src/mpsc/async_impl.rs lines 568-574, 1421-1424; `recycling::take`,
/repo/src/recycling.rs lines 196-201):
if there is a `RecvRef`, the message is replaced by a new element, and the `RecvRef` is dropped. -/
inductive ThenTake (c : Config W) (env : Env V) : State w V W → Nat → State w V W → Trace V W → Nat → Prop where
  | take {s s1 s2 s3 : State w V W} {i j : Nat} {e1 e2 e3 : Trace V W} {a : OpId} {l : List OpId} : s.refs = a :: l →
      step c s (.recvRead a) = some (s1, e1) → step c s1 (.recvWrite a (env.junk i)) = some (s2, e2) →
      Begins c (refNext env a) (.dropRecv a) s2 i s3 e3 j → ThenTake c env s i s3 (e1 ++ e2 ++ e3) j
  | skip {s : State w V W} {i : Nat} : s.refs = [] → ThenTake c env s i s [] i

/-- One call, run to its end. `i`: the number of the first step; `k`: the next unused number of a sender or future; `j`:
the number of the next step. The functions cited at `Call`, from beginning to end; /repo/src/mpsc.rs lines 366-397
for the write after `try_send_ref` and the take after `try_recv_ref`. -/
inductive CallRun (c : Config W) (env : Env V) (s : State w V W) (i k : Nat) :
    Call V W → State w V W → Trace V W → Nat → Prop where
  | clone {s' : State w V W} {e : Trace V W} {h : Nat} : step c s (.clone h k) = some (s', e) →
      CallRun c env s i k (.clone h) s' e i
  | dropTx {s' : State w V W} {e : Trace V W} {h j : Nat} : Begins c closerNext (.dropTx h false) s i s' e j →
      CallRun c env s i k (.dropTx h) s' e j
  | trySend {s1 s2 : State w V W} {e1 e2 : Trace V W} {h j1 j2 : Nat} {v : V} :
      Begins c (sendNext env k none) (.send k h false i) s i s1 e1 j1 → ThenWrite c env k v s1 j1 s2 e2 j2 →
      CallRun c env s i k (.trySend h v) s2 (e1 ++ e2) j2
  | send {s1 s2 : State w V W} {e1 e2 : Trace V W} {h j1 j2 : Nat} {v : V} {u : W} :
      Begins c (sendNext env k (some u)) (.send k h true i) s i s1 e1 j1 → ThenWrite c env k v s1 j1 s2 e2 j2 →
      CallRun c env s i k (.send h v u) s2 (e1 ++ e2) j2
  | pollSend {s1 s2 : State w V W} {e1 e2 : Trace V W} {m j1 j2 : Nat} {v : V} {u : W} :
      Begins c (sendNext env m (some u)) (.cont m u) s i s1 e1 j1 → ThenWrite c env m v s1 j1 s2 e2 j2 →
      CallRun c env s i k (.pollSend m v u) s2 (e1 ++ e2) j2
  | cancel {s' : State w V W} {e : Trace V W} {m j : Nat} : Begins c (sendNext env m none) (.cancel m) s i s' e j →
      CallRun c env s i k (.cancel m) s' e j
  | tryRecv {s1 s2 : State w V W} {e1 e2 : Trace V W} {j1 j2 : Nat} :
      Begins c (rxNext env) (.tryRecv i) s i s1 e1 j1 → ThenTake c env s1 j1 s2 e2 j2 →
      CallRun c env s i k .tryRecv s2 (e1 ++ e2) j2
  | recv {s1 s2 : State w V W} {e1 e2 : Trace V W} {j1 j2 : Nat} {u : W} :
      Begins c (rxNext env) (.poll u) s i s1 e1 j1 → ThenTake c env s1 j1 s2 e2 j2 →
      CallRun c env s i k (.recv u) s2 (e1 ++ e2) j2
  | dropRx {s' : State w V W} {e : Trace V W} {j : Nat} : Begins c (rxNext env) (.dropRx false) s i s' e j →
      CallRun c env s i k .dropRx s' e j

/-- How many new numbers a call uses. Scaffolding of the model, no counterpart in the source. -/
def Call.fresh : Call V W → Nat
  | .clone _ | .trySend _ _ | .send _ _ _ => 1
  | _ => 0

/-- A sequence of calls, with what is observed during each. Scaffolding of the model, no counterpart in the source.
-/
inductive CallsRun (c : Config W) (env : Env V) : State w V W → Nat → Nat → List (Call V W) →
    State w V W → Trace V W → List (List (Obs V W)) → Prop where
  | nil {s : State w V W} {i k : Nat} : CallsRun c env s i k [] s [] []
  | cons {s s1 s2 : State w V W} {i j k : Nat} {e1 e2 : Trace V W} {call : Call V W} {calls : List (Call V W)}
      {os : List (List (Obs V W))} : CallRun c env s i k call s1 e1 j →
      CallsRun c env s1 j (k + call.fresh) calls s2 e2 os →
      CallsRun c env s i k (call :: calls) s2 (e1 ++ e2) (obs e1 :: os)

end Thingbuf.Chan
