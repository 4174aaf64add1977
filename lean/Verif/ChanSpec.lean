import Verif.Channel

/-!
# Specification vocabulary for the channel

Only events are mentioned here, never the state of the model.
-/

namespace Thingbuf.Chan

variable {V W : Type}

/-- The events of the ring buffer, of the wait cell, of the wait queue, and of the API. -/
def coreOf (tr : Trace V W) : Thingbuf.Trace V := tr.filterMap fun | .core e => some e | _ => none
def cellOf (tr : Trace V W) : Cell.Trace W := tr.filterMap fun | .cell e => some e | _ => none
def queueOf (tr : Trace V W) : Queue.Trace W := tr.filterMap fun | .queue e => some e | _ => none
def apiOf (tr : Trace V W) : List (Api W) := tr.filterMap fun | .api e => some e | _ => none

/-- The `Sender`s that exist: `0` at the start, plus clones, minus those dropped. -/
def sendersStep (l : List Nat) : Ev V W → List Nat
  | .api (.clone _ h) => h :: l
  | .api (.dropTx h _) => l.erase h
  | _ => l

def senders (tr : Trace V W) : List Nat := tr.foldl sendersStep [0]

/-- The messages received: the pop operations whose `RecvRef` was returned to the user, in order. -/
def received (tr : Trace V W) : List OpId :=
  tr.filterMap fun | .api (.retPoll (.some a)) => some a | .api (.retTry (.ok a)) => some a | _ => none

/-- The drop of the `SendRef` of call `k` has begun and is not over. -/
def SendEnding (tr : Trace V W) (k : Nat) : Prop := .api (.dropSend k) ∈ tr ∧ .api (.dropSendEnd k) ∉ tr

/-- The last `Sender` is being dropped. -/
def LastTxEnding (tr : Trace V W) : Prop := senders tr = [] ∧ .api .lastTxDropped ∉ tr

/-- The drop of the `RecvRef` from pop operation `a` has begun and is not over. -/
def RecvEnding (tr : Trace V W) (a : OpId) : Prop := .api (.dropRecv a) ∈ tr ∧ .api (.dropRecvEnd a) ∉ tr

/-- The oldest message of the channel has been sent completely: its `SendRef` has been dropped. -/
def OldestSent (tr : Trace V W) : Prop :=
  ∃ a, (resOps (coreOf tr))[nDeq (coreOf tr)]? = some a ∧ Committed (coreOf tr) a

/-- No `SendRef` was forgotten and no user code panicked in a send call. -/
def NoLoss (tr : Trace V W) : Prop := ∀ k, .api (.forgetSend k) ∉ tr ∧ .api (.retSend k .panicked) ∉ tr

/-- The drop of the last `Sender` has begun; `pan`: while its thread was panicking. -/
def LastDrop (tr : Trace V W) (pan : Bool) : Prop :=
  ∃ pre h post, tr = pre ++ .api (.dropTx h pan) :: post ∧ senders (pre ++ [.api (.dropTx h pan)]) = []

/-- The message that was sent through the `SendRef` of push operation `a` has been received: it is the `i`th message of the channel,
the `i`th receive call that succeeded returned the `RecvRef` of pop operation `b`, and in it was the value that was sent. -/
def Received (tr : Trace V W) (a : OpId) : Prop :=
  ∃ (i : Nat) (b : OpId) (x : V) (slot : Nat), (resOps (coreOf tr))[i]? = some a ∧ (received tr)[i]? = some b ∧ sent (coreOf tr) a = some x ∧
    .core (.dequeue b slot (some x)) ∈ tr

/-- One round of a busy loop of send call `k`: it calls `continue_wait` (with waker `v`), is told that it was notified, attempts to send (push operation `a`), and finds the channel
full. -/
def spinRound (k : Nat) (v : W) (a : OpId) : Trace V W :=
  [.queue (.callCont k v), .queue (.retCont k .notified), .core (.invoke a .push), .api (.attempt k a), .core (.ret a .full)]

/-- Send call `k` is asleep: it returned `Pending` or parked, and since then it was neither woken, nor polled again,
nor cancelled, nor did it time out. -/
def Asleep (tr : Trace V W) (k : Nat) : Prop :=
  ∃ pre post, tr = pre ++ .api (.sleep k) :: post ∧ (∀ o v, .queue (.wake o k v) ∉ post) ∧ (∀ v, .queue (.callCont k v) ∉ post) ∧
    .api (.cancel k) ∉ post ∧ .api (.retSend k .timeout) ∉ post

/-- Nothing is half way through among the senders and the `RecvRef`s: every send call has returned, or was cancelled, or is asleep; and no drop of a
`RecvRef` has begun and is not over. -/
def Settled (tr : Trace V W) : Prop :=
  (∀ k h wait, .api (.callSend k h wait) ∈ tr → (∃ r, .api (.retSend k r) ∈ tr) ∨ .api (.cancelled k) ∈ tr ∨ Asleep tr k) ∧
    ∀ a, ¬ RecvEnding tr a

/-- The message of push operation `a` is in the channel: a slot was given to it, and it was not received, or the `RecvRef` through which it was received has not
been dropped. -/
def InChannel (tr : Trace V W) (a : OpId) : Prop :=
  ∃ i : Nat, (resOps (coreOf tr))[i]? = some a ∧ ∀ b, (received tr)[i]? = some b → .api (.dropRecv b) ∉ tr

/-- A wakeup was wasted: a `notify` took a send call out of the wait queue, and the call was cancelled, or timed out, before it learned of it. -/
def WakeWasted (tr : Trace V W) : Prop :=
  ∃ pre o k mid post, tr = pre ++ .queue (.deq o k) :: (mid ++ post) ∧
    (.api (.cancel k) ∈ pre ++ mid ∨ .api (.retSend k .timeout) ∈ pre ++ mid) ∧ .queue (.retCont k .notified) ∉ mid

/-- `RecvRef`s are dropped one at a time: no drop begins before the one before it has ended. -/
def OneDrop (tr : Trace V W) : Prop :=
  ∀ pre b post b', tr = pre ++ .api (.dropRecv b) :: post → .api (.dropRecv b') ∈ pre → .api (.dropRecvEnd b') ∈ pre

/-- A step of the drop of the `SendRef` of call `k`. -/
def sendEndAct (k : Nat) : Act V W → Bool
  | .sendNotify j _ | .sendNotifyRun j => j == k
  | _ => false

/-- A step of the drop of the last `Sender`. -/
def closerAct : Act V W → Bool
  | .closer _ => true
  | _ => false

/-- A step of a call that is in progress: of the wait of a send call, of the drop of a `RecvRef`, or of the `Receiver`. -/
def Act.goesOn : Act V W → Bool
  | .node _ _ | .recvNotify _ _ | .recvNotifyRun _ _ | .rx _ _ => true
  | _ => false

end Thingbuf.Chan
