import Verif.ChanSpec
/-
Specification for C59: the channel as a sequential object, and what it means that a concurrent history of a channel
is linearizable with respect to it. Nothing here refers to the model of the code, except for the API events that make
up a history.
-/
namespace Thingbuf.Chan

/-- One operation of the sequential channel, with its result. Scaffolding of the model, no counterpart in the
source. -/
inductive CLabel (V : Type) where
  /-- send call `k` (`send_ref`, `try_send_ref`, ...) gets a place for its message -/
  | send (k : Nat)
  /-- send call `k` returns `Full` -/
  | full (k : Nat)
  /-- send call `k` returns `Closed` -/
  | sendClosed (k : Nat)
  /-- the `SendRef` of send call `k` is dropped, with the message `v` in it -/
  | sent (k : Nat) (v : V)
  /-- a receive call returns the `RecvRef` `a`, with the message `v` in it -/
  | recv (a : OpId) (v : V)
  /-- a receive call returns `Empty` or `Pending` -/
  | empty
  /-- a receive call returns `Closed` or `None` -/
  | closed
  /-- a receive call returns `None` for the only reason that there are no `Sender`s any more -/
  | gaveUp
  /-- the `Receiver` or the last `Sender` is dropped -/
  | close

/-- The sequential channel: the messages, oldest first, each with the send call it is from, and whether the channel is
closed. A message is `none` until its `SendRef` is dropped. Scaffolding of the model, no counterpart in the source. -/
structure CAbs (V : Type) where
  items : List (Nat × Option V)
  closed : Bool

section
variable {V W : Type}

/-- The new channel. Scaffolding of the model, no counterpart in the source. -/
def CAbs.init : CAbs V := ⟨[], false⟩

/-- The sequential channel of capacity `cap` performs one operation. Two rules are weaker than one might wish, because
the code is: a receive call may find nothing although the oldest message is only not completely sent yet and later
ones are; and it may give up on such a message, or on an empty channel that is not closed, when there are no more
`Sender`s (the `SendRef` was leaked, or the last `Sender` dropped by a panicking thread). Scaffolding of the model, no
counterpart in the source. -/
inductive CAbs.Step (cap : Nat) : CAbs V → CLabel V → CAbs V → Prop where
  | send {q : CAbs V} {k : Nat} : q.closed = false → q.items.length < cap →
      Step cap q (.send k) { q with items := q.items ++ [(k, none)] }
  | full {q : CAbs V} {k : Nat} : q.closed = false → q.items.length = cap → Step cap q (.full k) q
  | sendClosed {q : CAbs V} {k : Nat} : q.closed = true → Step cap q (.sendClosed k) q
  | sent {l₁ l₂ : List (Nat × Option V)} {b : Bool} {k : Nat} {v : V} :
      Step cap ⟨l₁ ++ (k, none) :: l₂, b⟩ (.sent k v) ⟨l₁ ++ (k, some v) :: l₂, b⟩
  | recv {k : Nat} {rest : List (Nat × Option V)} {b : Bool} {a : OpId} {v : V} :
      Step cap ⟨(k, some v) :: rest, b⟩ (.recv a v) ⟨rest, b⟩
  | empty : Step cap ⟨[], false⟩ .empty ⟨[], false⟩
  | emptyUnsent {k : Nat} {rest : List (Nat × Option V)} {b : Bool} :
      Step cap ⟨(k, none) :: rest, b⟩ .empty ⟨(k, none) :: rest, b⟩
  | closed : Step cap ⟨[], true⟩ .closed ⟨[], true⟩
  | gaveUp : Step cap ⟨[], false⟩ .gaveUp ⟨[], false⟩
  | gaveUpUnsent {k : Nat} {rest : List (Nat × Option V)} {b : Bool} :
      Step cap ⟨(k, none) :: rest, b⟩ .gaveUp ⟨(k, none) :: rest, b⟩
  | close {q : CAbs V} : Step cap q .close { q with closed := true }

/-- The sequential channel performs a sequence of operations. Scaffolding of the model, no counterpart in the
source. -/
inductive CAbs.Steps (cap : Nat) : CAbs V → List (CLabel V) → CAbs V → Prop where
  | nil {q : CAbs V} : Steps cap q [] q
  | cons {q q₁ q₂ : CAbs V} {l : CLabel V} {ls : List (CLabel V)} : CAbs.Step cap q l q₁ → Steps cap q₁ ls q₂ →
      Steps cap q (l :: ls) q₂

/-- The send call that an operation stands for. Scaffolding of the model, no counterpart in the source. -/
def CLabel.sender : CLabel V → Option Nat
  | .send k | .full k | .sendClosed k => some k
  | _ => none

/-- Is this the result of the send call? Scaffolding of the model, no counterpart in the source. -/
def CLabel.GivesSend : CLabel V → SendRes → Prop
  | .send _, r => ∃ a, r = .ok a
  | .full _, r => r = .full
  | .sendClosed _, r => r = .closed
  | _, _ => False

/-- Does the operation stand for a receive call? Scaffolding of the model, no counterpart in the source. -/
def CLabel.IsRecv : CLabel V → Prop
  | .recv _ _ | .empty | .closed | .gaveUp => True
  | _ => False

/-- Is this how the receive call returns? Scaffolding of the model, no counterpart in the source. -/
def CLabel.GivesRecv : CLabel V → Api W → Prop
  | .recv a _, e => e = .retPoll (.some a) ∨ e = .retTry (.ok a)
  | .empty, e => e = .retPoll .pending ∨ e = .retTry .empty
  | .closed, e => e = .retPoll .none ∨ e = .retTry .closed
  | .gaveUp, e => e = .retPoll .none
  | _, _ => False

/-- The receiver is called (polled, or `try_recv_ref` is called). Scaffolding of the model, no counterpart in the
source. -/
def RecvCall (e : Api W) : Prop := (∃ v, e = .callPoll v) ∨ e = .callTry

/-- A call of the receiver returns. Scaffolding of the model, no counterpart in the source. -/
def RecvRet (e : Api W) : Prop := (∃ r, e = .retPoll r) ∨ ∃ r, e = .retTry r

/-- A concurrent history with the points at which the calls take effect. Scaffolding of the model, no counterpart in
the source. -/
abbrev CMarked (V W : Type) := List (Api W ⊕ CLabel V)

/-- The history alone. Scaffolding of the model, no counterpart in the source. -/
def CMarked.events (L : CMarked V W) : List (Api W) := L.filterMap Sum.getLeft?

/-- The effects alone, in their order: a sequential history. Scaffolding of the model, no counterpart in the
source. -/
def CMarked.labels (L : CMarked V W) : List (CLabel V) := L.filterMap Sum.getRight?

/-- The calls and returns alone, as a history of the channel. Scaffolding of the model, no counterpart in the
source. -/
def CMarked.trace (L : CMarked V W) : Trace V W := (CMarked.events L).map .api

/-- `L` shows that the concurrent history `tr` of a channel is linearizable: it is the calls and returns of `tr` with a
point marked for every call, in the interval of the call, such that the sequential channel, performing the operations
in the order of their points, gives every call the result it had. Scaffolding of the model, no counterpart in the
source. -/
structure ChanLinearizes (cap : Nat) (tr : Trace V W) (L : CMarked V W) : Prop where
  /-- without the points it is the given history -/
  history : CMarked.events L = apiOf tr
  /-- the sequential channel can do what is marked -/
  legal : ∃ q, CAbs.Steps cap .init (CMarked.labels L) q
  /-- the point of a send call is after its beginning and before its return; a call that is cancelled or times out has none -/
  sendDuring : ∀ L₁ l L₂ k, L = L₁ ++ .inr l :: L₂ → l.sender = some k →
    (∃ h wait, Api.callSend k h wait ∈ CMarked.events L₁) ∧ (∀ r, Api.retSend k r ∉ CMarked.events L₁) ∧
      Api.cancel k ∉ CMarked.events L ∧ Api.retSend k .timeout ∉ CMarked.events L
  /-- no send call has two points -/
  sendOnce : ∀ L₁ l L₂ l' L₃ k, L = L₁ ++ .inr l :: (L₂ ++ .inr l' :: L₃) → l.sender = some k → l'.sender ≠ some k
  /-- every send call that returned has one, with the result that it returned (unless it timed out, or the user's code panicked) -/
  sendDone : ∀ k r, Api.retSend k r ∈ apiOf tr → r ≠ .panicked → r ≠ .timeout → ∃ l, .inr l ∈ L ∧ l.sender = some k ∧ l.GivesSend r
  /-- a message is completely sent exactly when its `SendRef` is dropped -/
  sentAt : ∀ L₁ k v L₂, L = L₁ ++ .inr (.sent k v) :: L₂ → ∃ L₃, L₂ = .inl (.dropSend k) :: L₃
  dropped : ∀ L₁ k L₂, L = L₁ ++ .inl (.dropSend k) :: L₂ → ∃ L₀ v, L₁ = L₀ ++ [.inr (.sent k v)]
  /-- the message sent is what the `SendRef` holds -/
  sentValue : ∀ k v, .inr (.sent k v) ∈ L → ∃ a i, .api (.retSend k (.ok a)) ∈ tr ∧ .core (.commit a i (some v)) ∈ tr
  /-- the point of a receive call is after its beginning and before its return, and it has only one -/
  recvDuring : ∀ L₁ l L₂, L = L₁ ++ .inr l :: L₂ → l.IsRecv → ∃ A e B, L₁ = A ++ .inl e :: B ∧ RecvCall e ∧
    (∀ e', .inl e' ∈ B → ¬ RecvCall e' ∧ ¬ RecvRet e') ∧ ∀ l', .inr l' ∈ B → ¬ l'.IsRecv
  /-- every receive call that returned has one, with the result that it returned -/
  recvDone : ∀ L₁ e L₂, L = L₁ ++ .inl e :: L₂ → RecvRet e → ∃ A l B, L₁ = A ++ .inr l :: B ∧ l.GivesRecv e ∧
    ∀ e', .inl e' ∈ B → ¬ RecvCall e' ∧ ¬ RecvRet e'
  /-- the message received is what the `RecvRef` holds -/
  recvValue : ∀ a v, .inr (.recv a v) ∈ L → ∃ i, .core (.dequeue a i (some v)) ∈ tr
  /-- a receive call gives up only when there are no `Sender`s -/
  gaveUp : ∀ L₁ L₂, L = L₁ ++ .inr .gaveUp :: L₂ → senders (CMarked.trace L₁) = []
  /-- the channel is closed only by the drop of the `Receiver` or of the last `Sender`, while it is in progress -/
  closeDuring : ∀ L₁ L₂, L = L₁ ++ .inr .close :: L₂ →
    (Api.dropRx false ∈ CMarked.events L₁ ∧ Api.rxDropped ∉ CMarked.events L₁) ∨
      (LastDrop (CMarked.trace L₁) false ∧ Api.lastTxDropped ∉ CMarked.events L₁)
  /-- and such a drop does close it (unless it is that of a panicking thread) -/
  closeDone : ∀ L₁ e L₂, L = L₁ ++ .inl e :: L₂ →
    (e = .rxDropped ∧ Api.dropRx false ∈ CMarked.events L₁) ∨ (e = .lastTxDropped ∧ LastDrop (CMarked.trace L₁) false) →
      .inr .close ∈ L₁

end
end Thingbuf.Chan
