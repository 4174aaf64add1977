import Verif.ChanDemo
import Verif.CoreProps

/-!
# Properties of the channel: messages

Proved for every run of the channel (`Run`): any number of senders, send calls, references, any interleaving, any cancellations,
any panics of user code.
-/

namespace Thingbuf.Chan

variable {w : Nat} {V W : Type} {c : Config W} {tr : Trace V W} {s : State w V W}

/-! ### C45 -/

/-- **C45** A send future that is dropped before it completes enqueues nothing: none of its attempts
ever reserved a slot. -/
theorem C45_cancelled_sends_nothing (h : Run c tr s) {k : Nat} (hc : .api (.cancel k) ∈ tr) {a : OpId}
    (ha : .api (.attempt k a) ∈ tr) : a ∉ resOps (coreOf tr) :=
  fun hr => (h.sender_life hr ha).1 hc

/-- **C45** A blocking send that returned `Timeout` has not put anything into the channel, either: none of its attempts ever reserved a slot. -/
theorem C45_timed_out_sends_nothing (h : Run c tr s) {k : Nat} (hc : .api (.retSend k .timeout) ∈ tr) {a : OpId}
    (ha : .api (.attempt k a) ∈ tr) : a ∉ resOps (coreOf tr) := by
  intro hr
  rcases (h.sender_life hr ha).2.1 _ hc with h1 | h1 <;> cases h1

/-- **C45** Each message of the channel belongs to one send call, and each send call sends at most one: whoever
reserved a slot did so for a send call `k`, that call has no other message, was not cancelled, and
returned, if it did, the reference to that very slot (or panicked). -/
theorem C45_one_message_per_send (h : Run c tr s) {a : OpId} (ha : a ∈ resOps (coreOf tr)) :
    ∃ k, .api (.attempt k a) ∈ tr ∧ (∀ k', .api (.attempt k' a) ∈ tr → k' = k) ∧
      (∀ b ∈ resOps (coreOf tr), .api (.attempt k b) ∈ tr → b = a) ∧ .api (.cancel k) ∉ tr ∧
      ∀ r, .api (.retSend k r) ∈ tr → r = .ok a ∨ r = .panicked := by
  obtain ⟨k, hk, -⟩ := h.sender ha
  obtain ⟨h1, h2, h3⟩ := h.sender_life ha hk
  exact ⟨k, hk, fun k' hk' => h.exec.attInv.uniq _ _ _ hk' hk, h3, h1, h2⟩

/-- **C45** Receive futures lose nothing: the messages taken out of the ring buffer are exactly those that were
returned by a poll or a `try_recv`, in the same order. -/
theorem C45_nothing_taken_is_lost (h : Run c tr s) : deqOps (coreOf tr) = received tr := h.exec.received.symm

theorem ExecM.received_from {m : Bool} {mm : Prop} (h : ExecM m c tr s) (hc : Facts mm w c.cap (coreOf tr)) {i : Nat} {b : OpId} (hb : (Chan.received tr)[i]? = some b) :
    ∃ a k x slot, (resOps (coreOf tr))[i]? = some a ∧ .api (.retSend k (.ok a)) ∈ tr ∧ .api (.dropSend k) ∈ tr ∧
      .api (.cancel k) ∉ tr ∧ sent (coreOf tr) a = some x ∧ .core (.dequeue b slot (some x)) ∈ tr := by
  rw [h.received] at hb
  obtain ⟨pre, slot, v, post, htr, hn⟩ := deqOps_split hb
  obtain ⟨hp, -, -, a, x, h1, rfl, h2⟩ := hc.evOk htr
  have hcom : Committed (coreOf tr) a := ⟨slot, some x, by rw [htr]; simp [h2]⟩
  have hi : (resOps (coreOf tr))[i]? = some a := by
    rw [← hn]
    exact getElem?_prefix (resOps_prefix ⟨_, htr.symm⟩) h1
  obtain ⟨k, h3, h4, h5⟩ := h.committed hcom
  refine ⟨a, k, x, slot, hi, h4, h5, (h.sender_life hc (List.mem_of_getElem? hi) h3).1, ?_, ?_⟩
  · exact hc.sent_eq (show Event.commit a slot (some x) ∈ coreOf tr by rw [htr]; simp [h2])
  · rw [← mem_coreOf, htr]; simp

/-- **C45** The messages received are, in order, the messages of the first send calls that completed, in reservation
order: the `i`th message received is the value that the `i`th reservation's `SendRef` held when it was dropped; that
`SendRef` was returned by a send call that was not cancelled. -/
theorem C45_received (h : Run c tr s) {i : Nat} {b : OpId} (hb : (received tr)[i]? = some b) :
    ∃ a k x slot, (resOps (coreOf tr))[i]? = some a ∧ .api (.retSend k (.ok a)) ∈ tr ∧ .api (.dropSend k) ∈ tr ∧
      .api (.cancel k) ∉ tr ∧ sent (coreOf tr) a = some x ∧ .core (.dequeue b slot (some x)) ∈ tr := h.exec.received_from h.core.facts hb

/-- Two sends with one message overtaking the other's future: call 2 waits, is cancelled; call 3 sends after the
receiver made room; a poll that returned `Pending` is abandoned. -/
def cancelDemo : List It :=
  iSend 1 100 11 ++ iWrite 1 15 ++ iDropSend 1 200 ++ iSend 2 101 12 ++ iStart 2 22 ++ iPoll 5 [102] ++ iCancel 2 ++ iDropRecv 102 300 ++
  iPoll 6 [103, 104] ++ iSend 3 105 13 ++ iDropSend 3 201 ++ iTry 106

def cancelTr : Trace Nat Nat := scriptTr (demoC 1 false) cancelDemo

theorem cancel_run : ∃ s : State 8 Nat Nat, Run (demoC 1 false) cancelTr s :=
  Run.of_scriptTr (by decide) (by decide +kernel) (by decide +kernel)

example : .api (.cancel 2) ∈ cancelTr ∧ .api (.attempt 2 101) ∈ cancelTr ∧ 100 ∈ resOps (coreOf cancelTr) ∧
    .api (.retPoll .pending) ∈ cancelTr ∧ received cancelTr = [102, 106] ∧ resOps (coreOf cancelTr) = [100, 105] ∧
    deqVals (coreOf cancelTr) = [some 15, some 13] := by decide +kernel

/-- Blocking channel, capacity 1. Call 2 waits and times out; the message of call 1 is received, then call 3 sends. -/
def timeoutDemo : List It :=
  iSend 1 100 11 ++ iDropSend 1 200 ++ iSend 2 101 12 ++ iStart 2 22 ++ [.one (.timeout 2)] ++ iPoll 5 [102] ++ iDropRecv 102 300 ++
  iSend 3 105 13 ++ iDropSend 3 201 ++ iTry 106

example : (∃ s : State 8 Nat Nat, Run (demoC 1 true) (scriptTr (demoC 1 true) timeoutDemo) s) ∧ .api (.retSend 2 .timeout) ∈ scriptTr (demoC 1 true) timeoutDemo ∧
    .api (.attempt 2 101) ∈ scriptTr (demoC 1 true) timeoutDemo ∧ deqVals (coreOf (scriptTr (demoC 1 true) timeoutDemo)) = [some 11, some 13] :=
  ⟨Run.of_scriptTr (by decide) (by decide +kernel) (by decide +kernel), by decide +kernel, by decide +kernel, by decide +kernel⟩

end Thingbuf.Chan
