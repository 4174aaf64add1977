import Verif.ChanTry
import Verif.ChanDemo
import Verif.ChanSleepProps

/-!
# What `Full`, `Empty`, `Pending` and a successful send say about the channel

The vocabulary is in `Verif/Spec.lean` (of the ring buffer: `nRes`, `nDeq`, `IsEmpty`, `OldestUncommitted`) and `Verif/ChanSpec.lean` (of the channel).
-/

namespace Thingbuf.Chan

variable {w : Nat} {V W : Type} {c : Config W} {tr : Trace V W} {s : State w V W}

/-! ### C03 -/

/-- When `try_send` returns `Full`, at that moment as many messages as the channel has slots are reserved and not received. -/
theorem C03_try_send_full (h : Run c tr s) {pre post : Trace V W} {k : Nat} (htr : tr = pre ++ .api (.retSend k .full) :: post) :
    nRes (coreOf pre) = nDeq (coreOf pre) + c.cap := (h.ret_full htr).2

/-! ### C04 -/

/-- When `try_recv` returns `Empty`, there was a moment since it was called at which the channel was open and empty, or the send of its oldest message was not over. -/
theorem C04_try_recv_empty (h : Run c tr s) {pre mid post : Trace V W}
    (htr : tr = pre ++ .api .callTry :: (mid ++ .api (.retTry .empty) :: post)) (hm : .api .callTry ∉ mid) :
    ∃ m, m <+: mid ∧ ((IsEmpty (coreOf (pre ++ .api .callTry :: m)) ∧ ¬ Closed (coreOf (pre ++ .api .callTry :: m))) ∨ OldestUncommitted (coreOf (pre ++ .api .callTry :: m))) :=
  (htr ▸ h).try_between hm

/-- When a poll of `recv` returns `Pending`, there was a moment since the poll began at which the channel was open and empty, or the send of its oldest message
was not over. -/
theorem C04_poll_pending (h : Run c tr s) {pre mid post : Trace V W} {v : W}
    (htr : tr = pre ++ .api (.callPoll v) :: (mid ++ .api (.retPoll .pending) :: post)) (hm : ∀ u, .api (.callPoll u) ∉ mid) :
    ∃ m, m <+: mid ∧ ((IsEmpty (coreOf (pre ++ .api (.callPoll v) :: m)) ∧ ¬ Closed (coreOf (pre ++ .api (.callPoll v) :: m))) ∨ OldestUncommitted (coreOf (pre ++ .api (.callPoll v) :: m))) :=
  (htr ▸ h).pending_between hm

/-! ### C48 -/

/-- Only a call of `try_send` returns `Full`: a call of `send` does not. -/
theorem C48_send_never_full (h : Run c tr s) {k x : Nat} {wait : Bool} (hf : .api (.retSend k .full) ∈ tr) (hc : .api (.callSend k x wait) ∈ tr) :
    wait = false := by
  obtain ⟨pre, post, htr⟩ := List.append_of_mem hf
  obtain ⟨z, hz⟩ := (h.ret_full htr).1
  exact (h.exec.call_unique hc (by rw [htr]; exact List.mem_append_left _ hz)).2

/-- Only a call of `send` goes to sleep: a call of `try_send` does not. -/
theorem C48_try_send_never_sleeps (h : Run c tr s) {k x : Nat} {wait : Bool} (hf : .api (.sleep k) ∈ tr) (hc : .api (.callSend k x wait) ∈ tr) :
    wait = true := by
  obtain ⟨z, hz⟩ := h.exec.sleep_kind hf
  exact (h.exec.call_unique hc hz).2

/-- A send call that has returned a `SendRef` has a slot, which is its own. On any memory. -/
theorem ExecM.send_has_slot {m : Bool} {mm : Prop} (h : ExecM m c tr s) (hf : Facts mm w c.cap (coreOf tr)) {k : Nat} {a : OpId} (hk : .api (.retSend k (.ok a)) ∈ tr) :
    (resOps (coreOf tr)).Nodup ∧ a ∈ resOps (coreOf tr) ∧ ∀ j, .api (.retSend j (.ok a)) ∈ tr → j = k := by
  obtain ⟨h1, h2⟩ := h.ret_ok hk
  refine ⟨hf.nodup_res, ?_, fun j hj => h.attInv.uniq _ _ _ (h.ret_ok hj).1 h1⟩
  obtain ⟨x, y, hxy⟩ := List.append_of_mem (mem_coreOf.2 h2)
  obtain ⟨-, -, h3, -⟩ := hf.evOk hxy
  rw [hxy, resOps_append]
  exact List.mem_append_left _ h3

/-- A send call that has returned a `SendRef` has a slot, which is its own: a message was added to the sequence of messages, once, and for this call only. -/
theorem C48_send_has_slot (h : Run c tr s) {k : Nat} {a : OpId} (hk : .api (.retSend k (.ok a)) ∈ tr) :
    (resOps (coreOf tr)).Nodup ∧ a ∈ resOps (coreOf tr) ∧ ∀ j, .api (.retSend j (.ok a)) ∈ tr → j = k := h.exec.send_has_slot h.core.facts hk

/-! ### Examples -/

/-- Capacity 1. `try_recv` and a poll find the channel empty; call 1 sends; call 2, a `try_send`, finds the channel full; call 3, a `send`, waits. -/
def tryDemo : List It :=
  iTry 40 ++ iPoll 9 [41, 42, 43, 44] ++ iSend 1 10 1 ++ iDropSend 1 100 ++ iSend 2 11 2 0 false ++ iSend 3 12 3 ++ iStart 3 7

example (blocking : Bool) : ∃ (tr : Trace Nat Nat) (s : State 8 Nat Nat), Run (demoC 1 blocking) tr s ∧
    apiOf tr = [.callTry, .retTry .empty, .callPoll 9, .retPoll .pending, .callSend 1 0 true, .attempt 1 10, .retSend 1 (.ok 10), .dropSend 1, .dropSendEnd 1,
      .callSend 2 0 false, .attempt 2 11, .retSend 2 .full, .callSend 3 0 true, .attempt 3 12, .sleep 3] := by
  cases blocking
  · obtain ⟨s, hs⟩ : ∃ s : State 8 Nat Nat, Run (demoC 1 false) (scriptTr (demoC 1 false) tryDemo) s :=
      Run.of_scriptTr (by decide) (by decide +kernel) (by decide +kernel)
    exact ⟨_, s, hs, by decide +kernel⟩
  · obtain ⟨s, hs⟩ : ∃ s : State 8 Nat Nat, Run (demoC 1 true) (scriptTr (demoC 1 true) tryDemo) s :=
      Run.of_scriptTr (by decide) (by decide +kernel) (by decide +kernel)
    exact ⟨_, s, hs, by decide +kernel⟩

end Thingbuf.Chan
