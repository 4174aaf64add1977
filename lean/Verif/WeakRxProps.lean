import Verif.WeakRx
import Verif.WeakRxDemo
import Verif.ChanWakeProps

/-!
# The channel on the memory model: the receiver does not miss a message

C64. This is C31 for the memory orderings that are written in the source, instead of sequential consistency.
-/

namespace Thingbuf.Chan

variable {w : Nat} {V : Type} {c : Config Nat} {th : Thread → OpId} {tr : Trace V Nat} {xtr : List (RA.REv V)} {s : WState w V}

/-- **C64** The receiver does not miss a message, with the memory orderings of the source: if the last poll of a receive future, with waker `v`, returned `Pending`, no
`SendRef` is half way through its drop and nor is the last `Sender`, and the oldest message of the channel has been sent, then `v` has been woken since that poll was
called. -/
theorem C64_no_lost_wakeup (h : PRun c w th tr xtr s) {pre mid post : Trace V Nat} {v : Nat}
    (htr : tr = pre ++ .api (.callPoll v) :: mid ++ .api (.retPoll .pending) :: post)
    (hm : ∀ u, .api (.callPoll u) ∉ mid ∧ .api (.callPoll u) ∉ post) (hd : ∀ b, .api (.dropRx b) ∉ tr)
    (hq : ∀ k, ¬ SendEnding tr k) (hq' : ¬ LastTxEnding tr) (ho : OldestSent tr) : ∃ d, .cell (.wake d v) ∈ mid ++ post := by
  have hs : Since tr v (mid ++ .api (.retPoll .pending) :: post) :=
    ⟨⟨pre, by rw [htr]; simp⟩, fun u => by simpa using hm u⟩
  obtain ⟨d, h1⟩ := h.rx_woken hs (by simp) hd hq hq' ho
  exact ⟨d, by simpa using h1⟩

/-! ### Concrete cases -/

/-- C64: its hypotheses are met by this execution. The message has been sent before the poll is called, but both pops of the poll miss it: they read values that are no
longer the newest ones. The receiver is woken since it is notified after the message has been sent. -/
example (blocking : Bool) : ∃ (tr : Trace Nat Nat) (xtr : List (RA.REv Nat)) (s : WState 8 Nat), PRun (demoC 2 blocking) 8 thN tr xtr s ∧
    apiOf tr = [.callSend 1 0 true, .attempt 1 100, .retSend 1 (.ok 100), .dropSend 1, .callPoll 31, .retPoll .pending, .dropSendEnd 1] ∧
    (∀ b, .api (.dropRx b) ∉ tr) ∧ (∀ k, ¬ SendEnding tr k) ∧ ¬ LastTxEnding tr ∧ OldestSent tr ∧ .cell (.wake 200 31) ∈ tr := by
  obtain ⟨s, hs⟩ := PExec.of_script (o := .source) (co := .source) (c := demoC 2 blocking) (l := pWakeDemo) (by cases blocking <;> decide +kernel)
    (by cases blocking <;> decide +kernel)
  exact ⟨_, _, s, ⟨by cases blocking <;> decide, rfl, hs⟩, by cases blocking <;> decide +kernel, noDropRx_imp (by cases blocking <;> decide +kernel),
    noSendEnding_imp (by cases blocking <;> decide +kernel), fun h => absurd h.1 (by cases blocking <;> decide +kernel),
    ⟨100, by cases blocking <;> decide +kernel, 0, some 11, by cases blocking <;> decide +kernel⟩, by cases blocking <;> decide +kernel⟩

/-- C64: its hypotheses are also met by this execution, in which the receiver waits first and is woken by the send. -/
example (blocking : Bool) : ∃ (tr : Trace Nat Nat) (xtr : List (RA.REv Nat)) (s : WState 8 Nat), PRun (demoC 2 blocking) 8 thN tr xtr s ∧
    apiOf tr = [.callPoll 31, .retPoll .pending, .callSend 1 0 true, .attempt 1 100, .retSend 1 (.ok 100), .dropSend 1, .dropSendEnd 1] ∧
    (∀ b, .api (.dropRx b) ∉ tr) ∧ (∀ k, ¬ SendEnding tr k) ∧ ¬ LastTxEnding tr ∧ OldestSent tr ∧ .cell (.wake 200 31) ∈ tr := by
  obtain ⟨s, hs⟩ := PExec.of_script (o := .source) (co := .source) (c := demoC 2 blocking) (l := wakeDemo.map wOf) (by cases blocking <;> decide +kernel)
    (by cases blocking <;> decide +kernel)
  exact ⟨_, _, s, ⟨by cases blocking <;> decide, rfl, hs⟩, by cases blocking <;> decide +kernel, noDropRx_imp (by cases blocking <;> decide +kernel),
    noSendEnding_imp (by cases blocking <;> decide +kernel), fun h => absurd h.1 (by cases blocking <;> decide +kernel),
    ⟨100, by cases blocking <;> decide +kernel, 0, some 11, by cases blocking <;> decide +kernel⟩, by cases blocking <;> decide +kernel⟩

/-- The orderings of the source, except that `wait_with` acquires nothing (`/repo/src/wait/cell.rs` lines 69 and 101). -/
def noAcquireWait : RA.CellOrders := { RA.CellOrders.source with startOk := .relaxed, unlockOk := .release }

/-- The orderings of the source, except that `notify2` releases nothing (`/repo/src/wait/cell.rs` lines 164 and 168). -/
def noReleaseNotify : RA.CellOrders := { RA.CellOrders.source with signal := .acquire, clear := .acquire }

/-- **C64 needs the orderings**: if `wait_with` does not acquire, or if `notify` does not release, a message is sent, the receiver is notified, and a poll returns
`Pending` afterwards; nothing will wake the receiver. -/
theorem C64_needs_orderings (blocking : Bool) : ∀ co ∈ [noAcquireWait, noReleaseNotify],
    ∃ (tr : Trace Nat Nat) (xtr : List (RA.REv Nat)) (s : WState 8 Nat), PExec .source co (demoC 2 blocking) 8 thN tr xtr s ∧
    apiOf tr = [.callSend 1 0 true, .attempt 1 100, .retSend 1 (.ok 100), .dropSend 1, .dropSendEnd 1, .callPoll 31, .retPoll .pending] ∧
    (∀ b, .api (.dropRx b) ∉ tr) ∧ (∀ k, ¬ SendEnding tr k) ∧ ¬ LastTxEnding tr ∧ OldestSent tr ∧ ∀ o v, .cell (.wake o v) ∉ tr := by
  intro co hco
  simp only [List.mem_cons, List.not_mem_nil, or_false] at hco
  rcases hco with rfl | rfl
  · obtain ⟨s, hs⟩ := PExec.of_script (o := .source) (co := noAcquireWait) (c := demoC 2 blocking) (l := pLostDemo) (by cases blocking <;> decide +kernel)
      (by cases blocking <;> decide +kernel)
    exact ⟨_, _, s, hs, by cases blocking <;> decide +kernel, noDropRx_imp (by cases blocking <;> decide +kernel),
      noSendEnding_imp (by cases blocking <;> decide +kernel), fun h => absurd h.1 (by cases blocking <;> decide +kernel),
      ⟨100, by cases blocking <;> decide +kernel, 0, some 11, by cases blocking <;> decide +kernel⟩, noRxWake_iff.1 (by cases blocking <;> decide +kernel)⟩
  · obtain ⟨s, hs⟩ := PExec.of_script (o := .source) (co := noReleaseNotify) (c := demoC 2 blocking) (l := pLostDemo) (by cases blocking <;> decide +kernel)
      (by cases blocking <;> decide +kernel)
    exact ⟨_, _, s, hs, by cases blocking <;> decide +kernel, noDropRx_imp (by cases blocking <;> decide +kernel),
      noSendEnding_imp (by cases blocking <;> decide +kernel), fun h => absurd h.1 (by cases blocking <;> decide +kernel),
      ⟨100, by cases blocking <;> decide +kernel, 0, some 11, by cases blocking <;> decide +kernel⟩, noRxWake_iff.1 (by cases blocking <;> decide +kernel)⟩

/-- **C64 needs the order** in which a thread runs its code: without it, as in `WExec`, the pop that follows `wait_with` need not know what `wait_with` has
learnt. -/
theorem C64_needs_program_order (blocking : Bool) : ∃ (tr : Trace Nat Nat) (xtr : List (RA.REv Nat)) (s : WState 8 Nat),
    WRun (demoC 2 blocking) 8 tr xtr s ∧
    apiOf tr = [.callSend 1 0 true, .attempt 1 100, .retSend 1 (.ok 100), .dropSend 1, .dropSendEnd 1, .callPoll 31, .retPoll .pending] ∧
    (∀ b, .api (.dropRx b) ∉ tr) ∧ (∀ k, ¬ SendEnding tr k) ∧ ¬ LastTxEnding tr ∧ OldestSent tr ∧ ∀ o v, .cell (.wake o v) ∉ tr := by
  obtain ⟨s, hs, -⟩ := WExec.of_script (c := demoC 2 blocking) (l := pLostDemo) 0 (by cases blocking <;> decide +kernel) (by cases blocking <;> decide +kernel)
  exact ⟨_, _, s, ⟨by cases blocking <;> decide, rfl, hs⟩, by cases blocking <;> decide +kernel, noDropRx_imp (by cases blocking <;> decide +kernel),
    noSendEnding_imp (by cases blocking <;> decide +kernel), fun h => absurd h.1 (by cases blocking <;> decide +kernel),
    ⟨100, by cases blocking <;> decide +kernel, 0, some 11, by cases blocking <;> decide +kernel⟩, noRxWake_iff.1 (by cases blocking <;> decide +kernel)⟩

end Thingbuf.Chan
