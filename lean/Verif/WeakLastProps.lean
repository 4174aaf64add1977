import Verif.WeakLast
import Verif.WeakRxProps

/-!
# The channel on the memory model: the end of the messages

C65. This is C34 for the memory orderings that are written in the source, instead of sequential consistency.
-/

namespace Thingbuf.Chan

variable {w : Nat} {V : Type} {c : Config Nat} {th : Thread → OpId} {tr : Trace V Nat} {xtr : List (RA.REv V)} {s : WState w V}

/-- **C65** A poll returns `None` only if every `Sender` has been dropped. -/
theorem C65_none_only_if_senders_dropped (h : PRun c w th tr xtr s) {pre post : Trace V Nat} (htr : tr = pre ++ .api (.retPoll .none) :: post) :
    senders pre = [] := by
  obtain ⟨xtr1, s1, h1, ⟨pan, h2⟩, -⟩ := h.told_closed (.inl rfl) htr
  have := h1.wrun.exec.ctl.1.senders
  rw [h1.wrun.exec.ctl.1.lastDrop_handles (h2.mono _), senders_append] at this
  simpa [sendersStep] using this

/-- **C65**, partly. A poll returns `None` only if every message that was sent has been received. Missing: the case that a `SendRef` was leaked with
`mem::forget`, or that the user's code panicked inside a send call; the claim is false then, see `C65_false_if_leaked`. -/
theorem C65_none_means_drained_partial (h : PRun c w th tr xtr s) {pre post : Trace V Nat} (htr : tr = pre ++ .api (.retPoll .none) :: post)
    (hl : NoLoss pre) {k : Nat} {a : OpId} (hk : .api (.retSend k (.ok a)) ∈ pre) : Received pre a := by
  obtain ⟨xtr1, s1, h1, -, h3⟩ := h.told_closed (.inl rfl) htr
  have hc : coreOf (pre ++ [.api (.retPoll .none)]) = coreOf pre := by simp
  exact h1.wrun.exec.ctl.1.drained (by rw [← hc]; exact h1.wrun.facts) hc (by simp [received]) (h3 (.inr hl)) hk

/-- **C65** `try_recv` says `Closed` only if every `Sender` has been dropped and every message that was sent has been received. -/
theorem C65_try_recv_closed (h : PRun c w th tr xtr s) {pre post : Trace V Nat} (htr : tr = pre ++ .api (.retTry .closed) :: post) :
    senders pre = [] ∧ ∀ k a, .api (.retSend k (.ok a)) ∈ pre → Received pre a := by
  obtain ⟨xtr1, s1, h1, ⟨pan, h2⟩, h3⟩ := h.told_closed (.inr rfl) htr
  have hc : coreOf (pre ++ [.api (.retTry .closed)]) = coreOf pre := by simp
  have := h1.wrun.exec.ctl.1.senders
  rw [h1.wrun.exec.ctl.1.lastDrop_handles (h2.mono _), senders_append] at this
  exact ⟨by simpa [sendersStep] using this, fun k a hk =>
    h1.wrun.exec.ctl.1.drained (by rw [← hc]; exact h1.wrun.facts) hc (by simp [received]) (h3 (.inl rfl)) hk⟩

/-- **C65**, partly. A receiver that is waiting when the last `Sender` is dropped is woken. Missing: for the blocking channel, the case that the last `Sender` is
dropped while its thread is panicking; the claim is false then, see `C65_false_if_dropped_by_panic`. -/
theorem C65_woken_by_last_drop_partial (h : PRun c w th tr xtr s) {pre mid post : Trace V Nat} {v : Nat}
    (htr : tr = pre ++ .api (.callPoll v) :: mid ++ .api (.retPoll .pending) :: post)
    (hm : ∀ u, .api (.callPoll u) ∉ mid ∧ .api (.callPoll u) ∉ post) (hd : ∀ b, .api (.dropRx b) ∉ tr)
    (hl : .api .lastTxDropped ∈ tr) (hb : c.blocking = false ∨ LastDrop tr false) : ∃ d, .cell (.wake d v) ∈ mid ++ post := by
  have hs : Since tr v (mid ++ .api (.retPoll .pending) :: post) :=
    ⟨⟨pre, by rw [htr]; simp⟩, fun u => by simpa using hm u⟩
  obtain ⟨d, h1⟩ := h.rx_woken_last hs (by simp) hd hl hb
  exact ⟨d, by simpa using h1⟩

/-- **C65**, partly. Once the last `Sender` has been dropped a poll never returns `Pending`. Missing: as above. -/
theorem C65_never_pending_partial (h : PRun c w th tr xtr s) {pre mid post : Trace V Nat} {v : Nat} {r : PollRes}
    (htr : tr = pre ++ .api (.callPoll v) :: mid ++ .api (.retPoll r) :: post)
    (hm : ∀ u, .api (.callPoll u) ∉ mid) (hl : .api .lastTxDropped ∈ pre) (hb : c.blocking = false ∨ LastDrop tr false) : r ≠ .pending := by
  rintro rfl
  exact h.not_pending htr hm hl hb

/-- **C65**, partly. Once the last `Sender` has been dropped and every message sent has been received, a poll returns `None`. Missing: as above. -/
theorem C65_drained_returns_none_partial (h : PRun c w th tr xtr s) {pre mid post : Trace V Nat} {v : Nat} {r : PollRes}
    (htr : tr = pre ++ .api (.callPoll v) :: mid ++ .api (.retPoll r) :: post)
    (hm : ∀ u, .api (.callPoll u) ∉ mid) (hl : .api .lastTxDropped ∈ pre) (hb : c.blocking = false ∨ LastDrop tr false)
    (hr : ∀ k a, .api (.retSend k (.ok a)) ∈ pre → Received pre a) : r = .none := by
  cases r with
  | none => rfl
  | pending => exact (h.not_pending htr hm hl hb).elim
  | some b =>
    obtain ⟨xtr1, s1, h1⟩ := h.at_api htr (by simp)
    obtain ⟨xtr2, s2, h2⟩ := h.at_api (pre := pre) (e := .callPoll v) (post := mid ++ .api (.retPoll (.some b)) :: post) (by rw [htr]; simp) (by simp)
    exact (h1.wrun.exec.ctl.1.no_late h1.wrun.facts h2.wrun.exec.ctl.1 h2.wrun.facts hl hr).elim

/-! ### Concrete cases -/

/-- C65: the hypotheses of `C65_none_only_if_senders_dropped`, `C65_none_means_drained_partial`, `C65_try_recv_closed`, `C65_never_pending_partial` and
`C65_drained_returns_none_partial` are met by this execution. -/
example (blocking : Bool) : ∃ (tr : Trace Nat Nat) (xtr : List (RA.REv Nat)) (s : WState 8 Nat), PRun (demoC 2 blocking) 8 thN tr xtr s ∧
    [.retSend 1 (.ok 100), .retSend 2 (.ok 101), .retPoll (.some 300), .dropTx 0 false, .lastTxDropped, .callPoll 32, .retPoll (.some 310), .callPoll 33,
      .retPoll .none, .callTry, .retTry .closed].Sublist (apiOf tr) ∧
    LastDrop tr false ∧ ∀ e ∈ apiOf tr, (∀ k, e ≠ .forgetSend k ∧ e ≠ .retSend k .panicked) := by
  obtain ⟨s, hs⟩ := PExec.of_script (o := .source) (co := .source) (c := demoC 2 blocking) (l := endDemo.map wOf) (by cases blocking <;> decide +kernel)
    (by cases blocking <;> decide +kernel)
  refine ⟨_, _, s, ⟨by cases blocking <;> decide, rfl, hs⟩, by cases blocking <;> decide +kernel, lastDropB_imp (by cases blocking <;> decide +kernel), fun e he k => ?_⟩
  have : (apiOf (pTr .source .source (demoC 2 blocking) (endDemo.map wOf)).1).all fun | .forgetSend _ => false | .retSend _ .panicked => false | _ => true := by
    cases blocking <;> decide +kernel
  have := List.all_eq_true.1 this e he
  constructor <;> (rintro rfl; cases this)

/-- C65: the hypotheses of `C65_woken_by_last_drop_partial` are met by this execution. -/
example (blocking : Bool) : ∃ (tr : Trace Nat Nat) (xtr : List (RA.REv Nat)) (s : WState 8 Nat), PRun (demoC 2 blocking) 8 thN tr xtr s ∧
    apiOf tr = [.callPoll 31, .retPoll .pending, .dropTx 0 false, .lastTxDropped] ∧ LastDrop tr false ∧ .cell (.wake 400 31) ∈ tr := by
  obtain ⟨s, hs⟩ := PExec.of_script (o := .source) (co := .source) (c := demoC 2 blocking) (l := (lastDemo false).map wOf) (by cases blocking <;> decide +kernel)
    (by cases blocking <;> decide +kernel)
  exact ⟨_, _, s, ⟨by cases blocking <;> decide, rfl, hs⟩, by cases blocking <;> decide +kernel, lastDropB_imp (by cases blocking <;> decide +kernel),
    by cases blocking <;> decide +kernel⟩

/-- A message is sent, and the thread of the last `Sender` panics: the ring buffer is not closed, the wait cell is. A poll follows, whose first pop finds the slot as it
was before the message was sent; then the receiver is told that there are no more senders. -/
def pToldDemo : List WIt :=
  (iSend 1 100 11 ++ iDropSend 1 200 ++ iDropTx 0 true [400, 401, 402]).map wOf ++ .one (.poll 31) [] :: iStalePop 300 ++
    [.one (.rx 301 false) [], .at (.rx 0 false) { rd := 4 }]

/-- C65: the hypotheses of `C65_none_means_drained_partial` are also met by this execution, in which the first pop of a poll misses the message and the one after the wait cell
has been found closed does not. -/
example : ∃ (tr : Trace Nat Nat) (xtr : List (RA.REv Nat)) (s : WState 8 Nat), PRun (demoC 2 false) 8 thN tr xtr s ∧
    apiOf tr = [.callSend 1 0 true, .attempt 1 100, .retSend 1 (.ok 100), .dropSend 1, .dropSendEnd 1, .dropTx 0 true, .lastTxDropped, .callPoll 31, .retPoll (.some 302),
      .callPoll 32, .retPoll .none] ∧ .core (.ret 300 .empty) ∈ tr ∧ .cell (.retWait 301 .closed) ∈ tr := by
  obtain ⟨s, hs⟩ := PExec.of_script (o := .source) (co := .source) (c := demoC 2 false)
    (l := pToldDemo ++ [.one (.rx 302 false) [], .all [.rx 302 false]] ++ (iPoll 32 [310, 311, 312]).map wOf) (by decide +kernel) (by decide +kernel)
  exact ⟨_, _, s, ⟨by decide, rfl, hs⟩, by decide +kernel, by decide +kernel, by decide +kernel⟩

/-- The orderings of the source, except that a `wait_with` that finds the cell closed acquires nothing (`/repo/src/wait/cell.rs` lines 69 and 188). -/
def noAcquireClosed : RA.CellOrders := { RA.CellOrders.source with startFail := .relaxed }

/-- **C65 needs the orderings**: if `wait_with` does not acquire when it finds the cell closed, or if `close_tx` does not release, a poll returns `None` although a message
has been sent that has not been received. -/
theorem C65_needs_orderings : ∀ co ∈ [noAcquireClosed, noReleaseNotify],
    ∃ (tr : Trace Nat Nat) (xtr : List (RA.REv Nat)) (s : WState 8 Nat), PExec .source co (demoC 2 false) 8 thN tr xtr s ∧
    apiOf tr = [.callSend 1 0 true, .attempt 1 100, .retSend 1 (.ok 100), .dropSend 1, .dropSendEnd 1, .dropTx 0 true, .lastTxDropped, .callPoll 31, .retPoll .none] ∧
    received tr = [] := by
  intro co hco
  simp only [List.mem_cons, List.not_mem_nil, or_false] at hco
  rcases hco with rfl | rfl
  · obtain ⟨s, hs⟩ := PExec.of_script (o := .source) (co := noAcquireClosed) (c := demoC 2 false) (l := pToldDemo ++ iStalePop 302) (by decide +kernel) (by decide +kernel)
    exact ⟨_, _, s, hs, by decide +kernel, by decide +kernel⟩
  · obtain ⟨s, hs⟩ := PExec.of_script (o := .source) (co := noReleaseNotify) (c := demoC 2 false) (l := pToldDemo ++ iStalePop 302) (by decide +kernel) (by decide +kernel)
    exact ⟨_, _, s, hs, by decide +kernel, by decide +kernel⟩

/-- **C65 is false**, as C34, for the blocking channel if the last `Sender` is dropped while its thread is panicking: a receiver that waits is not woken, and one that
polls again goes on waiting. -/
theorem C65_false_if_dropped_by_panic : ∃ (tr : Trace Nat Nat) (xtr : List (RA.REv Nat)) (s : WState 8 Nat), PRun (demoC 2 true) 8 thN tr xtr s ∧
    apiOf tr = [.callPoll 31, .retPoll .pending, .dropTx 0 true, .lastTxDropped, .callPoll 32, .retPoll .pending] ∧
    senders tr = [] ∧ ∀ o v, .cell (.wake o v) ∉ tr := by
  obtain ⟨s, hs⟩ := PExec.of_script (o := .source) (co := .source) (c := demoC 2 true) (l := (lastDemo true ++ iPoll 32 [310, 311, 312]).map wOf) (by decide +kernel) (by decide +kernel)
  exact ⟨_, _, s, ⟨by decide, rfl, hs⟩, by decide +kernel, by decide +kernel, noRxWake_iff.1 (by decide +kernel)⟩

/-- **C65 is false**, as C34, if a `SendRef` was leaked (`mem::forget`): `recv` returns `None` although a message whose send completed has not been received. -/
theorem C65_false_if_leaked (blocking : Bool) : ∃ (tr : Trace Nat Nat) (xtr : List (RA.REv Nat)) (s : WState 8 Nat), PRun (demoC 4 blocking) 8 thN tr xtr s ∧
    [.retSend 1 (.ok 100), .retSend 2 (.ok 101), .forgetSend 1, .dropSendEnd 2, .lastTxDropped, .callPoll 32, .retPoll .none].Sublist (apiOf tr) ∧
    received tr = [] := by
  obtain ⟨s, hs⟩ := PExec.of_script (o := .source) (co := .source) (c := demoC 4 blocking)
    (l := (iSend 1 100 11 ++ iSend 2 101 12 ++ [(.one (.forgetSend 1) : It)] ++ iDropSend 2 200 ++ iDropTx 0 false [400, 401, 402] ++ iPoll 32 [320, 321, 322, 323]).map wOf)
    (by cases blocking <;> decide +kernel) (by cases blocking <;> decide +kernel)
  exact ⟨_, _, s, ⟨by cases blocking <;> decide, rfl, hs⟩, by cases blocking <;> decide +kernel, by cases blocking <;> decide +kernel⟩

end Thingbuf.Chan
