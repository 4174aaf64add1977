import Verif.ChanQEnds
import Verif.ChanDemo

/-!
# C49: the drops end

Dropping a `SendRef` or the last `Sender` is wait-free. Dropping a `RecvRef`, the `Receiver` or a waiting send future takes a lock; it may have to wait for other calls on
the channel, but there is always a way for it to end that needs nothing but steps of calls already in progress.
-/

namespace Thingbuf.Chan

variable {w : Nat} {V W : Type} {c : Config W} {tr : Trace V W} {s : State w V W}

/-- **C49.** Whatever the other threads do (`acts` is an arbitrary continuation), the drop of a `SendRef` is over after six of its own steps. -/
theorem C49_drop_send_ref_wait_free (h : Exec c tr s) {k : Nat} (hk : SendEnding tr k) {acts : List (Act V W)} {s' : State w V W} {evs : Trace V W}
    (hr : runActs c s acts = some (s', evs)) (hn : 6 ≤ acts.countP (sendEndAct k)) : .api (.dropSendEnd k) ∈ evs :=
  h.sendEnds (hk.notifying h) hr hn

/-- **C49.** The drop of a `SendRef` is never kept waiting: until it is over it can take a step. -/
theorem C49_drop_send_ref_can_step (h : Exec c tr s) {k : Nat} (hk : SendEnding tr k) :
    ∃ (act : Act V W) (s' : State w V W) (evs : Trace V W), sendEndAct k act = true ∧ step c s act = some (s', evs) :=
  h.sendEnd_can (hk.notifying h)

/-- **C49.** Whatever the other threads do, the drop of the last `Sender` is over after eight of its own steps. -/
theorem C49_last_drop_wait_free (h : Exec c tr s) (hl : LastTxEnding tr) {acts : List (Act V W)} {s' : State w V W} {evs : Trace V W}
    (hr : runActs c s acts = some (s', evs)) (hn : 8 ≤ acts.countP closerAct) : .api .lastTxDropped ∈ evs :=
  h.lastEnds (hl.closing h) hr hn

/-- **C49.** The drop of the last `Sender` is never kept waiting. -/
theorem C49_last_drop_can_step (h : Run c tr s) (hl : LastTxEnding tr) :
    ∃ (act : Act V W) (s' : State w V W) (evs : Trace V W), closerAct act = true ∧ step c s act = some (s', evs) := by
  obtain ⟨o, s', evs, h1⟩ := h.last_can (hl.closing h.exec)
  exact ⟨.closer o, s', evs, rfl, h1⟩

/-- **C49.** The drop of a `RecvRef` cannot get stuck: it can be brought to its end by steps of calls in progress. -/
theorem C49_drop_recv_ref_can_end (h : Exec c tr s) {a : OpId} (ha : RecvEnding tr a) :
    ∃ (acts : List (Act V W)) (s' : State w V W) (evs : Trace V W), acts.all Act.goesOn = true ∧ runActs c s acts = some (s', evs) ∧
      .api (.dropRecvEnd a) ∈ evs :=
  ha.can_end h

/-- **C49.** The drop of the `Receiver` cannot get stuck. -/
theorem C49_drop_receiver_can_end (h : Run c tr s) {pan : Bool} (hd : .api (.dropRx pan) ∈ tr) (hn : .api .rxDropped ∉ tr) :
    ∃ (acts : List (Act V W)) (s' : State w V W) (evs : Trace V W), acts.all Act.goesOn = true ∧ runActs c s acts = some (s', evs) ∧
      .api .rxDropped ∈ evs :=
  h.dropRx_end hd hn

/-- **C49.** The drop of a waiting send future cannot get stuck. -/
theorem C49_cancel_can_end (h : Exec c tr s) {k : Nat} (hc : .api (.cancel k) ∈ tr) (hn : .api (.cancelled k) ∉ tr) :
    ∃ (acts : List (Act V W)) (s' : State w V W) (evs : Trace V W), acts.all Act.goesOn = true ∧ runActs c s acts = some (s', evs) ∧
      .api (.cancelled k) ∈ evs :=
  h.cancel_end hc hn

/-- `SendRef` 1 is half way through its drop, when the receiver, too, polls. -/
def dropEndDemo : List It := iSend 1 100 11 ++ [.one (.dropSend 1), .one (.sendNotify 1 200), .one (.poll 31), .one (.rx 300 false)]

/-- The drop goes on, with steps of the receiver in between. -/
def dropEndRest : List It := [.one (.rx 0 false), .one (.sendNotifyRun 1), .one (.rx 0 false), .all [.sendNotifyRun 1]]

example : (∃ s : State 8 Nat Nat, Run (demoC 1 false) (scriptTr (demoC 1 false) dropEndDemo) s) ∧ SendEnding (scriptTr (demoC 1 false) dropEndDemo) 1 ∧
    .api (.dropSendEnd 1) ∈ scriptTr (demoC 1 false) (dropEndDemo ++ dropEndRest) :=
  ⟨Run.of_scriptTr (by decide) (by decide +kernel) (by decide +kernel), ⟨by decide +kernel, by decide +kernel⟩, by decide +kernel⟩

/-- The drop of the last `Sender` has only just begun; the message it sent is still there. -/
def lastEndDemo : List It := iSend 1 100 11 ++ iDropSend 1 200 ++ [.one (.dropTx 0 false)]

example (blocking : Bool) : (∃ s : State 8 Nat Nat, Run (demoC 1 blocking) (scriptTr (demoC 1 blocking) lastEndDemo) s) ∧
    LastTxEnding (scriptTr (demoC 1 blocking) lastEndDemo) := by
  cases blocking <;>
    exact ⟨Run.of_scriptTr (by decide) (by decide +kernel) (by decide +kernel), ⟨by decide +kernel, by decide +kernel⟩⟩

/-- Call 2 waits for a free slot. The message is received and its `RecvRef` is being dropped: it has found out that somebody waits. Now the future of call 2
is dropped, too, and holds the lock. -/
def lockEndDemo : List It :=
  iSend 1 100 11 ++ iDropSend 1 200 ++ iSend 2 101 12 ++ iStart 2 22 ++ iTry 300 ++
  [.one (.dropRecv 300), .one (.recvNotify 300 400), .one (.recvNotifyRun 300 false), .one (.recvNotifyRun 300 false),
   .one (.cancel 2), .one (.node 2 false), .one (.node 2 false)]

/-- The `RecvRef` cannot take a step now; the future can. -/
example : (∃ s : State 8 Nat Nat, Run (demoC 1 false) (scriptTr (demoC 1 false) lockEndDemo) s) ∧ RecvEnding (scriptTr (demoC 1 false) lockEndDemo) 300 ∧
    .api (.cancel 2) ∈ scriptTr (demoC 1 false) lockEndDemo ∧ .api (.cancelled 2) ∉ scriptTr (demoC 1 false) lockEndDemo ∧
    (script (demoC 1 false) (State.init 8 Nat Nat) (lockEndDemo ++ [.one (.recvNotifyRun 300 false)])).isNone ∧
    (script (demoC 1 false) (State.init 8 Nat Nat) (lockEndDemo ++ [.one (.node 2 false)])).isSome :=
  ⟨Run.of_scriptTr (by decide) (by decide +kernel) (by decide +kernel), ⟨by decide +kernel, by decide +kernel⟩, by decide +kernel, by decide +kernel,
    by decide +kernel, by decide +kernel⟩

/-- The `Receiver` is being dropped: it has closed the ring buffer, not yet the wait queue. Meanwhile call 2 starts to wait and holds the lock. -/
def rxEndDemo : List It :=
  iSend 1 100 11 ++ iDropSend 1 200 ++ iSend 2 101 12 ++ [.one (.start 2 22), .one (.node 2 false), .one (.node 2 false)] ++
  [.one (.dropRx false), .one (.rx 500 false), .one (.rx 0 false), .one (.rx 600 false), .one (.rx 0 false)]

example : (∃ s : State 8 Nat Nat, Run (demoC 1 true) (scriptTr (demoC 1 true) rxEndDemo) s) ∧
    .api (.dropRx false) ∈ scriptTr (demoC 1 true) rxEndDemo ∧ .api .rxDropped ∉ scriptTr (demoC 1 true) rxEndDemo ∧
    (script (demoC 1 true) (State.init 8 Nat Nat) (rxEndDemo ++ [.one (.rx 0 false)])).isNone :=
  ⟨Run.of_scriptTr (by decide) (by decide +kernel) (by decide +kernel), by decide +kernel, by decide +kernel, by decide +kernel⟩

end Thingbuf.Chan
