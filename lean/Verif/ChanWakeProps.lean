import Verif.ChanLast
import Verif.ChanProps
import Verif.ChanDemo

/-!
# The channel: the receiver's wakeups, and the end of the messages

C31 and C34.
-/

namespace Thingbuf.Chan

variable {w : Nat} {V W : Type} {c : Config W} {tr : Trace V W} {s : State w V W}

/-! ### C31 -/

/-- **C31** The receiver does not miss a message: if the last poll of a receive future, with waker `v`, returned `Pending`, no `SendRef` is half way
through its drop and nor is the last `Sender`, and the oldest message of the channel has been sent, then `v` has been woken since that poll was called. -/
theorem C31_no_lost_wakeup (h : Run c tr s) {pre mid post : Trace V W} {v : W}
    (htr : tr = pre ++ .api (.callPoll v) :: mid ++ .api (.retPoll .pending) :: post)
    (hm : ∀ u, .api (.callPoll u) ∉ mid ∧ .api (.callPoll u) ∉ post) (hd : ∀ b, .api (.dropRx b) ∉ tr)
    (hq : ∀ k, ¬ SendEnding tr k) (hq' : ¬ LastTxEnding tr) (ho : OldestSent tr) : ∃ d, .cell (.wake d v) ∈ mid ++ post := by
  have hs : Since tr v (mid ++ .api (.retPoll .pending) :: post) :=
    ⟨⟨pre, by rw [htr]; simp⟩, fun u => by simpa using hm u⟩
  obtain ⟨d, h1⟩ := h.rx_woken hs (by simp) hd hq hq' ho
  exact ⟨d, by simpa using h1⟩

/-! ### C34 -/

/-- **C34** A poll returns `None` only if every `Sender` has been dropped. -/
theorem C34_none_only_if_senders_dropped (h : Run c tr s) {pre post : Trace V W} (htr : tr = pre ++ .api (.retPoll .none) :: post) :
    senders pre = [] := by
  obtain ⟨s1, h1, ⟨pan, h2⟩, -⟩ := h.told_closed (.inl rfl) htr
  have := h1.exec.senders
  rw [h1.exec.lastDrop_handles (h2.mono _), senders_append] at this
  simpa [sendersStep] using this

/-- The messages of a channel from which as many were taken as were reserved. -/
theorem ExecM.drained {m : Bool} {mm : Prop} {pre l : Trace V W} {s1 : State w V W} (h : ExecM m c (pre ++ l) s1) (hf : Facts mm w c.cap (coreOf pre))
    (hc : coreOf (pre ++ l) = coreOf pre) (hr : Chan.received (pre ++ l) = Chan.received pre)
    (hn : nDeq (coreOf pre) = nRes (coreOf pre)) {k : Nat} {a : OpId} (hk : .api (.retSend k (.ok a)) ∈ pre) : Received pre a := by
  obtain ⟨-, h1⟩ := h.ret_ok (k := k) (a := a) (by simp [hk])
  have h2 : a ∈ resOps (coreOf pre) := by
    exact (hf.ret_reserved (by rw [← hc]; exact mem_coreOf.2 h1)).2 (.inl rfl)
  obtain ⟨i, h3⟩ := List.mem_iff_getElem?.1 h2
  have h4 : i < (Chan.received pre).length := by
    rw [← hr, h.received, hc]
    have := (List.getElem?_eq_some_iff.1 h3).1
    change i < nRes _ at this
    change i < nDeq _
    omega
  obtain ⟨b, h5⟩ : ∃ b, (Chan.received pre)[i]? = some b := ⟨_, List.getElem?_eq_getElem h4⟩
  rw [← hr] at h5
  obtain ⟨a', k', x, slot, h6, -, -, -, h7, h8⟩ := h.received_from (by rw [hc]; exact hf) h5
  rw [hc, h3] at h6
  cases h6
  rw [hc] at h7
  rw [← mem_coreOf, hc, mem_coreOf] at h8
  rw [hr] at h5
  exact ⟨i, _, x, slot, h3, h5, h7, h8⟩

/-- The messages of a channel from which as many were taken as were reserved. -/
theorem Run.drained {pre l : Trace V W} {s1 : State w V W} (h : Run c (pre ++ l) s1)
    (hc : coreOf (pre ++ l) = coreOf pre) (hr : received (pre ++ l) = received pre)
    (hn : nDeq (coreOf pre) = nRes (coreOf pre)) {k : Nat} {a : OpId} (hk : .api (.retSend k (.ok a)) ∈ pre) : Received pre a :=
  h.exec.drained (by rw [← hc]; exact h.core.facts) hc hr hn hk

/-- **C34**, partly. A poll returns `None` only if every message that was sent has been received. Missing: the case that a `SendRef` was
leaked with `mem::forget`, or that the user's code panicked inside a send call; the claim is false then, see `C34_false_if_leaked`. -/
theorem C34_none_means_drained_partial (h : Run c tr s) {pre post : Trace V W} (htr : tr = pre ++ .api (.retPoll .none) :: post)
    (hl : NoLoss pre) {k : Nat} {a : OpId} (hk : .api (.retSend k (.ok a)) ∈ pre) : Received pre a := by
  obtain ⟨s1, h1, -, h3⟩ := h.told_closed (.inl rfl) htr
  exact h1.drained (by simp) (by simp [received]) (h3 (.inr hl)) hk

/-- **C34** `try_recv` says `Closed` only if every `Sender` has been dropped and every message that was sent has been received. -/
theorem C34_try_recv_closed (h : Run c tr s) {pre post : Trace V W} (htr : tr = pre ++ .api (.retTry .closed) :: post) :
    senders pre = [] ∧ ∀ k a, .api (.retSend k (.ok a)) ∈ pre → Received pre a := by
  obtain ⟨s1, h1, ⟨pan, h2⟩, h3⟩ := h.told_closed (.inr rfl) htr
  have := h1.exec.senders
  rw [h1.exec.lastDrop_handles (h2.mono _), senders_append] at this
  exact ⟨by simpa [sendersStep] using this, fun k a hk => h1.drained (by simp) (by simp [received]) (h3 (.inl rfl)) hk⟩

/-- **C34**, partly. A receiver that is waiting when the last `Sender` is dropped is woken. Missing: for the blocking channel, the case that the last
`Sender` is dropped while its thread is panicking; the claim is false then, see `C34_false_if_dropped_by_panic`. -/
theorem C34_woken_by_last_drop_partial (h : Run c tr s) {pre mid post : Trace V W} {v : W}
    (htr : tr = pre ++ .api (.callPoll v) :: mid ++ .api (.retPoll .pending) :: post)
    (hm : ∀ u, .api (.callPoll u) ∉ mid ∧ .api (.callPoll u) ∉ post) (hd : ∀ b, .api (.dropRx b) ∉ tr)
    (hl : .api .lastTxDropped ∈ tr) (hb : c.blocking = false ∨ LastDrop tr false) : ∃ d, .cell (.wake d v) ∈ mid ++ post := by
  have hs : Since tr v (mid ++ .api (.retPoll .pending) :: post) :=
    ⟨⟨pre, by rw [htr]; simp⟩, fun u => by simpa using hm u⟩
  obtain ⟨d, h1⟩ := h.rx_woken_last hs (by simp) hd hl hb
  exact ⟨d, by simpa using h1⟩

/-- **C34**, partly. Once the last `Sender` has been dropped a poll never returns `Pending`. Missing: as above. -/
theorem C34_never_pending_partial (h : Run c tr s) {pre mid post : Trace V W} {v : W} {r : PollRes}
    (htr : tr = pre ++ .api (.callPoll v) :: mid ++ .api (.retPoll r) :: post)
    (hm : ∀ u, .api (.callPoll u) ∉ mid) (hl : .api .lastTxDropped ∈ pre) (hb : c.blocking = false ∨ LastDrop tr false) : r ≠ .pending := by
  rintro rfl
  exact h.not_pending htr hm hl hb

/-- Once the last `Sender` has been dropped and every message sent has been received, no message is received. -/
theorem ExecM.no_late {m : Bool} {mm : Prop} {pre mid : Trace V W} {v : W} {b : OpId} {s1 s2 : State w V W}
    (h1 : ExecM m c (pre ++ .api (.callPoll v) :: mid ++ [.api (.retPoll (.some b))]) s1)
    (hf1 : Facts mm w c.cap (coreOf (pre ++ .api (.callPoll v) :: mid ++ [.api (.retPoll (.some b))])))
    (h2 : ExecM m c (pre ++ [.api (.callPoll v)]) s2) (hf2 : Facts mm w c.cap (coreOf (pre ++ [.api (.callPoll v)])))
    (hl : .api .lastTxDropped ∈ pre) (hr : ∀ k a, .api (.retSend k (.ok a)) ∈ pre → Received pre a) : False := by
  have hlast : ∃ pan, LastDrop (pre ++ [.api (.callPoll v)]) pan := by
    have hh := h2.clInv.hist
    rw [h2.clInv.fin (by simp [hl])] at hh
    obtain ⟨pan, _, _, h3, _⟩ := hh
    exact ⟨pan, h3.1⟩
  obtain ⟨pan, hlast⟩ := hlast
  have hno := h2.lastDrop_handles hlast
  have hrec : Chan.received (pre ++ .api (.callPoll v) :: mid ++ [.api (.retPoll (.some b))]) = Chan.received (pre ++ .api (.callPoll v) :: mid) ++ [b] := by
    simp [Chan.received]
  have hlen : (Chan.received pre).length ≤ (Chan.received (pre ++ .api (.callPoll v) :: mid)).length := by
    simp [Chan.received]
  obtain ⟨a, k, x, slot, h3, h4, -⟩ := h1.received_from hf1 (i := (Chan.received (pre ++ .api (.callPoll v) :: mid)).length) (b := b) (by rw [hrec]; simp)
  have h5 : a ∈ resOps (coreOf pre) := by
    have := List.mem_of_getElem? h3
    obtain ⟨i, hi⟩ := mem_resOps.1 this
    have hi := mem_coreOf.1 hi
    have hn := h1.no_reserve (p := pre ++ [.api (.callPoll v)]) (q := mid ++ [.api (.retPoll (.some b))]) (by simp) hlast a i
    refine mem_resOps.2 ⟨i, mem_coreOf.2 ?_⟩
    simp at hi hn
    exact hi.resolve_right hn
  have h6 : .api (.retSend k (.ok a)) ∈ pre := by
    obtain ⟨k', h6, h7, -⟩ := h2.sender hf2 (a := a) (by simpa using h5)
    have hk : k = k' := h1.attInv.uniq _ _ _ (h1.ret_ok h4).1 (by simp at h6 ⊢; simp [h6])
    subst hk
    rcases h7 with ⟨att, h7⟩ | h7 | h7
    · exact absurd hno (h2.active_handles (k := k) (by rw [h7]; rfl))
    · simpa using h7
    · have := (h1.life k).ret_uniq ((mem_life rfl).2 h4) ((mem_life (e := .retSend k .panicked) rfl).2 (by simp at h7; simp [h7]))
      cases this
  obtain ⟨i, b', _, _, h7, h8, -⟩ := hr k a h6
  have h9 : (resOps (coreOf (pre ++ .api (.callPoll v) :: mid ++ [.api (.retPoll (.some b))])))[i]? = some a :=
    getElem?_prefix (resOps_prefix ⟨coreOf (.api (.callPoll v) :: mid ++ [.api (.retPoll (.some b))]), by rw [← coreOf_append]; simp⟩) h7
  have h10 := (List.getElem?_inj (List.getElem?_eq_some_iff.1 h9).1 hf1.nodup_res).1 (h9.trans h3.symm)
  have h11 := (List.getElem?_eq_some_iff.1 h8).1
  omega

/-- **C34**, partly. Once the last `Sender` has been dropped and every message sent has been received, a poll returns `None`. Missing: as above. -/
theorem C34_drained_returns_none_partial (h : Run c tr s) {pre mid post : Trace V W} {v : W} {r : PollRes}
    (htr : tr = pre ++ .api (.callPoll v) :: mid ++ .api (.retPoll r) :: post)
    (hm : ∀ u, .api (.callPoll u) ∉ mid) (hl : .api .lastTxDropped ∈ pre) (hb : c.blocking = false ∨ LastDrop tr false)
    (hr : ∀ k a, .api (.retSend k (.ok a)) ∈ pre → Received pre a) : r = .none := by
  cases r with
  | none => rfl
  | pending => exact (h.not_pending htr hm hl hb).elim
  | some b =>
    exfalso
    obtain ⟨-, -, -, s1, -, -, -, h1, -⟩ := h.exec.at_api htr (by simp)
    have hr1 : Run c (pre ++ .api (.callPoll v) :: mid ++ [.api (.retPoll (.some b))]) s1 := Run.before (l := post) (by rw [htr] at h; simpa using h) h1
    obtain ⟨-, -, -, s2, -, -, -, h2, -⟩ := h.exec.at_api (pre := pre) (e := .callPoll v) (post := mid ++ .api (.retPoll (.some b)) :: post) (by rw [htr]; simp) (by simp)
    have hr2 : Run c (pre ++ [.api (.callPoll v)]) s2 := Run.before (l := mid ++ .api (.retPoll (.some b)) :: post) (by rw [htr] at h; simpa using h) h2
    exact h1.no_late hr1.core.facts h2 hr2.core.facts hl hr

/-! ### Concrete runs -/

/-- Decision procedures, for the examples. -/
def noSendEnding (tr : Trace V W) [DecidableEq V] [DecidableEq W] : Bool :=
  tr.all fun | .api (.dropSend k) => decide (.api (.dropSendEnd k) ∈ tr) | _ => true

theorem noSendEnding_imp [DecidableEq V] [DecidableEq W] (h : noSendEnding tr = true) (k : Nat) : ¬ SendEnding tr k := by
  rintro ⟨h1, h2⟩
  have := List.all_eq_true.1 h _ h1
  simp only [decide_eq_true_eq] at this
  exact h2 this

def lastDropB (tr : Trace V W) (pan : Bool) : Bool :=
  (List.range tr.length).any fun n =>
    (match tr[n]? with | some (.api (.dropTx _ p)) => p == pan | _ => false) && senders (tr.take (n + 1)) == []

theorem lastDropB_imp {pan : Bool} (h : lastDropB tr pan = true) : LastDrop tr pan := by
  obtain ⟨n, -, h⟩ := List.any_eq_true.1 h
  simp only [Bool.and_eq_true, beq_iff_eq] at h
  obtain ⟨h1, h2⟩ := h
  split at h1
  case h_2 => cases h1
  case h_1 x p hx =>
    simp only [beq_iff_eq] at h1
    subst h1
    obtain ⟨hn, hx⟩ := List.getElem?_eq_some_iff.1 hx
    have h3 : tr.take (n + 1) = tr.take n ++ [.api (.dropTx x p)] := by rw [List.take_succ_eq_append_getElem hn, hx]
    refine ⟨tr.take n, x, tr.drop (n + 1), ?_, h3 ▸ h2⟩
    rw [List.append_cons, ← h3, List.take_append_drop]

def noDropRx (tr : Trace V W) : Bool := tr.all fun | .api (.dropRx _) => false | _ => true

theorem noDropRx_imp (h : noDropRx tr = true) (b : Bool) : .api (.dropRx b) ∉ tr := fun hm => by
  simpa using List.all_eq_true.1 h _ hm

/-- A receive future is polled while the channel is empty; a message is sent; the waker is woken, and the next poll gets the message. -/
def wakeDemo : List It := iPoll 31 [300, 301, 302] ++ iSend 1 100 11 ++ iDropSend 1 200

/-- C31: its hypotheses are met by this run, in which it is the completed send that wakes the receiver. -/
example (blocking : Bool) : ∃ s : State 8 Nat Nat, Run (demoC 2 blocking) (scriptTr (demoC 2 blocking) wakeDemo) s ∧
    apiOf (scriptTr (demoC 2 blocking) wakeDemo) = [.callPoll 31, .retPoll .pending, .callSend 1 0 true, .attempt 1 100, .retSend 1 (.ok 100), .dropSend 1, .dropSendEnd 1] ∧
    (∀ b, .api (.dropRx b) ∉ scriptTr (demoC 2 blocking) wakeDemo) ∧ (∀ k, ¬ SendEnding (scriptTr (demoC 2 blocking) wakeDemo) k) ∧
    ¬ LastTxEnding (scriptTr (demoC 2 blocking) wakeDemo) ∧ OldestSent (scriptTr (demoC 2 blocking) wakeDemo) ∧
    .cell (.wake 200 31) ∈ scriptTr (demoC 2 blocking) wakeDemo := by
  obtain ⟨s, hs⟩ : ∃ s : State 8 Nat Nat, Run (demoC 2 blocking) (scriptTr (demoC 2 blocking) wakeDemo) s := by
    cases blocking <;> exact Run.of_scriptTr (by decide) (by decide +kernel) (by decide +kernel)
  refine ⟨s, hs, by cases blocking <;> decide +kernel, noDropRx_imp (by cases blocking <;> decide +kernel),
    noSendEnding_imp (by cases blocking <;> decide +kernel), fun h => absurd h.1 (by cases blocking <;> decide +kernel),
    ⟨100, by cases blocking <;> decide +kernel, 0, some 11, by cases blocking <;> decide +kernel⟩, by cases blocking <;> decide +kernel⟩

/-- Two messages are sent and one received; the last `Sender` is dropped; the other message is received, then `None`. -/
def endDemo : List It :=
  iSend 1 100 11 ++ iDropSend 1 200 ++ iSend 2 101 12 ++ iDropSend 2 201 ++ iPoll 31 [300, 301, 302, 303] ++ iDropRecv 300 500 ++
    iDropTx 0 false [400, 401, 402] ++ iPoll 32 [310, 311, 312, 313] ++ iDropRecv 310 501 ++ iPoll 33 [320, 321, 322, 323] ++ iTry 350

/-- C34: the hypotheses of `C34_none_only_if_senders_dropped`, `C34_none_means_drained_partial`, `C34_try_recv_closed`,
`C34_never_pending_partial` and `C34_drained_returns_none_partial` are met by this run. -/
example (blocking : Bool) : ∃ s : State 8 Nat Nat, Run (demoC 2 blocking) (scriptTr (demoC 2 blocking) endDemo) s ∧
    [.retSend 1 (.ok 100), .retSend 2 (.ok 101), .retPoll (.some 300), .dropTx 0 false, .lastTxDropped, .callPoll 32, .retPoll (.some 310), .callPoll 33,
      .retPoll .none, .callTry, .retTry .closed].Sublist (apiOf (scriptTr (demoC 2 blocking) endDemo)) ∧
    LastDrop (scriptTr (demoC 2 blocking) endDemo) false ∧
    ∀ e ∈ apiOf (scriptTr (demoC 2 blocking) endDemo), (∀ k, e ≠ .forgetSend k ∧ e ≠ .retSend k .panicked) := by
  obtain ⟨s, hs⟩ : ∃ s : State 8 Nat Nat, Run (demoC 2 blocking) (scriptTr (demoC 2 blocking) endDemo) s := by
    cases blocking <;> exact Run.of_scriptTr (by decide) (by decide +kernel) (by decide +kernel)
  refine ⟨s, hs, by cases blocking <;> decide +kernel, lastDropB_imp (by cases blocking <;> decide +kernel), fun e he k => ?_⟩
  have : (apiOf (scriptTr (demoC 2 blocking) endDemo)).all fun | .forgetSend _ => false | .retSend _ .panicked => false | _ => true := by
    cases blocking <;> decide +kernel
  have := List.all_eq_true.1 this e he
  constructor <;> (rintro rfl; cases this)

/-- The receiver waits; the last `Sender` is dropped. -/
def lastDemo (pan : Bool) : List It := iPoll 31 [300, 301, 302] ++ iDropTx 0 pan [400, 401, 402]

/-- C34: the hypotheses of `C34_woken_by_last_drop_partial` are met by this run. -/
example (blocking : Bool) : ∃ s : State 8 Nat Nat, Run (demoC 2 blocking) (scriptTr (demoC 2 blocking) (lastDemo false)) s ∧
    apiOf (scriptTr (demoC 2 blocking) (lastDemo false)) = [.callPoll 31, .retPoll .pending, .dropTx 0 false, .lastTxDropped] ∧
    LastDrop (scriptTr (demoC 2 blocking) (lastDemo false)) false ∧ .cell (.wake 400 31) ∈ scriptTr (demoC 2 blocking) (lastDemo false) := by
  obtain ⟨s, hs⟩ : ∃ s : State 8 Nat Nat, Run (demoC 2 blocking) (scriptTr (demoC 2 blocking) (lastDemo false)) s := by
    cases blocking <;> exact Run.of_scriptTr (by decide) (by decide +kernel) (by decide +kernel)
  exact ⟨s, hs, by cases blocking <;> decide +kernel, lastDropB_imp (by cases blocking <;> decide +kernel), by cases blocking <;> decide +kernel⟩

/-- **C34 is false** for the blocking channel if the last `Sender` is dropped while its thread is panicking (`Core::close`, `src/lib.rs:168-170`, does nothing
then, and `src/mpsc/blocking.rs:1253` skips `close_tx`): a receiver that waits is not woken, and one that polls again goes on waiting, although there are no
`Sender`s any more. -/
theorem C34_false_if_dropped_by_panic : ∃ (tr : Trace Nat Nat) (s : State 8 Nat Nat), Run (demoC 2 true) tr s ∧
    apiOf tr = [.callPoll 31, .retPoll .pending, .dropTx 0 true, .lastTxDropped, .callPoll 32, .retPoll .pending] ∧
    senders tr = [] ∧ ∀ o v, .cell (.wake o v) ∉ tr := by
  obtain ⟨s, hs⟩ := Run.of_scriptTr (c := demoC 2 true) (l := lastDemo true ++ iPoll 32 [310, 311, 312]) (by decide) (by decide +kernel) (by decide +kernel)
  exact ⟨_, s, hs, by decide +kernel, by decide +kernel, noRxWake_iff.1 (by decide +kernel)⟩

/-- **C34 is false** for the asynchronous channel in the same situation: `recv` returns `None`, but `try_recv` goes on saying `Empty`. -/
theorem C34_false_try_recv_after_panic : ∃ (tr : Trace Nat Nat) (s : State 8 Nat Nat), Run (demoC 2 false) tr s ∧
    apiOf tr = [.dropTx 0 true, .lastTxDropped, .callPoll 32, .retPoll .none, .callTry, .retTry .empty] ∧ senders tr = [] := by
  obtain ⟨s, hs⟩ := Run.of_scriptTr (c := demoC 2 false) (l := iDropTx 0 true [400, 401, 402] ++ iPoll 32 [310, 311, 312] ++ iTry 350)
    (by decide) (by decide +kernel) (by decide +kernel)
  exact ⟨_, s, hs, by decide +kernel, by decide +kernel⟩

/-- **C34 is false** if a `SendRef` was leaked (`mem::forget`): `recv` returns `None`, that is, says that no message is left, although a message whose
send completed has not been received, and never will be. -/
theorem C34_false_if_leaked (blocking : Bool) : ∃ (tr : Trace Nat Nat) (s : State 8 Nat Nat), Run (demoC 4 blocking) tr s ∧
    [.retSend 1 (.ok 100), .retSend 2 (.ok 101), .forgetSend 1, .dropSendEnd 2, .lastTxDropped, .callPoll 32, .retPoll .none].Sublist (apiOf tr) ∧
    received tr = [] := by
  obtain ⟨s, hs⟩ : ∃ s : State 8 Nat Nat, Run (demoC 4 blocking) (scriptTr (demoC 4 blocking)
      (iSend 1 100 11 ++ iSend 2 101 12 ++ [.one (.forgetSend 1)] ++ iDropSend 2 200 ++ iDropTx 0 false [400, 401, 402] ++ iPoll 32 [320, 321, 322, 323])) s := by
    cases blocking <;> exact Run.of_scriptTr (by decide) (by decide +kernel) (by decide +kernel)
  exact ⟨_, s, hs, by cases blocking <;> decide +kernel, by cases blocking <;> decide +kernel⟩

end Thingbuf.Chan
