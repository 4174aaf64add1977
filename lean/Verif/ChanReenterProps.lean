import Verif.ChanReenter
import Verif.QueueReenterProps
import Verif.ChanFineDemo

/-!
# C54: what a waker may do, in terms of the channel

`RefWaking c s a k v`: the drop of `RecvRef` `a` is in the middle of calling the waker `v` of the waiting send call `k`. `RxWaking c s k v`: the drop of the
`Receiver` is. While a waker runs, calls on the channel are made by other threads, and perhaps by the waker itself, on the same thread. The latter can only end if it
ends without a step of the drop that is in the middle of calling the waker.
-/

namespace Thingbuf.Chan

variable {w : Nat} {V W : Type} {c : Config W} {tr : Trace V W} {s : State w V W}

/-- **C54** (partial: for the drop of a `RecvRef`; for the drop of the `Receiver` see `C54_false_if_receiver_dropped`).
While the drop of a `RecvRef` is calling a waker, every waiting send future can be dropped: whatever has happened since the waker was called (`as`, for instance the
call that drops the future), the drop of the future can be brought to its end by steps of calls in progress, and without a step of the drop of the `RecvRef`,
which goes on calling the waker meanwhile. -/
theorem C54_recv_ref_partial (h : Exec c tr s) {a : OpId} {j : Nat} {v : W} (hw : RefWaking c s a j v)
    {as : List (Act V W)} (ha : ∀ x ∈ as, x.isDropOf a = false) {s' : State w V W} {evs : Trace V W} (hr : runActs c s as = some (s', evs))
    {k : Nat} (hc : .api (.cancel k) ∈ tr ++ evs) (hn : .api (.cancelled k) ∉ tr ++ evs) :
    RefWaking c s' a j v ∧ ∃ (acts : List (Act V W)) (s'' : State w V W) (es : Trace V W), acts.all Act.goesOn = true ∧
      (∀ x ∈ acts, x.isDropOf a = false) ∧ runActs c s' acts = some (s'', es) ∧ .api (.cancelled k) ∈ es ∧ RefWaking c s'' a j v := by
  obtain ⟨o, hr0, hp0⟩ := h.ref_pc hw
  obtain ⟨hr1, hp1⟩ := h.run_without_ref hr0 hp0 ha hr
  have h' := h.of_runActs hr
  refine ⟨ref_waking hr1 hp1, ?_⟩
  have hl := h'.lives k
  have h1 : .cancel k ∈ Chan.life k (apiOf (tr ++ evs)) := (mem_life rfl).2 hc
  have h2 : .cancelled k ∉ Chan.life k (apiOf (tr ++ evs)) := fun hm => hn ((mem_life rfl).1 hm)
  have hp : s'.snd k = .dropping := by
    cases hp : s'.snd k <;> rw [hp] at hl <;> simp only [LifeOk] at hl
    case off => rw [hl] at h1; cases h1
    case done =>
      obtain ⟨_, _, ⟨r, hr, hl⟩ | hl | ⟨a, hl⟩⟩ := hl <;> rw [hl] at h1 h2 <;> simp at h1 h2
    case toNotify => obtain ⟨_, _, _, hl⟩ := hl; rw [hl] at h1; simp at h1
    case notifying => obtain ⟨_, _, _, hl⟩ := hl; rw [hl] at h1; simp at h1
    all_goals (obtain ⟨_, _, hl⟩ := hl; rw [hl] at h1; simp at h1)
  have hk := h'.nodesOk k
  rw [hp] at hk
  obtain ⟨u, m, n, q, qevs, -, hu, -, hq, hb⟩ := h'.queue.canEndWithout (t := .node k) (x := .op o) (busy_of_rem hk) (by rw [hp1]; rfl) (by simp)
  obtain ⟨acts, s2, es, h3, h4, h5, h6⟩ := h'.follows_without (a := a) (List.replicate m u ++ List.replicate n (.node k))
    (by
      intro t ht
      rcases List.mem_append.1 ht with ht | ht <;> rw [(List.mem_replicate.1 ht).2]
      · exact hu
      · simp) hr1 hp1 (q := q) (evs := qevs) (by simpa using hq)
  have h'' := h'.of_runActs h5
  obtain ⟨hr2, hp2⟩ := h'.run_without_ref hr1 hp1 h4 h5
  refine ⟨acts, s2, es, h3, h4, h5, ?_, ref_waking hr2 hp2⟩
  rw [← h6] at hb
  have hd : s2.snd k = .done := (h'.snd_goes h5 (.inl hp)).resolve_left fun hn => by
    have := h''.nodesOk k
    rw [hn] at this
    rw [busy_of_rem this] at hb
    cases hb
  have hl' := h''.lives k
  rw [hd] at hl'
  have h6 : .cancel k ∈ Chan.life k (apiOf (tr ++ evs ++ es)) := (mem_life rfl).2 (List.mem_append.2 (.inl hc))
  have h7 : .cancelled k ∈ Chan.life k (apiOf (tr ++ evs ++ es)) := by
    simp only [LifeOk] at hl'
    obtain ⟨_, _, ⟨r, hr, hl'⟩ | hl' | ⟨a, hl'⟩⟩ := hl' <;> rw [hl'] at h6 ⊢ <;> simp at h6 ⊢
  exact (List.mem_append.1 ((mem_life rfl).1 h7)).resolve_left hn

/-- **C54** is false of the drop of the `Receiver`. While it is calling the waker of one sender, another send future that still waits can neither be dropped nor
polled: whatever else happens, such a call does not end before the drop of the `Receiver` takes its next step, that is, before the waker has returned. If the waker
drops or polls that future, the thread is deadlocked. -/
theorem C54_false_if_receiver_dropped (h : Exec c tr s) {j : Nat} {v : W} (hw : RxWaking c s j v)
    {as : List (Act V W)} (ha : ∀ x ∈ as, x.isRx = false) {s' : State w V W} {evs : Trace V W} (hr : runActs c s as = some (s', evs))
    {k : Nat} (hk : k ∈ Queue.queueOf (queueOf tr)) :
    RxWaking c s' j v ∧ (.api (.cancel k) ∈ evs → .api (.cancelled k) ∉ tr ++ evs) ∧
      ∀ u, .queue (.callCont k u) ∈ evs → Queue.inCall (queueOf (tr ++ evs)) (.node k) = true := by
  obtain ⟨o, hrx, hp⟩ := h.rx_pc hw
  obtain ⟨qas, hby, hq⟩ := h.run_without_rx hp ha hr
  have h' := h.of_runActs hr
  have hp' : s'.queue.pc (.op o) = .cWake j v := by rw [Queue.runActs_by hq hby]; exact hp
  have hst := h.queue.stuck (x := .op o) (n := k) (by simp) (by rw [hp]; rfl) hby hq hk
  refine ⟨?_, fun hc hcd => ?_, fun u hc => ?_⟩
  · obtain ⟨x, hx⟩ := h'.queueOwns.cov o .close (by rw [hp']; rfl)
    cases x with
    | snd _ => cases hx
    | closer => cases hx
    | ref b => simp only [queueClaim, claimOf] at hx; cases hb : s'.ref b <;> rw [hb] at hx <;> cases hx
    | rx =>
      simp only [queueClaim, claimOf] at hx
      cases hb : s'.rx <;> rw [hb] at hx <;> cases hx
      exact rx_waking hb hp'
  · have := hst.2.2 (.inl (mem_queueOf.2 (run_cancel hr hc)))
    rw [h'.over_idle hcd] at this
    cases this
  · rw [h'.queue.inCall]
    exact hst.2.2 (.inr ⟨u, mem_queueOf.2 hc⟩)

/-- The state after a script, and what its next step is. -/
theorem script_next {c : Config Nat} {l : List It} {act : Act Nat Nat} {e : Ev Nat Nat} (hw : WellSized 8 c.cap)
    (hn : nRes (coreOf (scriptTr c l)) + 2 * c.cap < period 8 c.cap)
    (h : ((script c (State.init 8 Nat Nat) l).bind fun x => (step c x.1 act).map Prod.snd).any (e ∈ ·) = true) :
    ∃ s : State 8 Nat Nat, Run c (scriptTr c l) s ∧ (script c (State.init 8 Nat Nat) l).map Prod.fst = some s ∧
      ∃ s' evs, step c s act = some (s', evs) ∧ e ∈ evs := by
  cases hs : script c (State.init 8 Nat Nat) l with
  | none => simp [hs] at h
  | some x =>
    obtain ⟨s, tr⟩ := x
    have htr : scriptTr c l = tr := by simp [scriptTr, hs]
    refine ⟨s, ⟨hw, ?_, NoStall.of_few hn⟩, rfl, ?_⟩
    · have := Exec.init.script hs
      rw [htr]; simpa using this
    · cases hst : step c s act with
      | none => simp [hs, hst] at h
      | some y => exact ⟨y.1, y.2, rfl, by simpa [hs, hst] using h⟩

/-- Send calls 2 and 3 wait. The `Receiver` is dropped; its drop is in the middle of calling the waker 22 of call 2. -/
def wakingDemo : List It := iSend 1 100 11 ++ iDropSend 1 200 ++ iSend 2 101 12 ++ iStart 2 22 ++ iSend 3 102 13 ++ iStart 3 33 ++ [.one (.dropRx false)] ++
  List.replicate 6 (.one (.rx 400 false))

/-- **C54** A deadlock: the receiver is dropped while two senders wait, and the waker of the first drops the send future of the second. That drop never ends, whatever the
other threads do, as long as the drop of the receiver does not go on; and it does not go on before the waker returns. -/
theorem C54_deadlock : ∃ (tr : Trace Nat Nat) (s s' : State 8 Nat Nat) (evs : Trace Nat Nat), Run (demoC 1 false) tr s ∧ RxWaking (demoC 1 false) s 2 22 ∧
    step (demoC 1 false) s (.cancel 3) = some (s', evs) ∧ .api (.cancel 3) ∈ evs ∧
    ∀ (as : List (Act Nat Nat)) (s'' : State 8 Nat Nat) (evs' : Trace Nat Nat), (∀ x ∈ as, x.isRx = false) → runActs (demoC 1 false) s' as = some (s'', evs') →
      .api (.cancelled 3) ∉ tr ++ evs ++ evs' := by
  obtain ⟨s, h1, h2, s1, e1, h3, h4⟩ := script_next (c := demoC 1 false) (l := wakingDemo) (act := .rx 0 false) (e := .queue (.wake 400 2 22))
    (by decide) (by decide +kernel) (by decide +kernel)
  obtain ⟨s0, -, h5, s2, e2, h6, h7⟩ := script_next (c := demoC 1 false) (l := wakingDemo) (act := .cancel 3) (e := .api (.cancel 3))
    (by decide) (by decide +kernel) (by decide +kernel)
  have : s0 = s := Option.some.inj (h5.symm.trans h2)
  subst this
  have hw : RxWaking (demoC 1 false) s0 2 22 := ⟨0, false, s1, e1, 400, h3, h4⟩
  refine ⟨_, s0, s2, e2, h1, hw, h6, h7, fun as s'' evs' ha hr => ?_⟩
  have := (C54_false_if_receiver_dropped h1.exec hw (as := .cancel 3 :: as) (by simpa [Act.isRx] using ha) (runActs_cons h6 hr) (k := 3)
    (by decide +kernel)).2.1 (List.mem_append.2 (.inl h7))
  rwa [← List.append_assoc] at this

/-- Send calls 2 and 3 wait. `RecvRef` 300 is dropped; its drop is in the middle of calling the waker 22 of call 2. -/
def refWakingDemo : List It := iSend 1 100 11 ++ iDropSend 1 200 ++ iSend 2 101 12 ++ iStart 2 22 ++ iSend 3 102 13 ++ iStart 3 33 ++ iTry 300 ++
  [.one (.dropRecv 300), .one (.recvNotify 300 400)] ++ List.replicate 6 (.one (.recvNotifyRun 300 false))

/-- The hypotheses of `C54_recv_ref_partial` are met: the waker drops the send future 3. -/
example : ∃ (s s' : State 8 Nat Nat) (evs : Trace Nat Nat), Run (demoC 1 false) (scriptTr (demoC 1 false) refWakingDemo) s ∧ RefWaking (demoC 1 false) s 300 2 22 ∧
    runActs (demoC 1 false) s [.cancel 3] = some (s', evs) ∧ .api (.cancel 3) ∈ scriptTr (demoC 1 false) refWakingDemo ++ evs := by
  obtain ⟨s, h1, h2, s1, e1, h3, h4⟩ := script_next (c := demoC 1 false) (l := refWakingDemo) (act := .recvNotifyRun 300 false) (e := .queue (.wake 400 2 22))
    (by decide) (by decide +kernel) (by decide +kernel)
  obtain ⟨s0, -, h5, s2, e2, h6, h7⟩ := script_next (c := demoC 1 false) (l := refWakingDemo) (act := .cancel 3) (e := .api (.cancel 3))
    (by decide) (by decide +kernel) (by decide +kernel)
  have : s0 = s := Option.some.inj (h5.symm.trans h2)
  subst this
  exact ⟨s0, s2, e2 ++ [], h1, ⟨false, s1, e1, 400, h3, h4⟩, runActs_cons h6 rfl, by simp [h7]⟩

end Thingbuf.Chan
