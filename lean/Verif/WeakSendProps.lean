import Verif.WeakSend
import Verif.WeakMsgProps

/-!
# The channel on the memory model: what send calls return

C68. What C03, C33 and C48 say about the results of send calls, for the memory orderings that are written in the source, instead of sequential consistency. The vocabulary is in `Verif/Spec.lean`
(of the ring buffer: `nRes`, `nDeq`) and `Verif/ChanSpec.lean` (of the channel). `At xtr p e`: event `e` of the ring buffer is at position `p` of the execution. `HB xtr p q`: what is at position `p`
happens before what is at position `q`.
-/

namespace Thingbuf.Chan

variable {w : Nat} {V : Type} {c : Config Nat} {tr : Trace V Nat} {xtr : List (RA.REv V)} {s : WState w V}

/-! ### `Full`, sleep and `Timeout` -/

/-- **C68** When `try_send` returns `Full`, at that moment as many messages as the channel has slots are reserved and not received. -/
theorem C68_try_send_full (h : WRun c w tr xtr s) {pre post : Trace V Nat} {k : Nat} (htr : tr = pre ++ .api (.retSend k .full) :: post) :
    nRes (coreOf pre) = nDeq (coreOf pre) + c.cap := (h.exec.ctl.1.ret_full h.facts htr).2

/-- **C68** Only a call of `try_send` returns `Full`: a call of `send` does not. -/
theorem C68_send_never_full (h : WRun c w tr xtr s) {k x : Nat} {wait : Bool} (hf : .api (.retSend k .full) ∈ tr) (hc : .api (.callSend k x wait) ∈ tr) :
    wait = false := by
  obtain ⟨pre, post, htr⟩ := List.append_of_mem hf
  obtain ⟨z, hz⟩ := (h.exec.ctl.1.ret_full h.facts htr).1
  exact (h.exec.ctl.1.call_unique hc (by rw [htr]; exact List.mem_append_left _ hz)).2

/-- **C68** Only a call of `send` goes to sleep: a call of `try_send` does not. -/
theorem C68_try_send_never_sleeps (h : WRun c w tr xtr s) {k x : Nat} {wait : Bool} (hf : .api (.sleep k) ∈ tr) (hc : .api (.callSend k x wait) ∈ tr) :
    wait = true := by
  obtain ⟨z, hz⟩ := h.exec.ctl.1.sleep_kind hf
  exact (h.exec.ctl.1.call_unique hc hz).2

/-- **C68** A send call makes an attempt before it sleeps, and the last one it made before found the channel full. -/
theorem C68_sleeps_after_attempt (h : WRun c w tr xtr s) {pre post : Trace V Nat} {k : Nat} (htr : tr = pre ++ .api (.sleep k) :: post) :
    ∃ a x y, pre = x ++ .api (.attempt k a) :: y ∧ (∀ b, .api (.attempt k b) ∉ y) ∧ .core (.ret a .full) ∈ y := by
  obtain ⟨a, y, ⟨x, h1, h2⟩, h3⟩ := h.exec.ctl.1.sleep_full htr
  exact ⟨a, x, y, h1, h2, h3⟩

/-- **C68** A send call sleeps only if there was no room: between the last attempt it made before it went to sleep and the moment at which it
went to sleep, there was a moment at which as many messages as the channel has slots were reserved and not received. -/
theorem C68_sleeps_only_if_full (h : WRun c w tr xtr s) {pre mid post : Trace V Nat} {k : Nat} {a : OpId}
    (htr : tr = pre ++ .api (.attempt k a) :: (mid ++ .api (.sleep k) :: post)) (hm : ∀ b, .api (.attempt k b) ∉ mid) :
    ∃ m, m <+: mid ∧ nRes (coreOf (pre ++ .api (.attempt k a) :: m)) = nDeq (coreOf (pre ++ .api (.attempt k a) :: m)) + c.cap :=
  full_between h.facts htr hm (h.exec.ctl.1.sleep_full (pre := pre ++ .api (.attempt k a) :: mid) (post := post) (k := k) (by rw [htr]; simp))

/-- **C68** A `send_timeout` returns `Timeout` only if there was no room: after its last attempt it went to sleep, and in between there was a moment at which as many messages as
the channel has slots were reserved and not received. Only the blocking channel has such calls. -/
theorem C68_times_out_only_if_full (h : WRun c w tr xtr s) {pre post : Trace V Nat} {k : Nat} (htr : tr = pre ++ .api (.retSend k .timeout) :: post) :
    c.blocking = true ∧ ∃ x a y z, pre = x ++ .api (.attempt k a) :: (y ++ .api (.sleep k) :: z) ∧ (∀ b, .api (.attempt k b) ∉ y ++ z) ∧
      ∃ m, m <+: y ∧ nRes (coreOf (x ++ .api (.attempt k a) :: m)) = nDeq (coreOf (x ++ .api (.attempt k a) :: m)) + c.cap := by
  obtain ⟨hb, x, z, rfl, hz⟩ := h.exec.ctl.1.timeout_slept htr
  have h1 : tr = x ++ .api (.sleep k) :: (z ++ .api (.retSend k .timeout) :: post) := by rw [htr]; simp
  obtain ⟨a, x', y, rfl, hy, -⟩ := C68_sleeps_after_attempt h h1
  exact ⟨hb, x', a, y, z, by simp, fun b hm => (List.mem_append.1 hm).elim (hy b) (hz b), C68_sleeps_only_if_full h (post := z ++ .api (.retSend k .timeout) :: post) (by rw [h1]; simp) hy⟩

/-! ### `Closed` -/

/-- **C68** A send call returns `Closed` only after the drop of the `Receiver` has begun. -/
theorem C68_closed_truthful (h : WRun c w tr xtr s) {k : Nat} {pre post : Trace V Nat} (htr : tr = pre ++ .api (.retSend k .closed) :: post) :
    ∃ pan, .api (.dropRx pan) ∈ pre :=
  h.exec.ctl.1.ret_closed htr (h.facts_at htr (by simp))

/-- **C68** (partial: the `Receiver` is not dropped by a panicking thread) After the drop of the `Receiver` is over, every `send` and `send_ref` that is called returns `Closed` and does
not wait; and so does every `try_send`, but that it may return `Full` as well. This does not depend on what the thread that calls knows of the drop. -/
theorem C68_closed_after_drop_partial (h : WRun c w tr xtr s) {pre post : Trace V Nat} (htr : tr = pre ++ .api .rxDropped :: post)
    (hp : .api (.dropRx true) ∉ tr) {k x : Nat} {wait : Bool} (hk : .api (.callSend k x wait) ∈ post) :
    (∀ r, .api (.retSend k r) ∈ tr → r = .closed ∨ (r = .full ∧ wait = false)) ∧ .api (.sleep k) ∉ tr :=
  h.exec.ctl.1.late_call h.facts htr (h.facts_at htr (by simp)) hp hk

/-- **C68** (partial: as above) After the drop of the `Receiver` is over, nobody goes to sleep. -/
theorem C68_nobody_sleeps_partial (h : WRun c w tr xtr s) {pre post : Trace V Nat} (htr : tr = pre ++ .api .rxDropped :: post)
    (hp : .api (.dropRx true) ∉ tr) (k : Nat) : .api (.sleep k) ∉ post :=
  h.exec.ctl.1.no_late_sleep htr (h.facts_at htr (by simp)) hp k

/-- **C68** (partial: as above) A send call that waits, and is not polled again before the drop of the `Receiver` is over, returns
nothing but `Closed`, or `Timeout` if it is a `send_timeout`. -/
theorem C68_waiting_gets_closed_partial (h : WRun c w tr xtr s) {pre mid post : Trace V Nat} {k : Nat}
    (htr : tr = pre ++ .api (.sleep k) :: mid ++ .api .rxDropped :: post) (hp : .api (.dropRx true) ∉ tr)
    (hc : ∀ v, .queue (.callCont k v) ∉ mid) {r : SendRes} (hr : .api (.retSend k r) ∈ tr) :
    r = .closed ∨ (r = .timeout ∧ c.blocking = true) :=
  h.exec.ctl.1.late_waiting h.facts htr (h.facts_at htr (by simp)) hp hc hr

/-- **C68** (partial: as above) A send call that waits, is not cancelled, does not time out and is not polled again while the `Receiver` is dropped, is woken before the drop is over. -/
theorem C68_waiters_woken_partial (h : WRun c w tr xtr s) {pre mid post : Trace V Nat} {k : Nat}
    (htr : tr = pre ++ .api (.sleep k) :: mid ++ .api .rxDropped :: post) (hp : .api (.dropRx true) ∉ tr)
    (hc : ∀ v, .queue (.callCont k v) ∉ mid) (hcan : .api (.cancel k) ∉ mid) (hto : .api (.retSend k .timeout) ∉ mid) :
    ∃ o v, .queue (.wake o k v) ∈ mid :=
  h.exec.ctl.1.waiters_woken htr (h.facts_at htr (by simp)) hp hc hcan hto

theorem mem_at {e : Event V} (h : e ∈ RA.evsOf xtr) : ∃ p, RA.At xtr p e := by
  obtain ⟨p, -, hp⟩ := RA.mem_take (q := xtr.length) (by rwa [List.take_length])
  exact ⟨p, hp⟩

/-- **C68** If the channel was closed, at position `n`, and that happened before every attempt of a send call (`try_send`, too), then the call returns `Closed`, and does not wait. -/
theorem C68_closed_if_known (h : WRun c w tr xtr s) {n : Nat} {b : OpId} (hn : RA.At xtr n (.close b)) {k : Nat}
    (hk : ∀ a i, .api (.attempt k a) ∈ tr → RA.At xtr i (.invoke a .push) → RA.HB xtr n i) :
    (∀ r, .api (.retSend k r) ∈ tr → r = .closed) ∧ .api (.sleep k) ∉ tr := by
  have he := h.exec.ctl.1
  have hb := h.mem.inv.base.hb
  have hinv : ∀ a, .api (.attempt k a) ∈ tr → ∃ i, RA.At xtr i (.invoke a .push) := by
    intro a ha
    have := mem_coreOf.2 (he.attempt_push ha)
    rw [h.exec.evs.1] at this
    exact mem_at this
  have hnf : ∀ a, .api (.attempt k a) ∈ tr → .core (.ret a .full) ∉ tr := by
    intro a ha hr
    obtain ⟨i, hi⟩ := hinv a ha
    have hr := mem_coreOf.2 hr
    rw [h.exec.evs.1] at hr
    obtain ⟨p, hp⟩ := mem_at hr
    have := RA.push_after_close h.mem.facts h.mem.inv.base.ktr hb hi hp hn (hk a i ha hi)
    cases this
  have hns : .api (.sleep k) ∉ tr := by
    intro hm
    obtain ⟨pre, post, htr⟩ := List.append_of_mem hm
    obtain ⟨a, x, y, rfl, -, h3⟩ := C68_sleeps_after_attempt h htr
    exact hnf a (by rw [htr]; simp) (by rw [htr]; simp [h3])
  refine ⟨fun r hr => ?_, hns⟩
  have hres : ∀ a, .api (.attempt k a) ∈ tr → a ∉ resOps (coreOf tr) := by
    intro a ha hm
    obtain ⟨i, hi⟩ := hinv a ha
    rw [h.exec.evs.1] at hm
    obtain ⟨l, hl⟩ := mem_resOps.1 hm
    obtain ⟨p, hp⟩ := mem_at hl
    have hev := h.mem.facts.evOk hp.split
    obtain ⟨i', hlt, hi'⟩ := RA.mem_take hev.1.inv
    have hii : i' = i := by
      rcases Nat.lt_trichotomy i' i with h1 | h1 | h1
      · exact absurd ⟨_, RA.At.mem_take hi' h1⟩ (h.mem.facts.evOk hi.split).1
      · exact h1
      · exact absurd ⟨_, RA.At.mem_take hi h1⟩ (h.mem.facts.evOk hi'.split).1
    subst hii
    exact hev.2.1 ⟨b, RA.At.mem_take hn (Nat.lt_trans (hb.lt (hk a _ ha hi)) hlt)⟩
  rcases he.ret_nothing h.facts hres hr with rfl | rfl | rfl
  · rfl
  · obtain ⟨a, h1, h2⟩ := he.full_attempt hr
    exact absurd h2 (hnf a h1)
  · obtain ⟨p, q, hpq⟩ := List.append_of_mem hr
    obtain ⟨-, u, v, huv, -⟩ := he.timeout_slept hpq
    exact absurd (by rw [hpq, huv]; simp) hns

/-! ### Examples -/

/-- `C68_try_send_full`, `C68_send_never_full`: in `wMsgDemo` call 3, a `try_send`, finds both slots taken. -/
example (blocking : Bool) : ∃ (tr : Trace Nat Nat) (xtr : List (RA.REv Nat)) (s : WState 8 Nat) (pre post : Trace Nat Nat), WRun (demoC 2 blocking) 8 tr xtr s ∧
    tr = pre ++ .api (.retSend 3 .full) :: post ∧ .api (.callSend 3 0 false) ∈ tr := by
  obtain ⟨s, hs⟩ := wMsgRun blocking
  obtain ⟨pre, post, h⟩ := List.append_of_mem (show .api (.retSend 3 .full) ∈ (wTr (demoC 2 blocking) wMsgDemo).1 by cases blocking <;> decide +kernel)
  exact ⟨_, _, s, pre, post, hs, h, by cases blocking <;> decide +kernel⟩

/-- `C68_times_out_only_if_full`, `C68_sleeps_only_if_full`: call 2, a `send_timeout`, finds the channel full, waits, and its time is up. -/
example : ∃ (tr : Trace Nat Nat) (xtr : List (RA.REv Nat)) (s : WState 8 Nat), WRun (demoC 1 true) 8 tr xtr s ∧
    [.callSend 2 0 true, .attempt 2 101, .sleep 2, .retSend 2 .timeout].Sublist (apiOf tr) := by
  obtain ⟨s, hs, -⟩ := WExec.of_script (c := demoC 1 true)
    (l := (iSend 1 100 11 ++ iDropSend 1 200 ++ iSend 2 101 12 ++ iStart 2 22 ++ [(.one (.timeout 2) : It)]).map wOf) 0 (by decide +kernel) (by decide +kernel)
  exact ⟨_, _, s, ⟨by decide, rfl, hs⟩, by decide +kernel⟩

/-- Capacity 1. Call 1 sends; call 2 finds the channel full and waits. The `Receiver` is dropped. Call 2 is woken and returns `Closed`. Call 3, a `try_send` whose thread knows that the `Receiver` was dropped,
returns `Closed`. Call 4, a `send` whose thread knows nothing, reads an old value of the tail index: it finds the channel full, is about to wait, and returns `Closed`. -/
def wCloseDemo : List WIt :=
  (iSend 1 100 11 ++ iDropSend 1 200 ++ iSend 2 101 12 ++ iStart 2 22 ++ iDropRx false [400, 401, 402] ++ iCont 2 22).map wOf ++
  .sync 400 103 :: (iSend 3 103 13 0 false).map wOf ++
  [.one (.send 4 0 true 104) [], .at (.push 4 (.run false)) { rd := 1 }, .all [.push 4 (.run false)], .one (.start 4 24) [], .all [.node 4 false]]

theorem wCloseRun (blocking : Bool) : ∃ s : WState 8 Nat,
    WRun (demoC 1 blocking) 8 (wTr (demoC 1 blocking) wCloseDemo).1 (wTr (demoC 1 blocking) wCloseDemo).2 s := by
  obtain ⟨s, hs, -⟩ := WExec.of_script (c := demoC 1 blocking) (l := wCloseDemo) 0 (by cases blocking <;> decide +kernel) (by cases blocking <;> decide +kernel)
  exact ⟨s, by cases blocking <;> decide, rfl, hs⟩

/-- `C68_closed_truthful`, `C68_closed_after_drop_partial`, `C68_nobody_sleeps_partial`, `C68_waiting_gets_closed_partial`, `C68_waiters_woken_partial`. -/
example (blocking : Bool) : ∃ (tr : Trace Nat Nat) (xtr : List (RA.REv Nat)) (s : WState 8 Nat), WRun (demoC 1 blocking) 8 tr xtr s ∧
    [.sleep 2, .dropRx false, .rxDropped, .retSend 2 .closed, .callSend 3 0 false, .retSend 3 .closed, .callSend 4 0 true, .attempt 4 104, .retSend 4 .closed].Sublist (apiOf tr) ∧
    .core (.ret 104 .full) ∈ tr ∧ .queue (.wake 400 2 22) ∈ tr ∧ .api (.dropRx true) ∉ tr ∧ .api (.retSend 2 .timeout) ∉ tr := by
  obtain ⟨s, hs⟩ := wCloseRun blocking
  refine ⟨_, _, s, hs, ?_⟩
  cases blocking <;> decide +kernel

theorem attempt_of_all {k a b : Nat} {tr : Trace Nat Nat} (h : (tr.all fun e => match e with | .api (.attempt j d) => j != k || d == b | _ => true) = true)
    (ha : .api (.attempt k a) ∈ tr) : a = b := by
  have := List.all_eq_true.1 h _ ha
  simpa using this

/-- `C68_closed_if_known`: the channel is closed at position 13, and the only attempt of call 3 begins at position 15. -/
example (blocking : Bool) : ∃ (tr : Trace Nat Nat) (xtr : List (RA.REv Nat)) (s : WState 8 Nat), WRun (demoC 1 blocking) 8 tr xtr s ∧
    RA.At xtr 13 (.close 400) ∧ .api (.callSend 3 0 false) ∈ tr ∧ .api (.retSend 3 .closed) ∈ tr ∧
    ∀ a i, .api (.attempt 3 a) ∈ tr → RA.At xtr i (.invoke a .push) → RA.HB xtr 13 i := by
  obtain ⟨s, hs⟩ := wCloseRun blocking
  refine ⟨_, _, s, hs, by cases blocking <;> decide +kernel, by cases blocking <;> decide +kernel, by cases blocking <;> decide +kernel, fun a i ha hi => ?_⟩
  have := attempt_of_all (b := 103) (by cases blocking <;> decide +kernel) ha
  subst this
  have hlt : i < 19 := by
    have h1 := (List.getElem?_eq_some_iff.1 hi).1
    rwa [show ((wTr (demoC 1 blocking) wCloseDemo).2.map Prod.fst).length = 19 by cases blocking <;> decide +kernel] at h1
  have hall : ∀ i, i < 19 → ((wTr (demoC 1 blocking) wCloseDemo).2.map Prod.fst)[i]? = some (.core (.invoke 103 .push)) → i = 15 := by
    cases blocking <;> decide +kernel
  have := hall i hlt hi
  subst this
  exact ⟨(.core (.invoke 103 .push), [13, 14, 12, 1, 0]), by cases blocking <;> decide +kernel, by decide⟩

/-- **C68 is false** of a `try_send` in a thread that does not know of the drop of the `Receiver`: it may return `Full` after that (the load of `tail` in `push_ref`, /repo/src/lib.rs line 187, reads an old value, and
`head` says that the channel is full). -/
theorem C68_false_if_not_known (blocking : Bool) : ∃ (tr : Trace Nat Nat) (xtr : List (RA.REv Nat)) (s : WState 8 Nat), WRun (demoC 1 blocking) 8 tr xtr s ∧
    [.dropRx false, .rxDropped, .callSend 3 0 false, .retSend 3 .full].Sublist (apiOf tr) := by
  obtain ⟨s, hs, -⟩ := WExec.of_script (c := demoC 1 blocking)
    (l := (iSend 1 100 11 ++ iDropSend 1 200 ++ iDropRx false [400, 401, 402]).map wOf ++
      [.one (.send 3 0 false 103) [], .at (.push 3 (.run false)) { rd := 1 }, .all [.push 3 (.run false)]]) 0 (by cases blocking <;> decide +kernel) (by cases blocking <;> decide +kernel)
  exact ⟨_, _, s, ⟨by cases blocking <;> decide, rfl, hs⟩, by cases blocking <;> decide +kernel⟩

end Thingbuf.Chan
