import Verif.ChanFineMem
import Verif.ChanFineDemo
import Verif.ChanProps
import Verif.ChanTryProps
import Verif.ChanWakeProps
import Verif.ChanCloseProps
import Verif.ChanSleepProps
import Verif.ChanSpinProps
import Verif.ChanEndsProps

/-!
# Properties of the channel with the two-step dequeue (C03, C04, C28, C31 - C34, C45, C46, C48, C49)

`FRun c tr f`: as `Run` of the other `Chan…Props` files, but while the drop of a `RecvRef` or of the `Receiver` is in the middle of `List::dequeue`
(`src/wait/queue.rs:576-599`), that is, after it has published the new state of the node and before it has read and unhooked it, the other threads run.

First: everything that is proved of the channel with the one-step dequeue, and does not mention accesses to memory, holds here, too (`fine_transfer`). Then C28, in terms
of the API.

Memory of nodes of calls that have ended keeps its contents in the model. After an access to such memory the real program may do anything; the theorems speak of
what it does if that memory has not been reused.
-/

namespace Thingbuf.Chan

variable {w : Nat} {V W : Type} {c : Config W} {tr : Trace V W} {f : FState w V W}

/-! ## Refinement -/

/-- Every execution with the two-step dequeue does, apart from accesses to the memory of nodes, exactly what some execution with the one-step dequeue does. -/
theorem fine_refines (h : FExec c tr f) : ∃ (tr' : Trace V W) (s' : State w V W), Exec c tr' s' ∧ quiet tr' = quiet tr := by
  obtain ⟨tr', h1, h2⟩ := h.sim
  exact ⟨tr', _, h1, h2⟩

/-- And the other way round. So the counterexamples of the other files are behaviours of this model, too. -/
theorem fine_complete {s : State w V W} (h : Exec c tr s) : ∃ tr', FExec c tr' ⟨s, none⟩ ∧ quiet tr' = quiet tr := h.fine

/-- So whatever holds of all traces of the channel with the one-step dequeue, and does not depend on the accesses to the memory of nodes, holds of all traces here. -/
theorem fine_transfer {P : Trace V W → Prop} (hP : ∀ tr tr', quiet tr' = quiet tr → P tr' → P tr)
    (h1 : ∀ (tr : Trace V W) (s : State w V W), Run c tr s → P tr) (h : FRun c tr f) : P tr := by
  obtain ⟨tr', h2, h3⟩ := h.sim
  exact hP _ _ h3 (h1 _ _ h2)

example (cap : Nat) (blocking : Bool) : ∃ f : FState 8 Nat Nat, FExec (demoC cap blocking) [] f := ⟨_, .init⟩

/-! ## Memory -/

/-- The call has returned to its caller, or its future has been dropped: its node, which is on its stack or in the future, may be gone. -/
def SendOver (tr : Trace V W) (k : Nat) : Prop := (∃ r, .api (.retSend k r) ∈ tr) ∨ .api (.cancelled k) ∈ tr

/-- **C28**, as far as it is true. If the node of a send call that is over, and did not time out, is accessed, then by the drop of a `RecvRef` or of the `Receiver`, in the middle of taking the call out of the
wait queue: it marked the node before the call ended, and has neither woken the call nor done anything else since. (Missing: the sends that end in this gap, and those
that time out. For those the claim is false: `C28_false_if_cancelled`, `C28_false_if_polled`, `C28_false_if_closed`, `C28_false_if_timed_out`.) -/
theorem C28_access_after_end_partial (h : FExec c tr f) {pre post : Trace V W} {t : Queue.Tid} {k : Nat} (htr : tr = pre ++ .queue (.touch t k) :: post)
    (he : SendOver pre k) (hto : .api (.retSend k .timeout) ∉ pre) :
    ∃ o a b, t = .op o ∧ pre = a ++ .queue (.deq o k) :: b ∧ ¬ SendOver a k ∧ SendOver b k ∧ Queue.opEvs (queueOf b) o = [] := by
  obtain ⟨o, h1, a, b, h2, _, h3⟩ := h.touch_ended htr he hto
  obtain ⟨a', b', h4, h5, h6⟩ := List.filterMap_eq_append_iff.1 h2
  obtain ⟨x, z, y, h7, h8, h9, h10⟩ := List.filterMap_eq_cons_iff.1 h6
  cases z <;> simp only [reduceCtorEq, Option.some.injEq] at h9
  subst h9
  have hpre : pre = (a' ++ x) ++ .queue (.deq o k) :: y := by rw [h4, h7]; simp
  have hno := h.deq_running (pre := a' ++ x) (post := y ++ .queue (.touch t k) :: post) (o := o) (k := k) (by rw [htr, hpre]; simp)
    (fun hm => hto (by rw [hpre]; exact List.mem_append_left _ hm))
  have hb : queueOf y = b := h10
  refine ⟨o, a' ++ x, y, h1, hpre, ?_, ?_, by rw [hb, h3]⟩
  · rintro (⟨r, hr⟩ | hr)
    · exact hno.1 r hr
    · exact hno.2 hr
  · rw [hpre] at he
    rcases he with ⟨r, hr⟩ | hr
    · rcases List.mem_append.1 hr with hr | hr
      · exact absurd hr (hno.1 r)
      · simp only [List.mem_cons, reduceCtorEq, false_or] at hr
        exact .inl ⟨r, hr⟩
    · rcases List.mem_append.1 hr with hr | hr
      · exact absurd hr hno.2
      · simp only [List.mem_cons, reduceCtorEq, false_or] at hr
        exact .inr hr

/-- **C28**, what the user can do: if a send call ends, but not by a timeout, before anybody takes it out of the wait queue, or after the one who did so has called its waker, then its node is not accessed
afterwards. -/
theorem C28_safe_if_woken_first_partial (h : FExec c tr f) {pre post : Trace V W} {k : Nat} (htr : tr = pre ++ post) (he : SendOver pre k)
    (hto : .api (.retSend k .timeout) ∉ tr) (hw : ∀ a o b, pre = a ++ .queue (.deq o k) :: b → ∃ v, .queue (.wake o k v) ∈ b) (t : Queue.Tid) : .queue (.touch t k) ∉ post := by
  intro ht
  obtain ⟨x, y, rfl⟩ := List.append_of_mem ht
  have he' : SendOver (pre ++ x) k := by
    rcases he with ⟨r, hr⟩ | hr
    · exact .inl ⟨r, List.mem_append_left _ hr⟩
    · exact .inr (List.mem_append_left _ hr)
  obtain ⟨o, a, b, h1, h2, h3, h4, h5⟩ := C28_access_after_end_partial h (pre := pre ++ x) (post := y) (t := t) (k := k) (by rw [htr]; simp) he'
    (fun hm => hto (by rw [htr, ← List.append_assoc]; exact List.mem_append_left _ hm))
  rcases append_split h2 with ⟨b1, h6, h7⟩ | ⟨e1, h6, h7⟩
  · obtain ⟨v, hv⟩ := hw a o b1 h7
    have : Queue.Event.wake o k v ∈ Queue.opEvs (queueOf b) o := by
      rw [Queue.mem_opEvs rfl, h6, queueOf]
      exact List.mem_filterMap.2 ⟨_, List.mem_append_left _ hv, rfl⟩
    rw [h5] at this
    cases this
  · refine h3 ?_
    rw [h7]
    rcases he with ⟨r, hr⟩ | hr
    · exact .inl ⟨r, List.mem_append_left _ hr⟩
    · exact .inr (List.mem_append_left _ hr)

/-! The hypotheses are met: in `calmDemo` call 2 is taken out of the queue, woken, and returns. -/

theorem calmDemo_run (blocking : Bool) : ∃ f : FState 8 Nat Nat, FRun (demoC 1 blocking) (fscriptTr (demoC 1 blocking) calmDemo) f := by
  cases blocking <;> exact FRun.of_fscriptTr (by decide) (by decide +kernel) (by decide +kernel)

example : ∃ (f : FState 8 Nat Nat) (pre post a b : Trace Nat Nat), FExec (demoC 1 true) (fscriptTr (demoC 1 true) calmDemo) f ∧
    fscriptTr (demoC 1 true) calmDemo = pre ++ post ∧ SendOver pre 2 ∧ pre = a ++ .queue (.deq 400 2) :: b ∧ .queue (.wake 400 2 22) ∈ b ∧
    .api (.retSend 2 .timeout) ∉ fscriptTr (demoC 1 true) calmDemo ∧ ∀ o, .queue (.deq o 2) ∉ a ++ b := by
  obtain ⟨f, hf⟩ := calmDemo_run true
  refine ⟨f, (fscriptTr (demoC 1 true) calmDemo).take 46, (fscriptTr (demoC 1 true) calmDemo).drop 46, (fscriptTr (demoC 1 true) calmDemo).take 33,
    ((fscriptTr (demoC 1 true) calmDemo).take 46).drop 34, hf.exec, by decide +kernel, .inl ⟨.ok 102, by decide +kernel⟩, by decide +kernel, by decide +kernel,
    by decide +kernel, fun o ho => ?_⟩
  have : ((fscriptTr (demoC 1 true) calmDemo).take 33 ++ ((fscriptTr (demoC 1 true) calmDemo).take 46).drop 34).all
      (fun | .queue (.deq _ _) => false | _ => true) = true := by decide +kernel
  simpa using List.all_eq_true.1 this _ ho

/-- **C28 is false** (`List::dequeue`, `src/wait/queue.rs:576-599`, publishes `WAKING` before it is done with the node, and `Waiter::remove`, lines 474-486, returns without the
lock if the node is not `WAITING`). The future of send call 2, which waits, is dropped while another thread drops a `RecvRef`; after the drop of the future has returned, the other
thread accesses its memory. -/
theorem C28_false_if_cancelled : ∃ (tr pre post : Trace Nat Nat) (f : FState 8 Nat Nat), FRun (demoC 1 false) tr f ∧
    tr = pre ++ .queue (.touch (.op 400) 2) :: post ∧ .api (.cancelled 2) ∈ pre := by
  obtain ⟨f, hf⟩ : ∃ f : FState 8 Nat Nat, FRun (demoC 1 false) (fscriptTr (demoC 1 false) gapCancel) f :=
    FRun.of_fscriptTr (by decide) (by decide +kernel) (by decide +kernel)
  exact ⟨_, (fscriptTr (demoC 1 false) gapCancel).take 38, (fscriptTr (demoC 1 false) gapCancel).drop 39, f, hf, by decide +kernel, by decide +kernel⟩

/-- **C28 is false**, without any cancellation, for both channels (`continue_wait`, `src/wait/queue.rs:301-319`, returns without the lock if the node is `WAKING`): send call 2,
which waits, is polled, or its thread is unparked, for another reason while another thread drops a `RecvRef`; it sends its message and returns; then the other thread accesses
its node. -/
theorem C28_false_if_polled (blocking : Bool) : ∃ (tr pre post : Trace Nat Nat) (f : FState 8 Nat Nat), FRun (demoC 1 blocking) tr f ∧
    tr = pre ++ .queue (.touch (.op 400) 2) :: post ∧ .api (.retSend 2 (.ok 102)) ∈ pre ∧ ∀ k, .api (.cancel k) ∉ tr := by
  obtain ⟨f, hf⟩ : ∃ f : FState 8 Nat Nat, FRun (demoC 1 blocking) (fscriptTr (demoC 1 blocking) gapSend) f := by
    cases blocking <;> exact FRun.of_fscriptTr (by decide) (by decide +kernel) (by decide +kernel)
  refine ⟨_, (fscriptTr (demoC 1 blocking) gapSend).take 42, (fscriptTr (demoC 1 blocking) gapSend).drop 43, f, hf, by cases blocking <;> decide +kernel,
    by cases blocking <;> decide +kernel, fun k hk => ?_⟩
  have : (fscriptTr (demoC 1 blocking) gapSend).all (fun | .api (.cancel _) => false | _ => true) = true := by cases blocking <;> decide +kernel
  simpa using List.all_eq_true.1 this _ hk

/-- **C28 is false**, too, when the `Receiver` is dropped (`WaitQueue::close`, `src/wait/queue.rs:444-452`). -/
theorem C28_false_if_closed (blocking : Bool) : ∃ (tr pre post : Trace Nat Nat) (f : FState 8 Nat Nat), FRun (demoC 1 blocking) tr f ∧
    tr = pre ++ .queue (.touch (.op 400) 2) :: post ∧ .api (.retSend 2 .closed) ∈ pre ∧ ∀ k, .api (.cancel k) ∉ tr := by
  obtain ⟨f, hf⟩ : ∃ f : FState 8 Nat Nat, FRun (demoC 1 blocking) (fscriptTr (demoC 1 blocking) gapClose) f := by
    cases blocking <;> exact FRun.of_fscriptTr (by decide) (by decide +kernel) (by decide +kernel)
  refine ⟨_, (fscriptTr (demoC 1 blocking) gapClose).take 35, (fscriptTr (demoC 1 blocking) gapClose).drop 36, f, hf, by cases blocking <;> decide +kernel,
    by cases blocking <;> decide +kernel, fun k hk => ?_⟩
  have : (fscriptTr (demoC 1 blocking) gapClose).all (fun | .api (.cancel _) => false | _ => true) = true := by cases blocking <;> decide +kernel
  simpa using List.all_eq_true.1 this _ hk

/-- **C28 is false**, and so is C29, for a `send_timeout` (`src/mpsc/blocking.rs:1746-1752`, returns without taking its node out of the list): call 2 waits and times out;
later, with no other call under way, a `RecvRef` is dropped, and its drop accesses the node of call 2, which was in the stack frame that is gone. -/
theorem C28_false_if_timed_out : ∃ (tr pre mid post : Trace Nat Nat) (f : FState 8 Nat Nat), FRun (demoC 1 true) tr f ∧
    tr = pre ++ .api (.dropRecv 102) :: (mid ++ .queue (.touch (.op 300) 2) :: post) ∧ .api (.retSend 2 .timeout) ∈ pre ∧
    (∀ b, .api (.dropRecv b) ∉ pre) ∧ ∀ k, .api (.cancel k) ∉ tr := by
  obtain ⟨f, hf⟩ : ∃ f : FState 8 Nat Nat, FRun (demoC 1 true) (fscriptTr (demoC 1 true) timeoutDemo) f :=
    FRun.of_fscriptTr (by decide) (by decide +kernel) (by decide +kernel)
  let t := fscriptTr (demoC 1 true) timeoutDemo
  have hno : t.all (fun | .api (.cancel _) => false | _ => true) = true := by decide +kernel
  have hd : (t.takeWhile fun e => e != .api (.dropRecv 102)).all (fun | .api (.dropRecv _) => false | _ => true) = true := by decide +kernel
  refine ⟨t, t.takeWhile fun e => e != .api (.dropRecv 102), ((t.dropWhile fun e => e != .api (.dropRecv 102)).drop 1).takeWhile fun e => e != .queue (.touch (.op 300) 2),
    (t.dropWhile fun e => e != .queue (.touch (.op 300) 2)).drop 1, f, hf, by decide +kernel, by decide +kernel, fun b hb => ?_, fun k hk => ?_⟩
  · simpa using List.all_eq_true.1 hd _ hb
  · simpa using List.all_eq_true.1 hno _ hk

/-! ## What the other files prove, with the two-step dequeue -/

/-- **C03** -/
theorem C03_try_send_full_fine (h : FRun c tr f) {pre post : Trace V W} {k : Nat} (htr : tr = pre ++ .api (.retSend k .full) :: post) :
    nRes (coreOf pre) = nDeq (coreOf pre) + c.cap := by
  obtain ⟨tr', h1, hq⟩ := h.sim
  obtain ⟨pre', post', h2, h3, -⟩ := quiet_split (e := .api (.retSend k .full)) rfl (htr ▸ hq)
  rw [← coreOf_congr h3]
  exact C03_try_send_full h1 h2

/-- **C04** -/
theorem C04_try_recv_empty_fine (h : FRun c tr f) {pre mid post : Trace V W}
    (htr : tr = pre ++ .api .callTry :: (mid ++ .api (.retTry .empty) :: post)) (hm : .api .callTry ∉ mid) :
    ∃ m, m <+: mid ∧ ((IsEmpty (coreOf (pre ++ .api .callTry :: m)) ∧ ¬ Closed (coreOf (pre ++ .api .callTry :: m))) ∨ OldestUncommitted (coreOf (pre ++ .api .callTry :: m))) := by
  obtain ⟨tr', h1, hq⟩ := h.sim
  obtain ⟨pre', rest', h2, h3, h4⟩ := quiet_split (e := .api .callTry) rfl (htr ▸ hq)
  obtain ⟨mid', post', rfl, h5, -⟩ := quiet_split (e := .api (.retTry .empty)) rfl h4
  obtain ⟨m', ⟨r', h6⟩, h7⟩ := C04_try_recv_empty h1 h2 (fun hc => hm ((mem_of_quiet h5 rfl).1 hc))
  obtain ⟨m, r, h8, h9, -⟩ := quiet_append_split (t := mid) (a := m') (b := r') (by rw [h6, h5])
  refine ⟨m, ⟨r, h8.symm⟩, ?_⟩
  have : coreOf (pre ++ .api .callTry :: m) = coreOf (pre' ++ .api .callTry :: m') :=
    coreOf_congr (by rw [quiet_append, quiet_append, quiet_cons rfl, quiet_cons rfl, h3, h9])
  rw [this]
  exact h7

/-- **C04** -/
theorem C04_poll_pending_fine (h : FRun c tr f) {pre mid post : Trace V W} {v : W}
    (htr : tr = pre ++ .api (.callPoll v) :: (mid ++ .api (.retPoll .pending) :: post)) (hm : ∀ u, .api (.callPoll u) ∉ mid) :
    ∃ m, m <+: mid ∧ ((IsEmpty (coreOf (pre ++ .api (.callPoll v) :: m)) ∧ ¬ Closed (coreOf (pre ++ .api (.callPoll v) :: m))) ∨ OldestUncommitted (coreOf (pre ++ .api (.callPoll v) :: m))) := by
  obtain ⟨tr', h1, hq⟩ := h.sim
  obtain ⟨pre', rest', h2, h3, h4⟩ := quiet_split (e := .api (.callPoll v)) rfl (htr ▸ hq)
  obtain ⟨mid', post', rfl, h5, -⟩ := quiet_split (e := .api (.retPoll .pending)) rfl h4
  obtain ⟨m', ⟨r', h6⟩, h7⟩ := C04_poll_pending h1 h2 (fun u hc => hm u ((mem_of_quiet h5 rfl).1 hc))
  obtain ⟨m, r, h8, h9, -⟩ := quiet_append_split (t := mid) (a := m') (b := r') (by rw [h6, h5])
  refine ⟨m, ⟨r, h8.symm⟩, ?_⟩
  have : coreOf (pre ++ .api (.callPoll v) :: m) = coreOf (pre' ++ .api (.callPoll v) :: m') :=
    coreOf_congr (by rw [quiet_append, quiet_append, quiet_cons rfl, quiet_cons rfl, h3, h9])
  rw [this]
  exact h7

/-- A poll and its result, in a trace that differs in accesses to memory only. -/
theorem quiet_poll {tr' pre mid post : Trace V W} {v : W} {r : PollRes}
    (h : quiet tr' = quiet (pre ++ .api (.callPoll v) :: mid ++ .api (.retPoll r) :: post)) :
    ∃ pre' mid' post', tr' = pre' ++ .api (.callPoll v) :: mid' ++ .api (.retPoll r) :: post' ∧ quiet pre' = quiet pre ∧ quiet mid' = quiet mid ∧
      quiet post' = quiet post := by
  obtain ⟨x, post', h1, h2, h3⟩ := quiet_split (e := .api (.retPoll r)) rfl h
  obtain ⟨pre', mid', h4, h5, h6⟩ := quiet_split (e := .api (.callPoll v)) rfl h2
  exact ⟨pre', mid', post', by rw [h1, h4], h5, h6, h3⟩

/-- **C31** -/
theorem C31_no_lost_wakeup_fine (h : FRun c tr f) {pre mid post : Trace V W} {v : W}
    (htr : tr = pre ++ .api (.callPoll v) :: mid ++ .api (.retPoll .pending) :: post)
    (hm : ∀ u, .api (.callPoll u) ∉ mid ∧ .api (.callPoll u) ∉ post) (hd : ∀ b, .api (.dropRx b) ∉ tr)
    (hq : ∀ k, ¬ SendEnding tr k) (hq' : ¬ LastTxEnding tr) (ho : OldestSent tr) : ∃ d, .cell (.wake d v) ∈ mid ++ post := by
  obtain ⟨tr', h1, he⟩ := h.sim
  obtain ⟨pre', mid', post', h2, h3, h4, h5⟩ := quiet_poll (htr ▸ he)
  obtain ⟨d, hw⟩ := C31_no_lost_wakeup h1 h2 (fun u => ⟨fun hc => (hm u).1 ((mem_of_quiet h4 rfl).1 hc), fun hc => (hm u).2 ((mem_of_quiet h5 rfl).1 hc)⟩)
    (fun b hc => hd b ((mem_of_quiet he rfl).1 hc)) (fun k hc => hq k (hc.congr he)) (fun hc => hq' (hc.congr he)) (ho.congr he.symm)
  exact ⟨d, (mem_of_quiet (by rw [quiet_append, quiet_append, h4, h5]) rfl).1 hw⟩

/-- **C32** (partial: as `C32_sleeper_has_message_partial`) -/
theorem C32_sleeper_has_message_fine_partial (h : FRun c tr f) {k : Nat} (hk : Asleep tr k) (hset : Settled tr) (hrx : ∀ pan, .api (.dropRx pan) ∉ tr)
    (hov : ∀ o, ¬ Queue.Overlapped (queueOf tr) o) (hw : ¬ WakeWasted tr) : ∃ a, InChannel tr a := by
  obtain ⟨tr', h1, he⟩ := h.sim
  obtain ⟨a, ha⟩ := C32_sleeper_has_message_partial h1 (hk.congr he.symm) (hset.congr he.symm) (fun p hc => hrx p ((mem_of_quiet he rfl).1 hc))
    (fun o hc => hov o (hc.congr (queueOf_congr he))) (fun hc => hw (hc.congr he))
  exact ⟨a, ha.congr he⟩

/-- **C32** (partial: as `C32_one_drop_at_a_time_partial`) -/
theorem C32_one_drop_at_a_time_fine_partial (h : FRun c tr f) {k : Nat} (hk : Asleep tr k) (hset : Settled tr) (hrx : ∀ pan, .api (.dropRx pan) ∉ tr)
    (h1 : OneDrop tr) (hn : ∀ k, .api (.cancel k) ∉ tr) (ht : ∀ k, .api (.retSend k .timeout) ∉ tr) : ∃ a, InChannel tr a := by
  obtain ⟨tr', h2, he⟩ := h.sim
  obtain ⟨a, ha⟩ := C32_one_drop_at_a_time_partial h2 (hk.congr he.symm) (hset.congr he.symm) (fun p hc => hrx p ((mem_of_quiet he rfl).1 hc))
    (h1.congr he.symm) (fun k hc => hn k ((mem_of_quiet he rfl).1 hc)) (fun k hc => ht k ((mem_of_quiet he rfl).1 hc))
  exact ⟨a, ha.congr he⟩

/-- **C32** (partial: as `C32_blocking_partial`) -/
theorem C32_blocking_fine_partial (h : FRun c tr f) (hb : c.blocking = true) {k : Nat} (hk : Asleep tr k) (hset : Settled tr) (hrx : ∀ pan, .api (.dropRx pan) ∉ tr)
    (h1 : OneDrop tr) (ht : ∀ k, .api (.retSend k .timeout) ∉ tr) : ∃ a, InChannel tr a := by
  obtain ⟨tr', h2, he⟩ := h.sim
  obtain ⟨a, ha⟩ := C32_blocking_partial h2 hb (hk.congr he.symm) (hset.congr he.symm) (fun p hc => hrx p ((mem_of_quiet he rfl).1 hc)) (h1.congr he.symm)
    (fun k hc => ht k ((mem_of_quiet he rfl).1 hc))
  exact ⟨a, ha.congr he⟩

/-- **C32** (partial: as `C32_async_partial`) -/
theorem C32_async_fine_partial (h : FRun c tr f) (hb : c.blocking = false) {k : Nat} (hk : Asleep tr k) (hset : Settled tr) (hrx : ∀ pan, .api (.dropRx pan) ∉ tr)
    (h1 : OneDrop tr) (hn : ∀ k, .api (.cancel k) ∉ tr) : ∃ a, InChannel tr a := by
  obtain ⟨tr', h2, he⟩ := h.sim
  obtain ⟨a, ha⟩ := C32_async_partial h2 hb (hk.congr he.symm) (hset.congr he.symm) (fun p hc => hrx p ((mem_of_quiet he rfl).1 hc)) (h1.congr he.symm)
    (fun k hc => hn k ((mem_of_quiet he rfl).1 hc))
  exact ⟨a, ha.congr he⟩

/-- **C32** (partial: as `C32_receipt_wakes_partial`) -/
theorem C32_receipt_wakes_fine_partial (h : FExec c tr f) {pre post : Trace V W} {b : OpId} {k : Nat} (htr : tr = pre ++ .api (.dropRecv b) :: post) (hk : Asleep pre k)
    (hc : .api (.cancel k) ∉ post) (hre : ∀ a, ¬ RecvEnding tr a) (hrx : ∀ pan, .api (.dropRx pan) ∉ tr) (hov : ∀ o, ¬ Queue.Overlapped (queueOf tr) o) :
    ∃ o n v, .queue (.wake o n v) ∈ post := by
  obtain ⟨tr', h1, he⟩ := h.sim
  obtain ⟨pre', post', h2, h3, h4⟩ := quiet_split (e := .api (.dropRecv b)) rfl (htr ▸ he)
  obtain ⟨o, n, v, hw⟩ := C32_receipt_wakes_partial h1 h2 (hk.congr h3.symm) (fun hx => hc ((mem_of_quiet h4 rfl).1 hx)) (fun a hx => hre a (hx.congr he))
    (fun p hx => hrx p ((mem_of_quiet he rfl).1 hx)) (fun o hx => hov o (hx.congr (queueOf_congr he)))
  exact ⟨o, n, v, (mem_of_quiet h4 rfl).1 hw⟩

/-- **C33** -/
theorem C33_closed_truthful_fine (h : FRun c tr f) {k : Nat} {pre post : Trace V W} (htr : tr = pre ++ .api (.retSend k .closed) :: post) :
    ∃ pan, .api (.dropRx pan) ∈ pre := by
  obtain ⟨tr', h1, he⟩ := h.sim
  obtain ⟨pre', post', h2, h3, -⟩ := quiet_split (e := .api (.retSend k .closed)) rfl (htr ▸ he)
  obtain ⟨pan, hp⟩ := C33_closed_truthful h1 h2
  exact ⟨pan, (mem_of_quiet h3 rfl).1 hp⟩

/-- **C33** (partial: as `C33_closed_after_drop_partial`) -/
theorem C33_closed_after_drop_fine_partial (h : FRun c tr f) {pre post : Trace V W} (htr : tr = pre ++ .api .rxDropped :: post)
    (hp : .api (.dropRx true) ∉ tr) {k x : Nat} {wait : Bool} (hk : .api (.callSend k x wait) ∈ post) :
    (∀ r, .api (.retSend k r) ∈ tr → r = .closed) ∧ .api (.sleep k) ∉ tr := by
  obtain ⟨tr', h1, he⟩ := h.sim
  obtain ⟨pre', post', h2, h3, h4⟩ := quiet_split (e := .api .rxDropped) rfl (htr ▸ he)
  obtain ⟨h5, h6⟩ := C33_closed_after_drop_partial h1 h2 (fun hc => hp ((mem_of_quiet he rfl).1 hc)) ((mem_of_quiet h4 rfl).2 hk)
  exact ⟨fun r hr => h5 r ((mem_of_quiet he rfl).2 hr), fun hs => h6 ((mem_of_quiet he rfl).2 hs)⟩

/-- A sleep and the end of the drop of the `Receiver`, in a trace that differs in accesses to memory only. -/
theorem quiet_sleep {tr' pre mid post : Trace V W} {k : Nat} (h : quiet tr' = quiet (pre ++ .api (.sleep k) :: mid ++ .api .rxDropped :: post)) :
    ∃ pre' mid' post', tr' = pre' ++ .api (.sleep k) :: mid' ++ .api .rxDropped :: post' ∧ quiet mid' = quiet mid := by
  obtain ⟨x, post', h1, h2, h3⟩ := quiet_split (e := .api .rxDropped) rfl h
  obtain ⟨pre', mid', h4, h5, h6⟩ := quiet_split (e := .api (.sleep k)) rfl h2
  exact ⟨pre', mid', post', by rw [h1, h4], h6⟩

/-- **C33** (partial: as `C33_waiting_gets_closed_partial`) -/
theorem C33_waiting_gets_closed_fine_partial (h : FRun c tr f) {pre mid post : Trace V W} {k : Nat}
    (htr : tr = pre ++ .api (.sleep k) :: mid ++ .api .rxDropped :: post) (hp : .api (.dropRx true) ∉ tr)
    (hc : ∀ v, .queue (.callCont k v) ∉ mid) {r : SendRes} (hr : .api (.retSend k r) ∈ tr) :
    r = .closed ∨ (r = .timeout ∧ c.blocking = true) := by
  obtain ⟨tr', h1, he⟩ := h.sim
  obtain ⟨pre', mid', post', h2, h3⟩ := quiet_sleep (htr ▸ he)
  exact C33_waiting_gets_closed_partial h1 h2 (fun hx => hp ((mem_of_quiet he rfl).1 hx)) (fun v hx => hc v ((mem_of_quiet h3 rfl).1 hx))
    ((mem_of_quiet he rfl).2 hr)

/-- **C33** (partial: as `C33_waiters_woken_partial`) -/
theorem C33_waiters_woken_fine_partial (h : FRun c tr f) {pre mid post : Trace V W} {k : Nat}
    (htr : tr = pre ++ .api (.sleep k) :: mid ++ .api .rxDropped :: post) (hp : .api (.dropRx true) ∉ tr)
    (hc : ∀ v, .queue (.callCont k v) ∉ mid) (hcan : .api (.cancel k) ∉ mid) (hto : .api (.retSend k .timeout) ∉ mid) :
    ∃ o v, .queue (.wake o k v) ∈ mid := by
  obtain ⟨tr', h1, he⟩ := h.sim
  obtain ⟨pre', mid', post', h2, h3⟩ := quiet_sleep (htr ▸ he)
  obtain ⟨o, v, hw⟩ := C33_waiters_woken_partial h1 h2 (fun hx => hp ((mem_of_quiet he rfl).1 hx)) (fun v hx => hc v ((mem_of_quiet h3 rfl).1 hx))
    (fun hx => hcan ((mem_of_quiet h3 rfl).1 hx)) (fun hx => hto ((mem_of_quiet h3 rfl).1 hx))
  exact ⟨o, v, (mem_of_quiet h3 rfl).1 hw⟩

/-- **C34** -/
theorem C34_none_only_if_senders_dropped_fine (h : FRun c tr f) {pre post : Trace V W} (htr : tr = pre ++ .api (.retPoll .none) :: post) :
    senders pre = [] := by
  obtain ⟨tr', h1, he⟩ := h.sim
  obtain ⟨pre', post', h2, h3, -⟩ := quiet_split (e := .api (.retPoll .none)) rfl (htr ▸ he)
  rw [← senders_congr h3]
  exact C34_none_only_if_senders_dropped h1 h2

/-- **C34** (partial: as `C34_none_means_drained_partial`) -/
theorem C34_none_means_drained_fine_partial (h : FRun c tr f) {pre post : Trace V W} (htr : tr = pre ++ .api (.retPoll .none) :: post)
    (hl : NoLoss pre) {k : Nat} {a : OpId} (hk : .api (.retSend k (.ok a)) ∈ pre) : Received pre a := by
  obtain ⟨tr', h1, he⟩ := h.sim
  obtain ⟨pre', post', h2, h3, -⟩ := quiet_split (e := .api (.retPoll .none)) rfl (htr ▸ he)
  exact (C34_none_means_drained_partial h1 h2 (hl.congr h3.symm) ((mem_of_quiet h3 rfl).2 hk)).congr h3

/-- **C34** -/
theorem C34_try_recv_closed_fine (h : FRun c tr f) {pre post : Trace V W} (htr : tr = pre ++ .api (.retTry .closed) :: post) :
    senders pre = [] ∧ ∀ k a, .api (.retSend k (.ok a)) ∈ pre → Received pre a := by
  obtain ⟨tr', h1, he⟩ := h.sim
  obtain ⟨pre', post', h2, h3, -⟩ := quiet_split (e := .api (.retTry .closed)) rfl (htr ▸ he)
  obtain ⟨h4, h5⟩ := C34_try_recv_closed h1 h2
  exact ⟨by rw [← senders_congr h3, h4], fun k a hk => (h5 k a ((mem_of_quiet h3 rfl).2 hk)).congr h3⟩

/-- **C34** (partial: as `C34_woken_by_last_drop_partial`) -/
theorem C34_woken_by_last_drop_fine_partial (h : FRun c tr f) {pre mid post : Trace V W} {v : W}
    (htr : tr = pre ++ .api (.callPoll v) :: mid ++ .api (.retPoll .pending) :: post)
    (hm : ∀ u, .api (.callPoll u) ∉ mid ∧ .api (.callPoll u) ∉ post) (hd : ∀ b, .api (.dropRx b) ∉ tr)
    (hl : .api .lastTxDropped ∈ tr) (hb : c.blocking = false ∨ LastDrop tr false) : ∃ d, .cell (.wake d v) ∈ mid ++ post := by
  obtain ⟨tr', h1, he⟩ := h.sim
  obtain ⟨pre', mid', post', h2, h3, h4, h5⟩ := quiet_poll (htr ▸ he)
  obtain ⟨d, hw⟩ := C34_woken_by_last_drop_partial h1 h2
    (fun u => ⟨fun hc => (hm u).1 ((mem_of_quiet h4 rfl).1 hc), fun hc => (hm u).2 ((mem_of_quiet h5 rfl).1 hc)⟩)
    (fun b hc => hd b ((mem_of_quiet he rfl).1 hc)) ((mem_of_quiet he rfl).2 hl) (hb.imp_right (·.congr he.symm))
  exact ⟨d, (mem_of_quiet (by rw [quiet_append, quiet_append, h4, h5]) rfl).1 hw⟩

/-- **C34** (partial: as `C34_never_pending_partial`) -/
theorem C34_never_pending_fine_partial (h : FRun c tr f) {pre mid post : Trace V W} {v : W} {r : PollRes}
    (htr : tr = pre ++ .api (.callPoll v) :: mid ++ .api (.retPoll r) :: post)
    (hm : ∀ u, .api (.callPoll u) ∉ mid) (hl : .api .lastTxDropped ∈ pre) (hb : c.blocking = false ∨ LastDrop tr false) : r ≠ .pending := by
  obtain ⟨tr', h1, he⟩ := h.sim
  obtain ⟨pre', mid', post', h2, h3, h4, h5⟩ := quiet_poll (htr ▸ he)
  exact C34_never_pending_partial h1 h2 (fun u hc => hm u ((mem_of_quiet h4 rfl).1 hc)) ((mem_of_quiet h3 rfl).2 hl) (hb.imp_right (·.congr he.symm))

/-- **C34** (partial: as `C34_drained_returns_none_partial`) -/
theorem C34_drained_returns_none_fine_partial (h : FRun c tr f) {pre mid post : Trace V W} {v : W} {r : PollRes}
    (htr : tr = pre ++ .api (.callPoll v) :: mid ++ .api (.retPoll r) :: post)
    (hm : ∀ u, .api (.callPoll u) ∉ mid) (hl : .api .lastTxDropped ∈ pre) (hb : c.blocking = false ∨ LastDrop tr false)
    (hr : ∀ k a, .api (.retSend k (.ok a)) ∈ pre → Received pre a) : r = .none := by
  obtain ⟨tr', h1, he⟩ := h.sim
  obtain ⟨pre', mid', post', h2, h3, h4, h5⟩ := quiet_poll (htr ▸ he)
  exact C34_drained_returns_none_partial h1 h2 (fun u hc => hm u ((mem_of_quiet h4 rfl).1 hc)) ((mem_of_quiet h3 rfl).2 hl) (hb.imp_right (·.congr he.symm))
    (fun k a hk => (hr k a ((mem_of_quiet h3 rfl).1 hk)).congr h3.symm)

/-- **C45** -/
theorem C45_cancelled_sends_nothing_fine (h : FRun c tr f) {k : Nat} (hc : .api (.cancel k) ∈ tr) {a : OpId}
    (ha : .api (.attempt k a) ∈ tr) : a ∉ resOps (coreOf tr) := by
  obtain ⟨tr', h1, he⟩ := h.sim
  rw [← coreOf_congr he]
  exact C45_cancelled_sends_nothing h1 ((mem_of_quiet he rfl).2 hc) ((mem_of_quiet he rfl).2 ha)

/-- **C45** -/
theorem C45_timed_out_sends_nothing_fine (h : FRun c tr f) {k : Nat} (hc : .api (.retSend k .timeout) ∈ tr) {a : OpId}
    (ha : .api (.attempt k a) ∈ tr) : a ∉ resOps (coreOf tr) := by
  obtain ⟨tr', h1, he⟩ := h.sim
  rw [← coreOf_congr he]
  exact C45_timed_out_sends_nothing h1 ((mem_of_quiet he rfl).2 hc) ((mem_of_quiet he rfl).2 ha)

/-- **C45** -/
theorem C45_one_message_per_send_fine (h : FRun c tr f) {a : OpId} (ha : a ∈ resOps (coreOf tr)) :
    ∃ k, .api (.attempt k a) ∈ tr ∧ (∀ k', .api (.attempt k' a) ∈ tr → k' = k) ∧
      (∀ b ∈ resOps (coreOf tr), .api (.attempt k b) ∈ tr → b = a) ∧ .api (.cancel k) ∉ tr ∧
      ∀ r, .api (.retSend k r) ∈ tr → r = .ok a ∨ r = .panicked := by
  obtain ⟨tr', h1, he⟩ := h.sim
  rw [← coreOf_congr he] at ha ⊢
  obtain ⟨k, h2, h3, h4, h5, h6⟩ := C45_one_message_per_send h1 ha
  exact ⟨k, (mem_of_quiet he rfl).1 h2, fun k' hk => h3 k' ((mem_of_quiet he rfl).2 hk), fun b hb hk => h4 b hb ((mem_of_quiet he rfl).2 hk),
    fun hk => h5 ((mem_of_quiet he rfl).2 hk), fun r hk => h6 r ((mem_of_quiet he rfl).2 hk)⟩

/-- **C45** -/
theorem C45_nothing_taken_is_lost_fine (h : FRun c tr f) : deqOps (coreOf tr) = received tr := by
  obtain ⟨tr', h1, he⟩ := h.sim
  rw [← coreOf_congr he, ← received_congr he]
  exact C45_nothing_taken_is_lost h1

/-- **C45** -/
theorem C45_received_fine (h : FRun c tr f) {i : Nat} {b : OpId} (hb : (received tr)[i]? = some b) :
    ∃ a k x slot, (resOps (coreOf tr))[i]? = some a ∧ .api (.retSend k (.ok a)) ∈ tr ∧ .api (.dropSend k) ∈ tr ∧
      .api (.cancel k) ∉ tr ∧ sent (coreOf tr) a = some x ∧ .core (.dequeue b slot (some x)) ∈ tr := by
  obtain ⟨tr', h1, he⟩ := h.sim
  rw [← received_congr he] at hb
  obtain ⟨a, k, x, slot, h2, h3, h4, h5, h6, h7⟩ := C45_received h1 hb
  rw [coreOf_congr he] at h2 h6
  exact ⟨a, k, x, slot, h2, (mem_of_quiet he rfl).1 h3, (mem_of_quiet he rfl).1 h4, fun hk => h5 ((mem_of_quiet he rfl).2 hk), h6, (mem_of_quiet he rfl).1 h7⟩

/-- **C46** (partial: as `C46_waits_when_full_partial`) -/
theorem C46_waits_when_full_fine_partial (h : FExec c tr f) (hb : c.blocking = true) {k : Nat} {a b : OpId} {pre mid post : Trace V W}
    (htr : tr = pre ++ .api (.attempt k a) :: (mid ++ .api (.attempt k b) :: post)) (hm : ∀ x, .api (.attempt k x) ∉ mid)
    (hn : .queue (.retCont k .notified) ∉ pre) :
    .queue (.retStart k .notified) ∈ mid ∨
      (.api (.sleep k) ∈ mid ∧ ∃ o, .queue (.deq o k) ∈ mid ∧ .queue (.callNotify o) ∈ pre ++ mid) := by
  obtain ⟨tr', h1, he⟩ := h.sim
  obtain ⟨pre', rest', h2, h3, h4⟩ := quiet_split (e := .api (.attempt k a)) rfl (htr ▸ he)
  obtain ⟨mid', post', rfl, h5, -⟩ := quiet_split (e := .api (.attempt k b)) rfl h4
  have h6 : quiet (pre' ++ mid') = quiet (pre ++ mid) := by rw [quiet_append, quiet_append, h3, h5]
  rcases C46_waits_when_full_partial h1 hb h2 (fun x hc => hm x ((mem_of_quiet h5 rfl).1 hc)) (fun hc => hn ((mem_of_quiet h3 rfl).1 hc)) with
    h7 | ⟨h7, o, h8, h9⟩
  · exact .inl ((mem_of_quiet h5 rfl).1 h7)
  · exact .inr ⟨(mem_of_quiet h5 rfl).1 h7, o, (mem_of_quiet h5 rfl).1 h8, (mem_of_quiet h6 rfl).1 h9⟩

/-- **C46** -/
theorem C46_never_waits_again_fine (h : FExec c tr f) (hb : c.blocking = true) {k : Nat} {pre post : Trace V W}
    (htr : tr = pre ++ .queue (.retCont k .notified) :: post) : .api (.sleep k) ∉ post ∧ ∀ v, .queue (.enq k v) ∉ post := by
  obtain ⟨tr', h1, he⟩ := h.sim
  obtain ⟨pre', post', h2, -, h3⟩ := quiet_split (e := .queue (.retCont k .notified)) rfl (htr ▸ he)
  obtain ⟨h4, h5⟩ := C46_never_waits_again h1 hb h2
  exact ⟨fun hc => h4 ((mem_of_quiet h3 rfl).2 hc), fun v hc => h5 v ((mem_of_quiet h3 rfl).2 hc)⟩

/-- **C48** -/
theorem C48_send_never_full_fine (h : FRun c tr f) {k x : Nat} {wait : Bool} (hf : .api (.retSend k .full) ∈ tr) (hc : .api (.callSend k x wait) ∈ tr) :
    wait = false := by
  obtain ⟨tr', h1, he⟩ := h.sim
  exact C48_send_never_full h1 ((mem_of_quiet he rfl).2 hf) ((mem_of_quiet he rfl).2 hc)

/-- **C48** -/
theorem C48_try_send_never_sleeps_fine (h : FRun c tr f) {k x : Nat} {wait : Bool} (hf : .api (.sleep k) ∈ tr) (hc : .api (.callSend k x wait) ∈ tr) :
    wait = true := by
  obtain ⟨tr', h1, he⟩ := h.sim
  exact C48_try_send_never_sleeps h1 ((mem_of_quiet he rfl).2 hf) ((mem_of_quiet he rfl).2 hc)

/-- **C48** -/
theorem C48_send_has_slot_fine (h : FRun c tr f) {k : Nat} {a : OpId} (hk : .api (.retSend k (.ok a)) ∈ tr) :
    (resOps (coreOf tr)).Nodup ∧ a ∈ resOps (coreOf tr) ∧ ∀ j, .api (.retSend j (.ok a)) ∈ tr → j = k := by
  obtain ⟨tr', h1, he⟩ := h.sim
  rw [← coreOf_congr he]
  obtain ⟨h2, h3, h4⟩ := C48_send_has_slot h1 ((mem_of_quiet he rfl).2 hk)
  exact ⟨h2, h3, fun j hj => h4 j ((mem_of_quiet he rfl).2 hj)⟩

/-! ### C49 -/

/-- **C49** -/
theorem C49_drop_send_ref_wait_free_fine (h : FExec c tr f) {k : Nat} (hk : SendEnding tr k) {acts : List (Act V W)} {f' : FState w V W} {evs : Trace V W}
    (hr : frunActs c f acts = some (f', evs)) (hn : 6 ≤ acts.countP (sendEndAct k)) : .api (.dropSendEnd k) ∈ evs := by
  obtain ⟨tr', h1, he⟩ := h.sim
  obtain ⟨acts', evs', h2, h3, h4⟩ := h.frun_sim hr
  exact (mem_of_quiet h3 rfl).1 (C49_drop_send_ref_wait_free h1 (hk.congr he.symm) h2 (by rw [h4 _ (fun _ _ => rfl) (fun _ _ => rfl)]; exact hn))

/-- **C49** -/
theorem C49_last_drop_wait_free_fine (h : FExec c tr f) (hl : LastTxEnding tr) {acts : List (Act V W)} {f' : FState w V W} {evs : Trace V W}
    (hr : frunActs c f acts = some (f', evs)) (hn : 8 ≤ acts.countP closerAct) : .api .lastTxDropped ∈ evs := by
  obtain ⟨tr', h1, he⟩ := h.sim
  obtain ⟨acts', evs', h2, h3, h4⟩ := h.frun_sim hr
  exact (mem_of_quiet h3 rfl).1 (C49_last_drop_wait_free h1 (hl.congr he.symm) h2 (by rw [h4 _ (fun _ _ => rfl) (fun _ _ => rfl)]; exact hn))

/-- **C49** -/
theorem C49_drop_recv_ref_can_end_fine (h : FExec c tr f) {a : OpId} (ha : RecvEnding tr a) :
    ∃ (acts : List (Act V W)) (f' : FState w V W) (evs : Trace V W), acts.all Act.goesOn = true ∧ frunActs c f acts = some (f', evs) ∧
      .api (.dropRecvEnd a) ∈ evs := by
  obtain ⟨tr', h1, he⟩ := h.sim
  obtain ⟨acts, s', evs, h2, h3, h4⟩ := C49_drop_recv_ref_can_end h1 (ha.congr he.symm)
  obtain ⟨acts', evs', h5, h6, h7⟩ := h.follow h2 h3
  exact ⟨acts', _, evs', h5, h6, (mem_of_quiet h7.symm rfl).1 h4⟩

/-- **C49** -/
theorem C49_drop_receiver_can_end_fine (h : FRun c tr f) {pan : Bool} (hd : .api (.dropRx pan) ∈ tr) (hn : .api .rxDropped ∉ tr) :
    ∃ (acts : List (Act V W)) (f' : FState w V W) (evs : Trace V W), acts.all Act.goesOn = true ∧ frunActs c f acts = some (f', evs) ∧
      .api .rxDropped ∈ evs := by
  obtain ⟨tr', h1, he⟩ := h.sim
  obtain ⟨acts, s', evs, h2, h3, h4⟩ := C49_drop_receiver_can_end h1 ((mem_of_quiet he rfl).2 hd) (fun hc => hn ((mem_of_quiet he rfl).1 hc))
  obtain ⟨acts', evs', h5, h6, h7⟩ := h.exec.follow h2 h3
  exact ⟨acts', _, evs', h5, h6, (mem_of_quiet h7.symm rfl).1 h4⟩

/-- **C49** -/
theorem C49_cancel_can_end_fine (h : FExec c tr f) {k : Nat} (hc : .api (.cancel k) ∈ tr) (hn : .api (.cancelled k) ∉ tr) :
    ∃ (acts : List (Act V W)) (f' : FState w V W) (evs : Trace V W), acts.all Act.goesOn = true ∧ frunActs c f acts = some (f', evs) ∧
      .api (.cancelled k) ∈ evs := by
  obtain ⟨tr', h1, he⟩ := h.sim
  obtain ⟨acts, s', evs, h2, h3, h4⟩ := C49_cancel_can_end h1 ((mem_of_quiet he rfl).2 hc) (fun hx => hn ((mem_of_quiet he rfl).1 hx))
  obtain ⟨acts', evs', h5, h6, h7⟩ := h.follow h2 h3
  exact ⟨acts', _, evs', h5, h6, (mem_of_quiet h7.symm rfl).1 h4⟩

/-! ### The hypotheses are met

Every run of the channel with the one-step dequeue is one of this model, up to accesses to memory (`Run.fine`), so the examples beside the theorems of the other files are
examples here, too: each of the hypotheses carries over by the lemmas `….congr` of `ChanFineTrace`. Some that are in the gap of the dequeue: -/

theorem gapDemo_run (blocking : Bool) : ∃ f : FState 8 Nat Nat, FRun (demoC 1 blocking) (fscriptTr (demoC 1 blocking) gapDemo) f ∧ f.half = some (400, 2) := by
  have h : (fscript (demoC 1 blocking) (FState.init 8 Nat Nat) gapDemo).map (fun r => r.1.half) = some (some (400, 2)) := by cases blocking <;> decide +kernel
  obtain ⟨⟨f, tr⟩, hx, hh⟩ := Option.map_eq_some_iff.1 h
  have he : fscriptTr (demoC 1 blocking) gapDemo = tr := by simp [fscriptTr, hx]
  refine ⟨f, ⟨by cases blocking <;> decide, ?_, NoStall.of_few (by cases blocking <;> decide +kernel)⟩, hh⟩
  rw [he]
  simpa using FExec.init.fscript hx

/-- The drop of `RecvRef` 300 is in the gap: C49. -/
example (blocking : Bool) : (∃ f : FState 8 Nat Nat, FRun (demoC 1 blocking) (fscriptTr (demoC 1 blocking) gapDemo) f ∧ f.half = some (400, 2)) ∧
    RecvEnding (fscriptTr (demoC 1 blocking) gapDemo) 300 ∧ Asleep (fscriptTr (demoC 1 blocking) gapDemo) 2 := by
  refine ⟨gapDemo_run blocking, ⟨by cases blocking <;> decide +kernel, by cases blocking <;> decide +kernel⟩, asleepB_imp (by cases blocking <;> decide +kernel)⟩

/-- Send call 2 is polled in the gap, and two messages are received: C45, C46, C48. -/
example (blocking : Bool) : (∃ f : FState 8 Nat Nat, FRun (demoC 1 blocking) (fscriptTr (demoC 1 blocking) gapSend) f) ∧
    received (fscriptTr (demoC 1 blocking) gapSend) = [300] ∧ resOps (coreOf (fscriptTr (demoC 1 blocking) gapSend)) = [100, 102] ∧
    .queue (.retCont 2 .notified) ∈ fscriptTr (demoC 1 blocking) gapSend ∧ .api (.retSend 2 (.ok 102)) ∈ fscriptTr (demoC 1 blocking) gapSend := by
  refine ⟨?_, by cases blocking <;> decide +kernel, by cases blocking <;> decide +kernel, by cases blocking <;> decide +kernel, by cases blocking <;> decide +kernel⟩
  cases blocking <;> exact FRun.of_fscriptTr (by decide) (by decide +kernel) (by decide +kernel)

/-- Send call 2 is cancelled in the gap: C45. -/
example : (∃ f : FState 8 Nat Nat, FRun (demoC 1 false) (fscriptTr (demoC 1 false) gapCancel) f) ∧ .api (.cancel 2) ∈ fscriptTr (demoC 1 false) gapCancel ∧
    .api (.attempt 2 101) ∈ fscriptTr (demoC 1 false) gapCancel :=
  ⟨FRun.of_fscriptTr (by decide) (by decide +kernel) (by decide +kernel), by decide +kernel, by decide +kernel⟩

/-- Send call 2 is told in the gap that the channel is closed: C33. -/
example (blocking : Bool) : (∃ f : FState 8 Nat Nat, FRun (demoC 1 blocking) (fscriptTr (demoC 1 blocking) gapClose) f) ∧
    .api (.retSend 2 .closed) ∈ fscriptTr (demoC 1 blocking) gapClose ∧ .api .rxDropped ∈ fscriptTr (demoC 1 blocking) gapClose := by
  refine ⟨?_, by cases blocking <;> decide +kernel, by cases blocking <;> decide +kernel⟩
  cases blocking <;> exact FRun.of_fscriptTr (by decide) (by decide +kernel) (by decide +kernel)

end Thingbuf.Chan
