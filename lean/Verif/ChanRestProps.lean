import Verif.ChanRest

/-!
# C55: when everything sleeps, the work is done

`AtRest` and `RxAsleep` are in `ChanRest`, the rest of the vocabulary is in `ChanSpec`; they speak of events only.
-/

namespace Thingbuf.Chan

variable {w : Nat} {V W : Type} {c : Config W} {tr : Trace V W} {s : State w V W}

/-- **C55** Nothing is half way through and the receiver is asleep: then every message that was sent has been received. -/
theorem C55_all_delivered (h : Run c tr s) (hr : AtRest tr) (hd : ∀ b, .api (.dropRx b) ∉ tr) {v : W} (hv : RxAsleep tr v) {k : Nat} {a : OpId}
    (hk : .api (.retSend k (.ok a)) ∈ tr) : Received tr a :=
  Run.drained (l := []) (by simpa using h) (by simp) (by simp) (h.rest_empty hr hd hv) hk

/-- **C55**, partly: then no sender is asleep: receiver and senders do not wait for each other. Missing: the runs in which a send was cancelled or timed out, or `RecvRef`s were dropped
concurrently; the claim is false of them, see `C55_false_if_cancelled`, `C55_false_if_timed_out` and `C55_false_if_drops_overlap`. -/
theorem C55_no_deadlock_partial (h : Run c tr s) (hr : AtRest tr) (hd : ∀ b, .api (.dropRx b) ∉ tr) {v : W} (hv : RxAsleep tr v) (h1 : OneDrop tr)
    (hn : ∀ k, .api (.cancel k) ∉ tr) (ht : ∀ k, .api (.retSend k .timeout) ∉ tr) (k : Nat) : ¬ Asleep tr k := by
  intro hk
  obtain ⟨a, i, hi, ha⟩ := C32_one_drop_at_a_time_partial h hk hr.settled hd h1 hn ht
  have hlt : i < (received tr).length := by
    rw [h.exec.received]
    have := h.rest_empty hr hd hv
    have := (List.getElem?_eq_some_iff.1 hi).1
    change i < nRes _ at this
    change i < nDeq _
    omega
  have hb := List.getElem?_eq_getElem hlt
  have h2 := hr.read _ (List.mem_of_getElem? hb)
  refine ha _ hb ?_
  exact h.exec.recvEnd_began h2

/-- **C55**, partly: if a sender is asleep, the receiver is awake, and there is a message for it. Missing: as above. -/
theorem C55_sender_asleep_partial (h : Run c tr s) (hr : AtRest tr) (hd : ∀ b, .api (.dropRx b) ∉ tr) (h1 : OneDrop tr) (hn : ∀ k, .api (.cancel k) ∉ tr)
    (ht : ∀ k, .api (.retSend k .timeout) ∉ tr) {k : Nat} (hk : Asleep tr k) : OldestSent tr ∧ ∀ v, ¬ RxAsleep tr v := by
  refine ⟨?_, fun v hv => C55_no_deadlock_partial h hr hd hv h1 hn ht k hk⟩
  obtain ⟨a, i, hi, ha⟩ := C32_one_drop_at_a_time_partial h hk hr.settled hd h1 hn ht
  have hge : (received tr).length ≤ i := Nat.le_of_not_lt fun hlt => by
    have hb := List.getElem?_eq_getElem hlt
    exact ha _ hb (h.exec.recvEnd_began (hr.read _ (List.mem_of_getElem? hb)))
  have hlt : nDeq (coreOf tr) < (resOps (coreOf tr)).length := by
    rw [h.exec.received] at hge
    have := (List.getElem?_eq_some_iff.1 hi).1
    exact Nat.lt_of_le_of_lt hge this
  have hget := List.getElem?_eq_getElem hlt
  exact ⟨_, hget, h.exec.rest_committed h.core.facts hr hd (List.mem_of_getElem? hget)⟩

/-- **C55**, partly: if the receiver is asleep, there is a `Sender` left that can wake it. Missing: for the blocking channel, the case that a `Sender` was dropped by
a panicking thread; the claim is false then, see `C34_false_if_dropped_by_panic`. -/
theorem C55_sender_left_partial (h : Run c tr s) (hr : AtRest tr) (hd : ∀ b, .api (.dropRx b) ∉ tr) {v : W} (hv : RxAsleep tr v)
    (hb : c.blocking = false ∨ ∀ x, .api (.dropTx x true) ∉ tr) : senders tr ≠ [] := by
  intro he
  have hl : .api .lastTxDropped ∈ tr := Classical.byContradiction fun hn => hr.lastTx ⟨he, hn⟩
  obtain ⟨pre, mid, post, htr, h1, h2⟩ := hv
  have hb' : c.blocking = false ∨ LastDrop tr false := by
    refine hb.imp_right fun hx => ?_
    have hh := h.exec.clInv.hist
    rw [h.exec.clInv.fin hl] at hh
    obtain ⟨pan, _, _, h3, _⟩ := hh
    obtain ⟨p, x, q, h4, h5⟩ := h3.1
    cases pan with
    | false => exact ⟨p, x, q, h4, h5⟩
    | true => exact absurd (by rw [h4]; simp) (hx x)
  obtain ⟨d, hw⟩ := C34_woken_by_last_drop_partial h htr h1 hd hl hb'
  exact h2 d hw

/-! ### Concrete cases -/

/-- Capacity 1. Call 1 sends, call 2 sleeps; the receiver polls, gets the message and drops it, which wakes call 2; it sends; the receiver gets that message, and then sleeps. -/
def restDemo : List It :=
  iSend 1 10 1 ++ iDropSend 1 100 ++ iSend 2 11 2 ++ iStart 2 7 ++ iPoll 31 [300, 301, 302, 303] ++ iDropRecv 300 60 ++ iCont 2 7 ++ iRetry 2 13 2 ++
    iDropSend 2 101 ++ iPoll 32 [310, 311, 312, 313] ++ iDropRecv 310 61 ++ iPoll 33 [320, 321, 322, 323]

/-- C55: the hypotheses of `C55_all_delivered`, `C55_no_deadlock_partial` and `C55_sender_left_partial` are met by this run. -/
example (blocking : Bool) : ∃ s : State 8 Nat Nat, Run (demoC 1 blocking) (scriptTr (demoC 1 blocking) restDemo) s ∧
    AtRest (scriptTr (demoC 1 blocking) restDemo) ∧ RxAsleep (scriptTr (demoC 1 blocking) restDemo) 33 ∧ OneDrop (scriptTr (demoC 1 blocking) restDemo) ∧
    (∀ k, .api (.cancel k) ∉ scriptTr (demoC 1 blocking) restDemo) ∧ (∀ k, .api (.retSend k .timeout) ∉ scriptTr (demoC 1 blocking) restDemo) ∧ (∀ pan, .api (.dropRx pan) ∉ scriptTr (demoC 1 blocking) restDemo) ∧
    (∀ x, .api (.dropTx x true) ∉ scriptTr (demoC 1 blocking) restDemo) ∧ .api (.sleep 2) ∈ scriptTr (demoC 1 blocking) restDemo ∧
    .api (.retSend 2 (.ok 13)) ∈ scriptTr (demoC 1 blocking) restDemo := by
  obtain ⟨s, hs⟩ : ∃ s : State 8 Nat Nat, Run (demoC 1 blocking) (scriptTr (demoC 1 blocking) restDemo) s := by
    cases blocking <;> exact Run.of_scriptTr (by decide) (by decide +kernel) (by decide +kernel)
  have hno : (scriptTr (demoC 1 blocking) restDemo).all (fun | .api (.dropRx _) | .api (.cancel _) | .api (.dropTx _ _) | .api (.retSend _ .timeout) => false | _ => true) = true := by
    cases blocking <;> decide +kernel
  rw [List.all_eq_true] at hno
  exact ⟨s, hs, atRestB_imp (by cases blocking <;> decide +kernel), rxAsleepB_imp (by cases blocking <;> decide +kernel),
    oneDropB_imp (p := []) (o := none) (by cases blocking <;> decide +kernel) (by simp), fun k hk => by simpa using hno _ hk, fun k hk => by simpa using hno _ hk,
    fun p hp => by simpa using hno _ hp, fun x hx => by simpa using hno _ hx, by cases blocking <;> decide +kernel, by cases blocking <;> decide +kernel⟩

/-- C55: the hypotheses of `C55_sender_asleep_partial` are met by the run `sleepDemo`. -/
example (blocking : Bool) : AtRest (scriptTr (demoC 1 blocking) sleepDemo) ∧ Asleep (scriptTr (demoC 1 blocking) sleepDemo) 3 ∧
    OneDrop (scriptTr (demoC 1 blocking) sleepDemo) :=
  ⟨atRestB_imp (by cases blocking <;> decide +kernel), asleepB_imp (by cases blocking <;> decide +kernel),
    oneDropB_imp (p := []) (o := none) (by cases blocking <;> decide +kernel) (by simp)⟩

/-- **C55 is false** if a send that was woken is cancelled: the run `wastedDemo`, after which the receiver polls. Send call 3 and the receiver are asleep, the channel is empty,
everything else is over. -/
theorem C55_false_if_cancelled : ∃ (tr : Trace Nat Nat) (s : State 8 Nat Nat), Run (demoC 1 false) tr s ∧ AtRest tr ∧ RxAsleep tr 33 ∧ Asleep tr 3 ∧
    (∀ pan, .api (.dropRx pan) ∉ tr) ∧ OneDrop tr := by
  obtain ⟨s, hs⟩ := Run.of_scriptTr (c := demoC 1 false) (l := wastedDemo ++ iPoll 33 [320, 321, 322, 323]) (by decide) (by decide +kernel) (by decide +kernel)
  refine ⟨_, s, hs, atRestB_imp (by decide +kernel), rxAsleepB_imp (by decide +kernel), asleepB_imp (by decide +kernel), fun pan hp => ?_,
    oneDropB_imp (p := []) (o := none) (by decide +kernel) (by simp)⟩
  have : (scriptTr (demoC 1 false) (wastedDemo ++ iPoll 33 [320, 321, 322, 323])).all (fun | .api (.dropRx _) => false | _ => true) = true := by decide +kernel
  simpa using List.all_eq_true.1 this _ hp

/-- **C55 is false** if a `send_timeout` that was woken returns `Timeout`: the run `lateDemo`, after which the receiver waits for a message. Send call 3 and the receiver are
asleep, the channel is empty, everything else is over. -/
theorem C55_false_if_timed_out : ∃ (tr : Trace Nat Nat) (s : State 8 Nat Nat), Run (demoC 1 true) tr s ∧ AtRest tr ∧ RxAsleep tr 33 ∧ Asleep tr 3 ∧
    (∀ pan, .api (.dropRx pan) ∉ tr) ∧ OneDrop tr ∧ ∀ k, .api (.cancel k) ∉ tr := by
  obtain ⟨s, hs⟩ := Run.of_scriptTr (c := demoC 1 true) (l := lateDemo ++ iPoll 33 [320, 321, 322, 323]) (by decide) (by decide +kernel) (by decide +kernel)
  have hno : (scriptTr (demoC 1 true) (lateDemo ++ iPoll 33 [320, 321, 322, 323])).all (fun | .api (.dropRx _) | .api (.cancel _) => false | _ => true) = true := by decide +kernel
  rw [List.all_eq_true] at hno
  exact ⟨_, s, hs, atRestB_imp (by decide +kernel), rxAsleepB_imp (by decide +kernel), asleepB_imp (by decide +kernel), fun pan hp => by simpa using hno _ hp,
    oneDropB_imp (p := []) (o := none) (by decide +kernel) (by simp), fun k hk => by simpa using hno _ hk⟩

/-- **C55 is false** in a release build if `RecvRef`s are dropped concurrently: the run `overlapDemo`, after which the receiver polls. No send was ever cancelled or timed out. -/
theorem C55_false_if_drops_overlap (blocking : Bool) : ∃ (tr : Trace Nat Nat) (s : State 8 Nat Nat), Run (releaseC 2 blocking) tr s ∧ AtRest tr ∧ RxAsleep tr 33 ∧ Asleep tr 4 ∧
    (∀ pan, .api (.dropRx pan) ∉ tr) ∧ (∀ k, .api (.cancel k) ∉ tr) ∧ ∀ k, .api (.retSend k .timeout) ∉ tr := by
  obtain ⟨s, hs⟩ : ∃ s : State 8 Nat Nat, Run (releaseC 2 blocking) (scriptTr (releaseC 2 blocking) (overlapDemo ++ iPoll 33 [320, 321, 322, 323])) s := by
    cases blocking <;> exact Run.of_scriptTr (by decide) (by decide +kernel) (by decide +kernel)
  have hno : (scriptTr (releaseC 2 blocking) (overlapDemo ++ iPoll 33 [320, 321, 322, 323])).all (fun | .api (.dropRx _) | .api (.cancel _) | .api (.retSend _ .timeout) => false | _ => true) = true := by
    cases blocking <;> decide +kernel
  rw [List.all_eq_true] at hno
  exact ⟨_, s, hs, atRestB_imp (by cases blocking <;> decide +kernel), rxAsleepB_imp (by cases blocking <;> decide +kernel), asleepB_imp (by cases blocking <;> decide +kernel),
    fun p hp => by simpa using hno _ hp, fun k hk => by simpa using hno _ hk, fun k hk => by simpa using hno _ hk⟩

end Thingbuf.Chan
