import Verif.WeakLastProps
import Verif.WeakProps
import Verif.ChanRestProps

/-!
# The channel on the memory model: when everything sleeps, the work is done

C66. This is C55 for the memory orderings that are written in the source, instead of sequential consistency.
-/

namespace Thingbuf.Chan

variable {w : Nat} {V : Type} {c : Config Nat} {th : Thread → OpId} {tr : Trace V Nat} {xtr : List (RA.REv V)} {s : WState w V}

/-- In a channel at rest whose receiver sleeps every message has been taken. -/
theorem PRun.rest_empty (h : PRun c w th tr xtr s) (hr : AtRest tr) (hd : ∀ b, .api (.dropRx b) ∉ tr) {v : Nat} (hv : RxAsleep tr v) :
    nDeq (coreOf tr) = nRes (coreOf tr) := by
  have hf := h.wrun.facts
  have he := h.wrun.exec.ctl.1
  refine Nat.le_antisymm (hf.bounds (List.prefix_refl _)).1 (Nat.le_of_not_lt fun hlt => ?_)
  obtain ⟨pre, mid, post, htr, h1, h2⟩ := hv
  have hget : (resOps (coreOf tr))[nDeq (coreOf tr)]? = some _ := List.getElem?_eq_getElem hlt
  obtain ⟨d, hw⟩ := C64_no_lost_wakeup h htr h1 hd (he.rest_sendEnding hr) hr.lastTx
    ⟨_, hget, he.rest_committed hf hr hd (List.mem_of_getElem? hget)⟩
  exact h2 d hw

/-- **C66** Nothing is half way through and the receiver is asleep: then every message that was sent has been received. -/
theorem C66_all_delivered (h : PRun c w th tr xtr s) (hr : AtRest tr) (hd : ∀ b, .api (.dropRx b) ∉ tr) {v : Nat} (hv : RxAsleep tr v) {k : Nat} {a : OpId}
    (hk : .api (.retSend k (.ok a)) ∈ tr) : Received tr a :=
  ExecM.drained (l := []) (by simpa using h.wrun.exec.ctl.1) h.wrun.facts (by simp) (by simp) (h.rest_empty hr hd hv) hk

/-- **C66** Then no sender is asleep: receiver and senders do not wait for each other. The `RecvRef`s are dropped in order, and no send is cancelled or times out. -/
theorem C66_no_deadlock (h : PRun c w th tr xtr s) (hr : AtRest tr) (hd : ∀ b, .api (.dropRx b) ∉ tr) {v : Nat} (hv : RxAsleep tr v) (h1 : DropsOrdered s tr)
    (hn : ∀ k, .api (.cancel k) ∉ tr) (ht : ∀ k, .api (.retSend k .timeout) ∉ tr) (k : Nat) : ¬ Asleep tr k := by
  intro hk
  have he := h.wrun.exec.ctl.1
  obtain ⟨a, i, hi, ha⟩ := C63_sleeper_has_message h.wrun hk hr.settled hd h1 hn ht
  have hlt : i < (received tr).length := by
    rw [he.received]
    have := h.rest_empty hr hd hv
    have := (List.getElem?_eq_some_iff.1 hi).1
    change i < nRes _ at this
    change i < nDeq _
    omega
  have hb := List.getElem?_eq_getElem hlt
  exact ha _ hb (he.recvEnd_began (hr.read _ (List.mem_of_getElem? hb)))

/-- **C66** If a sender is asleep, the receiver is awake, and there is a message for it. -/
theorem C66_sender_asleep (h : PRun c w th tr xtr s) (hr : AtRest tr) (hd : ∀ b, .api (.dropRx b) ∉ tr) (h1 : DropsOrdered s tr) (hn : ∀ k, .api (.cancel k) ∉ tr)
    (ht : ∀ k, .api (.retSend k .timeout) ∉ tr) {k : Nat} (hk : Asleep tr k) : OldestSent tr ∧ ∀ v, ¬ RxAsleep tr v := by
  refine ⟨?_, fun v hv => C66_no_deadlock h hr hd hv h1 hn ht k hk⟩
  have he := h.wrun.exec.ctl.1
  obtain ⟨a, i, hi, ha⟩ := C63_sleeper_has_message h.wrun hk hr.settled hd h1 hn ht
  have hge : (received tr).length ≤ i := Nat.le_of_not_lt fun hlt => by
    have hb := List.getElem?_eq_getElem hlt
    exact ha _ hb (he.recvEnd_began (hr.read _ (List.mem_of_getElem? hb)))
  have hlt : nDeq (coreOf tr) < (resOps (coreOf tr)).length := by
    rw [he.received] at hge
    have := (List.getElem?_eq_some_iff.1 hi).1
    exact Nat.lt_of_le_of_lt hge this
  have hget := List.getElem?_eq_getElem hlt
  exact ⟨_, hget, he.rest_committed h.wrun.facts hr hd (List.mem_of_getElem? hget)⟩

/-- **C66** If the receiver is asleep, there is a `Sender` left that can wake it; for the blocking channel, unless a `Sender` was dropped by a panicking thread. -/
theorem C66_sender_left (h : PRun c w th tr xtr s) (hr : AtRest tr) (hd : ∀ b, .api (.dropRx b) ∉ tr) {v : Nat} (hv : RxAsleep tr v)
    (hb : c.blocking = false ∨ ∀ x, .api (.dropTx x true) ∉ tr) : senders tr ≠ [] := by
  intro he
  have hl : .api .lastTxDropped ∈ tr := Classical.byContradiction fun hn => hr.lastTx ⟨he, hn⟩
  obtain ⟨pre, mid, post, htr, h1, h2⟩ := hv
  have hb' : c.blocking = false ∨ LastDrop tr false := by
    refine hb.imp_right fun hx => ?_
    have hh := h.wrun.exec.ctl.1.clInv.hist
    rw [h.wrun.exec.ctl.1.clInv.fin hl] at hh
    obtain ⟨pan, _, _, h3, _⟩ := hh
    obtain ⟨p, x, q, h4, h5⟩ := h3.1
    cases pan with
    | false => exact ⟨p, x, q, h4, h5⟩
    | true => exact absurd (by rw [h4]; simp) (hx x)
  obtain ⟨d, hw⟩ := C65_woken_by_last_drop_partial h htr h1 hd hl hb'
  exact h2 d hw

/-! ### Concrete cases -/

/-- What the calls of `notify` knew in a script. -/
def pKnown (c : Config Nat) (l : List WIt) (n : Nat) : List (List Queue.Tid) :=
  ((wscript (pstep .source .source c thN) c (WState.init 8 Nat) l).map fun r => (List.range n).map r.1.queue.before).getD []

theorem PExec.of_script_known {c : Config Nat} {l : List WIt} (n : Nat)
    (h : (wscript (pstep .source .source c thN) c (WState.init 8 Nat) l).isSome)
    (hn : nRes (RA.evsOf (pTr .source .source c l).2) + 2 * c.cap < period 8 c.cap) :
    ∃ s : WState 8 Nat, PExec .source .source c 8 thN (pTr .source .source c l).1 (pTr .source .source c l).2 s ∧
      (List.range n).map s.queue.before = pKnown c l n := by
  obtain ⟨⟨s, e, r⟩, hx⟩ := Option.isSome_iff_exists.1 h
  have h1 := WSteps.script hx
  have h2 : pTr .source .source c l = (e, r) := by simp [pTr, hx]
  rw [h2] at hn ⊢
  exact ⟨s, by simpa using h1.pexec .init (by simpa using hn), by simp [pKnown, hx]⟩

/-- As `restDemo`: capacity 1. Call 1 sends, call 2 sleeps; the receiver polls, gets the message and drops it, which wakes call 2; it sends; the receiver gets that message and
drops it, and then sleeps. -/
def pRestDemo : List WIt :=
  (iSend 1 10 1 ++ iDropSend 1 100 ++ iSend 2 11 2 ++ iStart 2 7 ++ iPoll 31 [300, 301, 302, 303]).map wOf ++ wDropRecv 300 0 [] ++
    (iCont 2 7 ++ iRetry 2 13 2 ++ iDropSend 2 101 ++ iPoll 32 [310, 311, 312, 313]).map wOf ++ wDropRecv 310 1 [0] ++ (iPoll 33 [320, 321, 322, 323]).map wOf

/-- C66: the hypotheses of `C66_all_delivered`, `C66_no_deadlock` and `C66_sender_left` are met by this run. -/
example (blocking : Bool) : ∃ (tr : Trace Nat Nat) (xtr : List (RA.REv Nat)) (s : WState 8 Nat), PRun (demoC 1 blocking) 8 thN tr xtr s ∧ AtRest tr ∧
    RxAsleep tr 33 ∧ DropsOrdered s tr ∧ (∀ pan, .api (.dropRx pan) ∉ tr) ∧ (∀ k, .api (.cancel k) ∉ tr) ∧ (∀ k, .api (.retSend k .timeout) ∉ tr) ∧
    (∀ x, .api (.dropTx x true) ∉ tr) ∧ .api (.sleep 2) ∈ tr ∧ .queue (.wake 0 2 7) ∈ tr ∧ .api (.retSend 2 (.ok 13)) ∈ tr := by
  obtain ⟨s, hs, hk⟩ := PExec.of_script_known (c := demoC 1 blocking) (l := pRestDemo) 2 (by cases blocking <;> decide +kernel) (by cases blocking <;> decide +kernel)
  have h1 := plainB_imp (tr := (pTr .source .source (demoC 1 blocking) pRestDemo).1) (by cases blocking <;> decide +kernel)
  have h2 := orderedB_imp hk (l := (pTr .source .source (demoC 1 blocking) pRestDemo).1) (seen := []) (by cases blocking <;> decide +kernel)
  have h3 : ((pTr .source .source (demoC 1 blocking) pRestDemo).1).all (fun | .api (.dropTx _ _) => false | _ => true) = true := by cases blocking <;> decide +kernel
  exact ⟨_, _, s, ⟨by cases blocking <;> decide, rfl, hs⟩, atRestB_imp (by cases blocking <;> decide +kernel), rxAsleepB_imp (by cases blocking <;> decide +kernel),
    fun pre o post o' htr ho => (h2 pre o post htr).2 o' ho, h1.1, h1.2.1, h1.2.2, fun x hx => by simpa using List.all_eq_true.1 h3 _ hx,
    by cases blocking <;> decide +kernel, by cases blocking <;> decide +kernel, by cases blocking <;> decide +kernel⟩

/-- C66: the hypotheses of `C66_sender_asleep` are met by the run `wSleepDemo`. -/
example (blocking : Bool) : ∃ (tr : Trace Nat Nat) (xtr : List (RA.REv Nat)) (s : WState 8 Nat), PRun (demoC 1 blocking) 8 thN tr xtr s ∧ AtRest tr ∧
    Asleep tr 4 ∧ DropsOrdered s tr ∧ (∀ pan, .api (.dropRx pan) ∉ tr) ∧ (∀ k, .api (.cancel k) ∉ tr) ∧ (∀ k, .api (.retSend k .timeout) ∉ tr) := by
  obtain ⟨s, hs, hk⟩ := PExec.of_script_known (c := demoC 1 blocking) (l := wSleepDemo) 2 (by cases blocking <;> decide +kernel) (by cases blocking <;> decide +kernel)
  have h1 := plainB_imp (tr := (pTr .source .source (demoC 1 blocking) wSleepDemo).1) (by cases blocking <;> decide +kernel)
  have h2 := orderedB_imp hk (l := (pTr .source .source (demoC 1 blocking) wSleepDemo).1) (seen := []) (by cases blocking <;> decide +kernel)
  exact ⟨_, _, s, ⟨by cases blocking <;> decide, rfl, hs⟩, atRestB_imp (by cases blocking <;> decide +kernel), asleepB_imp (by cases blocking <;> decide +kernel),
    fun pre o post o' htr ho => (h2 pre o post htr).2 o' ho, h1.1, h1.2.1, h1.2.2⟩

/-- **C66 needs the order of the drops**, in a release build: the run `wLostDemo`, after which the receiver polls. Send call 4 and the receiver are asleep, the channel is empty,
everything else is over. The `RecvRef`s were dropped one after the other, but the last one by a thread that does not know of the other drops. No send was cancelled or timed out. -/
theorem C66_false_if_drops_unordered (blocking : Bool) : ∃ (tr : Trace Nat Nat) (xtr : List (RA.REv Nat)) (s : WState 8 Nat),
    PRun (releaseC 2 blocking) 8 thN tr xtr s ∧ AtRest tr ∧ RxAsleep tr 33 ∧ Asleep tr 4 ∧ OneDrop tr ∧ (∀ pan, .api (.dropRx pan) ∉ tr) ∧
    (∀ k, .api (.cancel k) ∉ tr) ∧ ∀ k, .api (.retSend k .timeout) ∉ tr := by
  obtain ⟨s, hs⟩ := PExec.of_script (o := .source) (co := .source) (c := releaseC 2 blocking) (l := wLostDemo ++ (iPoll 33 [320, 321, 322, 323]).map wOf)
    (by cases blocking <;> decide +kernel) (by cases blocking <;> decide +kernel)
  have h1 := plainB_imp (tr := (pTr .source .source (releaseC 2 blocking) (wLostDemo ++ (iPoll 33 [320, 321, 322, 323]).map wOf)).1) (by cases blocking <;> decide +kernel)
  exact ⟨_, _, s, ⟨by cases blocking <;> decide, rfl, hs⟩, atRestB_imp (by cases blocking <;> decide +kernel), rxAsleepB_imp (by cases blocking <;> decide +kernel),
    asleepB_imp (by cases blocking <;> decide +kernel), oneDropB_imp (p := []) (o := none) (by cases blocking <;> decide +kernel) (by simp), h1⟩

/-- **C66 needs that no send is cancelled**: the run `wastedDemo`, after which the receiver polls. The only drop of a `RecvRef` woke send call 2, which was then cancelled. -/
theorem C66_false_if_cancelled : ∃ (tr : Trace Nat Nat) (xtr : List (RA.REv Nat)) (s : WState 8 Nat), PRun (demoC 1 false) 8 thN tr xtr s ∧ AtRest tr ∧
    RxAsleep tr 33 ∧ Asleep tr 3 ∧ OneDrop tr ∧ ∀ pan, .api (.dropRx pan) ∉ tr := by
  obtain ⟨s, hs⟩ := PExec.of_script (o := .source) (co := .source) (c := demoC 1 false) (l := (wastedDemo ++ iPoll 33 [320, 321, 322, 323]).map wOf)
    (by decide +kernel) (by decide +kernel)
  exact ⟨_, _, s, ⟨by decide, rfl, hs⟩, atRestB_imp (by decide +kernel), rxAsleepB_imp (by decide +kernel), asleepB_imp (by decide +kernel),
    oneDropB_imp (p := []) (o := none) (by decide +kernel) (by simp), noDropRx_imp (by decide +kernel)⟩

/-- **C66 needs that no send times out**: the run `lateDemo`, after which the receiver waits for a message. -/
theorem C66_false_if_timed_out : ∃ (tr : Trace Nat Nat) (xtr : List (RA.REv Nat)) (s : WState 8 Nat), PRun (demoC 1 true) 8 thN tr xtr s ∧ AtRest tr ∧
    RxAsleep tr 33 ∧ Asleep tr 3 ∧ OneDrop tr ∧ ∀ pan, .api (.dropRx pan) ∉ tr := by
  obtain ⟨s, hs⟩ := PExec.of_script (o := .source) (co := .source) (c := demoC 1 true) (l := (lateDemo ++ iPoll 33 [320, 321, 322, 323]).map wOf)
    (by decide +kernel) (by decide +kernel)
  exact ⟨_, _, s, ⟨by decide, rfl, hs⟩, atRestB_imp (by decide +kernel), rxAsleepB_imp (by decide +kernel), asleepB_imp (by decide +kernel),
    oneDropB_imp (p := []) (o := none) (by decide +kernel) (by simp), noDropRx_imp (by decide +kernel)⟩

end Thingbuf.Chan
