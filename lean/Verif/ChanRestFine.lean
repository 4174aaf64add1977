import Verif.ChanRestProps
import Verif.ChanFineProps

/-!
# C55 for the channel with the two-step dequeue

The theorems of `ChanRestProps`, for the channel over the wait queue whose `List::dequeue` is two steps (`QueueFine`).
-/

namespace Thingbuf.Chan

variable {w : Nat} {V W : Type} {c : Config W} {tr : Trace V W} {f : FState w V W}

theorem AtRest.congr {tr' : Trace V W} (h : quiet tr' = quiet tr) (hs : AtRest tr') : AtRest tr where
  settled := hs.settled.congr h
  noPanic k hk := hs.noPanic k ((mem_of_quiet h rfl).2 hk)
  sent k a hk := (mem_of_quiet h rfl).1 (hs.sent k a ((mem_of_quiet h rfl).2 hk))
  read b hb := (mem_of_quiet h rfl).1 (hs.read b (by rw [received_congr h]; exact hb))
  lastTx hl := hs.lastTx (hl.congr h.symm)

theorem RxAsleep.congr {tr' : Trace V W} {v : W} (h : quiet tr' = quiet tr) (hs : RxAsleep tr' v) : RxAsleep tr v := by
  obtain ⟨pre, mid, post, rfl, h1, h2⟩ := hs
  obtain ⟨pre', mid', post', h3, h4, h5, h6⟩ := quiet_poll h.symm
  exact ⟨pre', mid', post', h3, fun u => ⟨fun hc => (h1 u).1 ((mem_of_quiet h5 rfl).1 hc), fun hc => (h1 u).2 ((mem_of_quiet h6 rfl).1 hc)⟩,
    fun d hc => h2 d ((mem_of_quiet (by rw [quiet_append, quiet_append, h5, h6]) rfl).1 hc)⟩

/-- **C55** -/
theorem C55_all_delivered_fine (h : FRun c tr f) (hr : AtRest tr) (hd : ∀ b, .api (.dropRx b) ∉ tr) {v : W} (hv : RxAsleep tr v) {k : Nat} {a : OpId}
    (hk : .api (.retSend k (.ok a)) ∈ tr) : Received tr a := by
  obtain ⟨tr', h1, he⟩ := h.sim
  exact (C55_all_delivered h1 (hr.congr he.symm) (fun b hb => hd b ((mem_of_quiet he rfl).1 hb)) (hv.congr he.symm) ((mem_of_quiet he rfl).2 hk)).congr he

/-- **C55** (partial: as `C55_no_deadlock_partial`) -/
theorem C55_no_deadlock_fine_partial (h : FRun c tr f) (hr : AtRest tr) (hd : ∀ b, .api (.dropRx b) ∉ tr) {v : W} (hv : RxAsleep tr v) (h1 : OneDrop tr)
    (hn : ∀ k, .api (.cancel k) ∉ tr) (ht : ∀ k, .api (.retSend k .timeout) ∉ tr) (k : Nat) : ¬ Asleep tr k := by
  obtain ⟨tr', h2, he⟩ := h.sim
  exact fun hk => C55_no_deadlock_partial h2 (hr.congr he.symm) (fun b hb => hd b ((mem_of_quiet he rfl).1 hb)) (hv.congr he.symm) (h1.congr he.symm)
    (fun k hk => hn k ((mem_of_quiet he rfl).1 hk)) (fun k hk => ht k ((mem_of_quiet he rfl).1 hk)) k (hk.congr he.symm)

/-- **C55** (partial: as `C55_sender_asleep_partial`) -/
theorem C55_sender_asleep_fine_partial (h : FRun c tr f) (hr : AtRest tr) (hd : ∀ b, .api (.dropRx b) ∉ tr) (h1 : OneDrop tr) (hn : ∀ k, .api (.cancel k) ∉ tr)
    (ht : ∀ k, .api (.retSend k .timeout) ∉ tr) {k : Nat} (hk : Asleep tr k) : OldestSent tr ∧ ∀ v, ¬ RxAsleep tr v := by
  obtain ⟨tr', h2, he⟩ := h.sim
  obtain ⟨h3, h4⟩ := C55_sender_asleep_partial h2 (hr.congr he.symm) (fun b hb => hd b ((mem_of_quiet he rfl).1 hb)) (h1.congr he.symm)
    (fun k hk => hn k ((mem_of_quiet he rfl).1 hk)) (fun k hk => ht k ((mem_of_quiet he rfl).1 hk)) (hk.congr he.symm)
  exact ⟨h3.congr he, fun v hv => h4 v (hv.congr he.symm)⟩

/-- **C55** (partial: as `C55_sender_left_partial`) -/
theorem C55_sender_left_fine_partial (h : FRun c tr f) (hr : AtRest tr) (hd : ∀ b, .api (.dropRx b) ∉ tr) {v : W} (hv : RxAsleep tr v)
    (hb : c.blocking = false ∨ ∀ x, .api (.dropTx x true) ∉ tr) : senders tr ≠ [] := by
  obtain ⟨tr', h2, he⟩ := h.sim
  rw [← senders_congr he]
  exact C55_sender_left_partial h2 (hr.congr he.symm) (fun b hb => hd b ((mem_of_quiet he rfl).1 hb)) (hv.congr he.symm)
    (hb.imp_right fun hx x hm => hx x ((mem_of_quiet he rfl).1 hm))

/-- The hypotheses of `C55_all_delivered_fine`, `C55_no_deadlock_fine_partial` and `C55_sender_left_fine_partial` are met: by the run `restDemo`, with the two-step dequeue. -/
example (blocking : Bool) : ∃ (tr : Trace Nat Nat) (f : FState 8 Nat Nat), FRun (demoC 1 blocking) tr f ∧ AtRest tr ∧ RxAsleep tr 33 ∧ OneDrop tr ∧
    .api (.sleep 2) ∈ tr ∧ .api (.retSend 2 (.ok 13)) ∈ tr := by
  obtain ⟨s, hs⟩ : ∃ s : State 8 Nat Nat, Run (demoC 1 blocking) (scriptTr (demoC 1 blocking) restDemo) s := by
    cases blocking <;> exact Run.of_scriptTr (by decide) (by decide +kernel) (by decide +kernel)
  obtain ⟨tr, h1, h2⟩ := fine_complete hs.exec
  exact ⟨tr, _, ⟨hs.sized, h1, by rw [coreOf_congr h2]; exact hs.noStall⟩, (atRestB_imp (by cases blocking <;> decide +kernel)).congr h2.symm,
    (rxAsleepB_imp (by cases blocking <;> decide +kernel)).congr h2.symm,
    OneDrop.congr h2.symm (oneDropB_imp (p := []) (o := none) (by cases blocking <;> decide +kernel) (by simp)),
    (mem_of_quiet h2 rfl).2 (by cases blocking <;> decide +kernel), (mem_of_quiet h2 rfl).2 (by cases blocking <;> decide +kernel)⟩

/-- The hypotheses of `C55_sender_asleep_fine_partial` are met: by the run `sleepDemo`. -/
example (blocking : Bool) : ∃ (tr : Trace Nat Nat) (f : FState 8 Nat Nat), FRun (demoC 1 blocking) tr f ∧ AtRest tr ∧ Asleep tr 3 ∧ OneDrop tr := by
  obtain ⟨s, hs⟩ : ∃ s : State 8 Nat Nat, Run (demoC 1 blocking) (scriptTr (demoC 1 blocking) sleepDemo) s := by
    cases blocking <;> exact Run.of_scriptTr (by decide) (by decide +kernel) (by decide +kernel)
  obtain ⟨tr, h1, h2⟩ := fine_complete hs.exec
  exact ⟨tr, _, ⟨hs.sized, h1, by rw [coreOf_congr h2]; exact hs.noStall⟩, (atRestB_imp (by cases blocking <;> decide +kernel)).congr h2.symm,
    (asleepB_imp (by cases blocking <;> decide +kernel)).congr h2.symm,
    OneDrop.congr h2.symm (oneDropB_imp (p := []) (o := none) (by cases blocking <;> decide +kernel) (by simp))⟩

end Thingbuf.Chan
