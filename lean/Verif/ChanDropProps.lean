import Verif.ChanDrop
import Verif.ChanDemo
import Verif.ChanFineTrace
import Verif.WeakSend
import Verif.WeakMsgProps

/-!
# Properties of the channel: its end
-/

namespace Thingbuf.Chan

variable {w : Nat} {V W : Type} {c : Config W} {tr : Trace V W} {s : State w V W}

/-! ### C69 -/

/-- **C69**, executions in which `new_element` does not panic and the position counter is not in the first lap after it has
wrapped.

When the `Receiver` and the last `Sender` have been dropped, the memory of the channel is freed, and `drop_slots` drops
exactly the slots in which an element was created, once each, and every one of them is initialised.

Missing from the full property: as in C08, executions in which `new_element` panicked and those in which the position
counter is in its first lap after it has wrapped. -/
theorem C69_drop_exact_partial (h : Run c tr s) (hr : .api .rxDropped ∈ tr) (ht : .api .lastTxDropped ∈ tr)
    (hnp : NewElementNeverPanicked (coreOf tr)) (hwrap : nRes (coreOf tr) < period w c.cap ∨ c.cap ≤ nRes (coreOf tr) % period w c.cap) :
    ∃ l, dropSlots c.cap s.core false = .dropped l ∧ (l.map Prod.fst).Nodup ∧
      (∀ i, i ∈ l.map Prod.fst ↔ i ∈ createdSlots (coreOf tr)) ∧
      (∀ i v, (i, v) ∈ l → v ≠ none) ∧
      (∀ i, i ∉ l.map Prod.fst → s.core.val i = none) := by
  obtain ⟨l, h1, h2, h3, h4, h5⟩ := C08_drop_exact_partial h.core (h.over_quiet hr ht) hnp hwrap
  exact ⟨l, h1, h2, h3, fun i v hv => (h4 i v hv).2, h5⟩

/-- **C69**. A message that was sent and not received is dropped with the channel: its slot, with its value, is one of
those that `drop_slots` drops. The message with number `i` is the `i`th for which a slot was reserved. -/
theorem C69_unreceived_dropped_partial (h : Run c tr s) (hr : .api .rxDropped ∈ tr) (ht : .api .lastTxDropped ∈ tr)
    (hnp : NewElementNeverPanicked (coreOf tr)) (hwrap : nRes (coreOf tr) < period w c.cap ∨ c.cap ≤ nRes (coreOf tr) % period w c.cap) :
    ∃ l, dropSlots c.cap s.core false = .dropped l ∧ (l.map Prod.fst).Nodup ∧
      ∀ i a x, (resOps (coreOf tr))[i]? = some a → (received tr).length ≤ i → sent (coreOf tr) a = some x →
        (i % c.cap, some x) ∈ l := by
  obtain ⟨l, h1, h2, h3, h4, h5⟩ := C08_drop_exact_partial h.core (h.over_quiet hr ht) hnp hwrap
  refine ⟨l, h1, h2, fun i a x ha hn hx => ?_⟩
  have hv := in_slot h.core.facts h.core.inv h.exec.received ha hn hx
  have hm : i % c.cap ∈ l.map Prod.fst := Classical.byContradiction fun hn => by
    rw [h5 _ hn] at hv; cases hv
  obtain ⟨⟨j, v⟩, hj, he⟩ := List.mem_map.1 hm
  simp only at he
  subst he
  rwa [(h4 _ _ hj).1, hv] at hj

/-- The events that tell the end of the two drops are the last ones of their steps. -/
theorem last_of_step {s' : State w V W} {act : Act V W} {evs e1 post : Trace V W} (hs : Chan.step c s act = some (s', evs))
    (he : evs = e1 ++ post) (hm : .api .rxDropped ∈ e1 ∨ .api .lastTxDropped ∈ e1) : post = [] := by
  have key : ∀ (l : Trace V W) (e : Ev V W), evs = l ++ [e] → (.api .rxDropped ∉ l ∧ .api .lastTxDropped ∉ l) → post = [] := by
    intro l e h1 h2
    rw [he] at h1
    rcases List.eq_nil_or_concat post with rfl | ⟨q, x, rfl⟩
    · rfl
    · rw [List.concat_eq_append, ← List.append_assoc] at h1
      have := (List.append_inj' h1 rfl).1
      rw [← this] at h2
      simp only [List.mem_append, not_or] at h2
      rcases hm with hm | hm
      · exact absurd hm h2.1.1
      · exact absurd hm h2.2.1
  have hm' : .api .rxDropped ∈ evs ∨ .api .lastTxDropped ∈ evs := by
    rw [he]; exact hm.imp (List.mem_append_left _) (List.mem_append_left _)
  cases step_tr hs with
  | api h1 => cases h1 <;> simp at hm'
  | core h1 h2 =>
    generalize coreRet _ = r at h2
    cases h2 <;> simp at hm' <;> exact key _ _ rfl (by simp)
  | cell h1 h2 =>
    generalize waitRet _ = r at h2
    cases h2 <;> simp at hm' <;> exact key _ _ rfl (by simp)
  | queue h1 h2 =>
    cases h2 <;> simp at hm' <;> exact key _ _ rfl (by simp)

/-- After both drops have returned, nothing happens. On any memory. -/
theorem ExecM.nothing_after {m : Bool} (h : ExecM m c tr s) {pre post : Trace V W} (htr : tr = pre ++ post)
    (hr : .api .rxDropped ∈ pre) (ht : .api .lastTxDropped ∈ pre) : post = [] := by
  induction h generalizing pre post with
  | init => simp at htr; exact htr.2
  | stale _ _ _ ih => exact ih htr hr ht
  | mem _ _ _ _ _ _ ih => exact ih htr hr ht
  | @step tr0 s0 s' act evs he hs ih =>
    rcases List.append_eq_append_iff.1 htr with ⟨e1, h1, h2⟩ | ⟨e1, h1, h2⟩
    · subst h1
      refine last_of_step hs h2 ?_
      apply Classical.byContradiction
      intro hn
      simp only [not_or] at hn
      simp only [List.mem_append] at hr ht
      have := he.over_stuck (hr.resolve_right hn.1) (ht.resolve_right hn.2) act
      rw [this] at hs; cases hs
    · have := he.over_stuck (by rw [h1]; exact List.mem_append_left _ hr) (by rw [h1]; exact List.mem_append_left _ ht) act
      rw [this] at hs; cases hs

/-- **C69**. When the drops of the `Receiver` and of the last `Sender` have returned, so that the memory of the channel
is freed, no call on the channel is in progress and none can follow: nothing accesses the slots, the wait cell or the
wait queue any more. -/
theorem C69_nothing_after (h : Exec c tr s) {pre post : Trace V W} (htr : tr = pre ++ post)
    (hr : .api .rxDropped ∈ pre) (ht : .api .lastTxDropped ∈ pre) : post = [] := h.nothing_after htr hr ht

/-- **C69**, in every execution of the channel in which the removal of a waiter takes two steps. -/
theorem C69_drop_exact_fine_partial {f : FState w V W} (h : FRun c tr f) (hr : .api .rxDropped ∈ tr) (ht : .api .lastTxDropped ∈ tr)
    (hnp : NewElementNeverPanicked (coreOf tr)) (hwrap : nRes (coreOf tr) < period w c.cap ∨ c.cap ≤ nRes (coreOf tr) % period w c.cap) :
    ∃ l, dropSlots c.cap f.ch.core false = .dropped l ∧ (l.map Prod.fst).Nodup ∧
      (∀ i, i ∈ l.map Prod.fst ↔ i ∈ createdSlots (coreOf tr)) ∧
      (∀ i v, (i, v) ∈ l → v ≠ none) ∧
      (∀ i, i ∉ l.map Prod.fst → f.ch.core.val i = none) := by
  obtain ⟨tr', h1, he⟩ := h.sim
  have hc := coreOf_congr he
  rw [← hc] at hnp hwrap ⊢
  exact C69_drop_exact_partial (s := f.abs) h1 ((mem_of_quiet he rfl).2 hr) ((mem_of_quiet he rfl).2 ht) hnp hwrap

/-- **C69**, in every execution of the channel in which the removal of a waiter takes two steps. -/
theorem C69_unreceived_dropped_fine_partial {f : FState w V W} (h : FRun c tr f) (hr : .api .rxDropped ∈ tr) (ht : .api .lastTxDropped ∈ tr)
    (hnp : NewElementNeverPanicked (coreOf tr)) (hwrap : nRes (coreOf tr) < period w c.cap ∨ c.cap ≤ nRes (coreOf tr) % period w c.cap) :
    ∃ l, dropSlots c.cap f.ch.core false = .dropped l ∧ (l.map Prod.fst).Nodup ∧
      ∀ i a x, (resOps (coreOf tr))[i]? = some a → (received tr).length ≤ i → sent (coreOf tr) a = some x →
        (i % c.cap, some x) ∈ l := by
  obtain ⟨tr', h1, he⟩ := h.sim
  have hc := coreOf_congr he
  rw [← hc] at hnp hwrap ⊢
  rw [← received_congr he]
  exact C69_unreceived_dropped_partial (s := f.abs) h1 ((mem_of_quiet he rfl).2 hr) ((mem_of_quiet he rfl).2 ht) hnp hwrap

/-- **C69**, on the memory model. -/
theorem C69_nothing_after_weak {c : Config Nat} {tr : Trace V Nat} {xtr : List (RA.REv V)} {s : WState w V} (h : WRun c w tr xtr s) {pre post : Trace V Nat}
    (htr : tr = pre ++ post) (hr : .api .rxDropped ∈ pre) (ht : .api .lastTxDropped ∈ pre) : post = [] := h.exec.ctl.1.nothing_after htr hr ht

theorem WRun.over_quiet {c : Config Nat} {tr : Trace V Nat} {xtr : List (RA.REv V)} {s : WState w V} (h : WRun c w tr xtr s)
    (hr : .api .rxDropped ∈ tr) (ht : .api .lastTxDropped ∈ tr) (a : OpId) : ¬ Thingbuf.Pending (coreOf tr) a := by
  have hi := h.mem.inv.base.inv.base.inv
  rw [← h.exec.evs.1] at hi
  refine h.exec.ctl.1.over_quiet ?_ hr ht a
  intro b
  rw [congrFun h.exec.ctl.2.1 b]
  exact pcInv.status (hi.pcs b)

/-- **C69**, on the memory model. The thread that drops the channel has exclusive access to it: everything has happened before, and
it finds the last value that was written to each location. -/
theorem C69_drop_exact_weak_partial {c : Config Nat} {tr : Trace V Nat} {xtr : List (RA.REv V)} {s : WState w V} (h : WRun c w tr xtr s)
    (hr : .api .rxDropped ∈ tr) (ht : .api .lastTxDropped ∈ tr)
    (hnp : NewElementNeverPanicked (coreOf tr)) (hwrap : nRes (coreOf tr) < period w c.cap ∨ c.cap ≤ nRes (coreOf tr) % period w c.cap) :
    ∃ l, dropSlots c.cap s.mem.core.core false = .dropped l ∧ (l.map Prod.fst).Nodup ∧
      (∀ i, i ∈ l.map Prod.fst ↔ i ∈ createdSlots (coreOf tr)) ∧
      (∀ i v, (i, v) ∈ l → v ≠ none) ∧
      (∀ i a x, (resOps (coreOf tr))[i]? = some a → (received tr).length ≤ i → sent (coreOf tr) a = some x → (i % c.cap, some x) ∈ l) := by
  have hb := h.mem.inv.base.inv.base
  rw [← h.exec.evs.1] at hb
  obtain ⟨l, h1, h2, h3, h4, h5⟩ := drop_exact h.facts hb.inv hb.val (h.over_quiet hr ht) hnp hwrap
  refine ⟨l, h1, h2, h3, fun i v hv => (h4 i v hv).2, fun i a x ha hn hx => ?_⟩
  have hv := in_slot h.facts hb.inv h.exec.ctl.1.received ha hn hx
  have hm : i % c.cap ∈ l.map Prod.fst := Classical.byContradiction fun hn => by
    rw [h5 _ hn] at hv; cases hv
  obtain ⟨⟨j, v⟩, hj, he⟩ := List.mem_map.1 hm
  simp only at he
  subst he
  rwa [(h4 _ _ hj).1, hv] at hj

/-! #### Concrete cases -/

theorem Run.of_script_drop {c : Config Nat} {l : List It} {out : DropOutcome Nat} (hw : WellSized 8 c.cap)
    (h : (script c (State.init 8 Nat Nat) l).map (fun r => dropSlots c.cap r.1.core false) = some out)
    (hn : nRes (coreOf (scriptTr c l)) + 2 * c.cap < period 8 c.cap) :
    ∃ s : State 8 Nat Nat, Run c (scriptTr c l) s ∧ dropSlots c.cap s.core false = out := by
  obtain ⟨⟨s, evs⟩, hx, hy⟩ := Option.map_eq_some_iff.1 h
  refine ⟨s, ⟨hw, ?_, NoStall.of_few hn⟩, hy⟩
  have : scriptTr c l = evs := by simp [scriptTr, hx]
  rw [this]
  simpa using Exec.init.script hx

/-- Capacity two. Message 10 is received; messages 11 and 12 are not, the second of them in the slot of the first
message; then the `Sender` and the `Receiver` are dropped. -/
def endActs : List It := iSend 0 0 10 ++ iDropSend 0 1 ++ iPoll 7 [2, 3, 4] ++ iDropRecv 2 5 ++ iSend 1 6 11 ++ iDropSend 1 7 ++
  iSend 2 8 12 ++ iDropSend 2 9 ++ iDropTx 0 false [20, 21] ++ iDropRx false [22, 23]

/-- The hypotheses of the theorems of **C69** are met, and messages 11 and 12, which were not received, are dropped. -/
example (blocking : Bool) : ∃ (tr : Trace Nat Nat) (s : State 8 Nat Nat), Run (demoC 2 blocking) tr s ∧ .api .rxDropped ∈ tr ∧ .api .lastTxDropped ∈ tr ∧
    NewElementNeverPanicked (coreOf tr) ∧ nRes (coreOf tr) < period 8 2 ∧ received tr = [2] ∧ resOps (coreOf tr) = [0, 6, 8] ∧
    sent (coreOf tr) 6 = some 11 ∧ sent (coreOf tr) 8 = some 12 ∧ dropSlots 2 s.core false = .dropped [(0, some 12), (1, some 11)] := by
  obtain ⟨s, h1, h2⟩ := Run.of_script_drop (c := demoC 2 blocking) (l := endActs) (out := .dropped [(0, some 12), (1, some 11)]) (by cases blocking <;> decide)
    (by cases blocking <;> decide +kernel) (by cases blocking <;> decide +kernel)
  refine ⟨_, s, h1, by cases blocking <;> decide +kernel, by cases blocking <;> decide +kernel, fun a ha => ?_, by cases blocking <;> decide +kernel,
    by cases blocking <;> decide +kernel, by cases blocking <;> decide +kernel, by cases blocking <;> decide +kernel, by cases blocking <;> decide +kernel, h2⟩
  have : (coreOf (scriptTr (demoC 2 blocking) endActs)).all (fun | .ret _ .panicked => false | _ => true) = true := by cases blocking <;> decide +kernel
  have := List.all_eq_true.1 this _ ha
  simp at this

/-- **C69** is false when `new_element` panics: the slot that was reserved for the message was not initialised, and it is
dropped all the same when the channel is dropped. -/
theorem C69_false_if_new_element_panics (blocking : Bool) : ∃ (tr : Trace Nat Nat) (s : State 8 Nat Nat), Run (demoC 2 blocking) tr s ∧
    .api .rxDropped ∈ tr ∧ .api .lastTxDropped ∈ tr ∧ createdSlots (coreOf tr) = [] ∧ dropSlots 2 s.core false = .dropped [(0, none)] := by
  obtain ⟨s, h1, h2⟩ := Run.of_script_drop (c := demoC 2 blocking)
    (l := [.one (.send 0 0 true 0), .all [.push 0 (.run false)], .one (.push 0 (.elemPanic 1))] ++ iDropTx 0 false [20, 21] ++ iDropRx false [22, 23])
    (out := .dropped [(0, none)]) (by cases blocking <;> decide) (by cases blocking <;> decide +kernel) (by cases blocking <;> decide +kernel)
  exact ⟨_, s, h1, by cases blocking <;> decide +kernel, by cases blocking <;> decide +kernel, by cases blocking <;> decide +kernel, h2⟩

/-- The hypotheses of `C69_drop_exact_weak_partial` are met. -/
example (blocking : Bool) : ∃ (tr : Trace Nat Nat) (xtr : List (RA.REv Nat)) (s : WState 8 Nat), WRun (demoC 2 blocking) 8 tr xtr s ∧
    .api .rxDropped ∈ tr ∧ .api .lastTxDropped ∈ tr ∧ NewElementNeverPanicked (coreOf tr) ∧ nRes (coreOf tr) < period 8 2 ∧
    received tr = [2] ∧ resOps (coreOf tr) = [0, 6, 8] ∧ sent (coreOf tr) 6 = some 11 ∧ sent (coreOf tr) 8 = some 12 := by
  obtain ⟨s, hs, -⟩ := WExec.of_script (c := demoC 2 blocking) (l := endActs.map wOf) 0 (by cases blocking <;> decide +kernel) (by cases blocking <;> decide +kernel)
  refine ⟨_, _, s, ⟨by cases blocking <;> decide, rfl, hs⟩, by cases blocking <;> decide +kernel, by cases blocking <;> decide +kernel, fun a ha => ?_,
    by cases blocking <;> decide +kernel, by cases blocking <;> decide +kernel, by cases blocking <;> decide +kernel, by cases blocking <;> decide +kernel,
    by cases blocking <;> decide +kernel⟩
  have : (coreOf (wTr (demoC 2 blocking) (endActs.map wOf)).1).all (fun | .ret _ .panicked => false | _ => true) = true := by cases blocking <;> decide +kernel
  have := List.all_eq_true.1 this _ ha
  simp at this

end Thingbuf.Chan
