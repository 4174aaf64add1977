import Verif.QueueSolo

/-!
# C50: the wait queue does not deadlock

`start_wait`, `continue_wait`, the removal of a waiting node, `notify` and `close` share a lock.
-/

namespace Thingbuf.Queue

variable {W : Type} {c : Config W} {bm : Bool} {tr : Trace W} {s : State W}

/-- **C50.** At every moment, every call in progress can be brought to its end (it returns, or fails a debug assertion) by steps of only one other call in progress, the one that
holds the lock, followed by steps of its own. Their number is bounded in terms of the number of waiting senders. -/
theorem C50_no_deadlock (h : ExecM bm c tr s) {t : Tid} (ht : inCall tr t = true) :
    ∃ u m n s' evs, inCall tr u = true ∧ m + n ≤ 4 * (queueOf tr).length + 20 ∧
      runActs c s (List.replicate m u.act ++ List.replicate n t.act) = some (s', evs) ∧ inCall (tr ++ evs) t = false := by
  rw [h.inCall] at ht
  obtain ⟨u, m, n, s', evs, h1, h2, h3, h4⟩ := h.canEnd ht
  exact ⟨u, m, n, s', evs, by rw [h.inCall]; exact h1, h2, h3, by rw [(h.of_runActs h3).inCall]; exact h4⟩

/-- **C50.** A call that runs while no other call is in progress ends by itself. -/
theorem C50_alone (h : ExecM bm c tr s) {t : Tid} (ht : inCall tr t = true) (ho : ∀ u, u ≠ t → inCall tr u = false) :
    ∃ n s' evs, n ≤ 2 * (queueOf tr).length + 9 ∧ runActs c s (List.replicate n t.act) = some (s', evs) ∧ ∀ u, inCall (tr ++ evs) u = false := by
  rw [h.inCall] at ht
  have hl : s.lock = none ∨ s.lock = some t := by
    cases hl : s.lock with
    | none => exact .inl rfl
    | some u =>
      by_cases hu : u = t
      · exact .inr (by rw [hu])
      · have := ho u hu
        rw [h.inCall, PC.busy_of_crit ((h.inv.lockC u).1 hl)] at this
        cases this
  obtain ⟨n, s', evs, h1, h2, h3, _, h5, _⟩ := h.runSolo (t := t) _ hl ht (PC.rank_le ..)
  refine ⟨n, s', evs, h1, h2, fun u => ?_⟩
  rw [(h.of_runActs h2).inCall]
  by_cases hu : u = t
  · rw [hu]; exact h3
  · rw [h5 u hu, ← h.inCall]; exact ho u hu

/-- Sender 0 waits. A `notify` holds the lock and has taken node 0; `continue_wait` of sender 0 and `start_wait` of sender 1 are in progress, too: they wait for the lock. -/
def soloDemo : List (Act Nat) :=
  [.start 0 7, .node 0 false, .node 0 false, .node 0 false, .node 0 false, .node 0 false, .node 0 false,
   .cont 0 7, .node 0 false, .notify 5, .op 5 false, .op 5 false, .op 5 false, .start 1 8, .node 1 false]

def soloC : Config Nat := ⟨true, (· == ·)⟩

def soloTr : Trace Nat := ((runActs soloC State.init soloDemo).map Prod.snd).getD []

example : (∃ s, Exec soloC soloTr s) ∧ inCall soloTr (.node 0) = true ∧ inCall soloTr (.node 1) = true ∧ inCall soloTr (.op 5) = true ∧
    inCall soloTr (.node 2) = false ∧
    -- the two senders cannot take a step, the `notify` can
    (runActs soloC State.init (soloDemo ++ [.node 0 false])).isNone ∧ (runActs soloC State.init (soloDemo ++ [.node 1 false])).isNone ∧
    (runActs soloC State.init (soloDemo ++ [.op 5 false])).isSome :=
  ⟨Exec.of_trace (acts := soloDemo) (by decide), by decide, by decide, by decide, by decide, by decide, by decide, by decide⟩

/-- `notify` runs while nothing else does. -/
def aloneTr : Trace Nat := ((runActs soloC State.init (soloDemo.take 7 ++ [.notify 5])).map Prod.snd).getD []

example : (∃ s, Exec soloC aloneTr s) ∧ inCall aloneTr (.op 5) = true ∧ ∀ u, u ≠ .op 5 → inCall aloneTr u = false := by
  have he : aloneTr = [.callStart 0 7, .touch (.node 0) 0, .enq 0 7, .retStart 0 .wait, .callNotify 5] := by decide
  refine ⟨Exec.of_trace (acts := soloDemo.take 7 ++ [.notify 5]) (by decide), by decide, fun u hu => ?_⟩
  rw [he]
  cases u with
  | node n => simp [inCall, cstep]
  | op o => simpa [inCall, cstep] using hu

end Thingbuf.Queue
