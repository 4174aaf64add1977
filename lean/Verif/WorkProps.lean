import Verif.Work
/-
C57: calls make each other retry only by succeeding (no livelock).
-/
namespace Thingbuf

variable {w cap : Nat} {V : Type} {tr₀ tr : Trace V} {s₀ s s' : State w V} {t : Tally}

/-- The counting behind the next theorems loses nothing: every stretch of every execution can be counted, and the
counts of steps and of spurious failures are those of the schedule. -/
theorem C57_counted (acts : List (Act V)) (hr : runActs cap s₀ acts = some (s, tr)) :
    ∃ t, Work cap tr₀ s₀ tr s t ∧ ∀ a, t.steps a = acts.countP (Act.isStepOf a) ∧
      t.spurious a = acts.countP (Act.isSpuriousOf a) := by
  obtain ⟨t, h1, h2⟩ := Work.ofActs (tr₀ := tr₀) acts .nil hr
  exact ⟨t, by simpa using h1, fun a => by simpa [Tally.zero] using h2 a⟩

/-- **C57** (one call) In every stretch of every execution, with any number of other calls running, a call of
`push_ref`, `pop_ref`, `len` or `close` takes at most 13 atomic steps, plus 13 for every claim made by anybody in
that stretch (a slot claimed by a push, an element claimed by a pop, a `close`), plus 13 for every spurious failure
of its own compare-and-swaps and for every step it takes while the slot it needs next is in other hands. Calls that
fail (`Full`, `Empty`, `Closed`), calls to `len`, and calls that lose a race never make another call retry. -/
theorem C57_call (h : Work cap tr₀ s₀ tr s t) (h0 : Exec w cap tr₀ s₀) (hr : Run w cap (tr₀ ++ tr) s) (a : OpId) :
    t.steps a ≤ 13 * (1 + claims tr + t.spurious a + t.waits a) := by
  have := (h.potential hr h0 a).2
  omega

/-- **C57** (completion) A call that has been given that many steps has returned, unless it is a push that has
claimed its slot, in which case only the user's own code for the new element remains. -/
theorem C57_completes (h : Work cap tr₀ s₀ tr s t) (h0 : Exec w cap tr₀ s₀) (hr : Run w cap (tr₀ ++ tr) s)
    {a : OpId} (ha : Invoked (tr₀ ++ tr) a)
    (hn : 13 * (1 + claims tr + t.spurious a + t.waits a) ≤ t.steps a) :
    Returned (tr₀ ++ tr) a ∨ ∃ i, Event.reserve a i ∈ tr₀ ++ tr := by
  have hp := (h.potential hr h0 a).2
  have h1 : s.rank cap a = 0 := by omega
  have h2 := hr.inv.pcs a
  unfold State.rank at h1
  cases hpc : s.pc a <;> rw [hpc] at h1 h2 <;> simp only [rank, pcInv] at h1 h2
  case idle => exact absurd ha h2.1
  case pushInit => obtain ⟨p, h3, _⟩ := h2; exact .inr ⟨_, hr.slot_res (List.prefix_refl _) h3.res⟩
  case pushHeld => obtain ⟨p, h3, h4, _⟩ := h2; exact .inl h4
  case pushPanicked => obtain ⟨p, h3, h4, _⟩ := h2; exact .inl h4
  case popHeld => obtain ⟨p, h3, _⟩ := h2; exact .inl h3.ret
  case done => exact .inl h2.2.1
  all_goals first | omega | (split at h1 <;> omega)

/-- **C57** (never stuck) A call that has neither returned nor claimed a slot can always take its next step. -/
theorem C57_enabled (h : Run w cap tr s) {a : OpId} (ha : Pending tr a) (hn : ∀ i, Event.reserve a i ∉ tr) :
    ∃ s' evs, step cap s (.run a) = some (s', evs) := by
  have h2 := h.inv.pcs a
  simp only [step, runStep]
  cases hpc : s.pc a <;> rw [hpc] at h2 <;> simp only [pcInv] at h2
  case idle => exact absurd ha.1 h2.1
  case pushInit => obtain ⟨p, h3, _⟩ := h2; exact absurd (h.slot_res (List.prefix_refl _) h3.res) (hn _)
  case pushHeld => obtain ⟨p, h3, h4, _⟩ := h2; exact absurd h4 ha.2
  case pushPanicked => obtain ⟨p, h3, h4, _⟩ := h2; exact absurd h4 ha.2
  case popHeld => obtain ⟨p, h3, _⟩ := h2; exact absurd h3.ret ha.2
  case done => exact absurd h2.2.1 ha.2
  case lenTail t hd =>
    by_cases e : s.tail = t
    · exact ⟨_, _, if_pos e⟩
    · exact ⟨_, _, if_neg e⟩
  all_goals exact ⟨_, _, rfl⟩

/-- **C57** (all calls) In a whole execution with `n` calls, the calls together take at most `13 * n * (n + 1)`
steps, plus 13 for every spurious failure and for every step taken while the slot needed next is in other hands.
(Nobody else takes steps: a call that has not been made takes none.) -/
theorem C57_total (h : Work cap [] (State.init w V) tr s t) (hr : Run w cap tr s) :
    ((calls tr).map t.steps).sum ≤ 13 * ((calls tr).length * (1 + (calls tr).length)
      + ((calls tr).map t.spurious).sum + ((calls tr).map t.waits).sum) ∧
    ∀ a, a ∉ calls tr → t.steps a = 0 := by
  refine ⟨?_, fun a ha => ?_⟩
  · refine Tally.sum_le fun a => ?_
    have h1 := C57_call h .init (by simpa using hr) a
    have h2 := hr.claims_le
    have : 13 * (1 + claims tr + t.spurious a + t.waits a) ≤
        13 * (1 + (calls tr).length + t.spurious a + t.waits a) := by omega
    omega
  · exact (h.potential (by simpa using hr) .init a).1 (hr.idle (mt mem_calls.2 ha))

/-- Two pushes race for the same slot; call 1 loses and retries once. Scaffolding of the model, no counterpart in
the source. -/
def raceActs : List (Act Nat) :=
  [.invoke 0 .push, .invoke 1 .push, .run 0, .run 1, .run 0, .run 1, .run 0, .run 1, .run 1, .run 1]

/-- The events of `raceActs`. Scaffolding of the model, no counterpart in the source. -/
def raceTr : Trace Nat := [.invoke 0 .push, .invoke 1 .push, .reserve 0 0, .reserve 1 1]

/-- The hypotheses of C57 are met by a race that makes call 1 take five steps instead of three: two calls, two
claims, eight steps. -/
example : ∃ (s : State 8 Nat) (t : Tally), Work 2 [] (State.init 8 Nat) raceTr s t ∧ Run 8 2 raceTr s ∧
    t.steps 0 = 3 ∧ t.steps 1 = 5 ∧ t.spurious 1 = 0 ∧ claims raceTr = 2 ∧ calls raceTr = [0, 1] := by
  cases hr : runActs 2 (State.init 8 Nat) raceActs with
  | none => exact absurd hr (by decide +kernel)
  | some r =>
    obtain ⟨s, tr⟩ := r
    have ht : tr = raceTr := by
      have h1 : (runActs 2 (State.init 8 Nat) raceActs).map Prod.snd = some raceTr := by decide +kernel
      rw [hr] at h1
      exact Option.some.inj h1
    subst ht
    obtain ⟨t, h1, h2⟩ := C57_counted (tr₀ := []) raceActs hr
    refine ⟨s, t, h1, ⟨by decide, by simpa using h1.exec .init, NoStall.of_few (by decide +kernel)⟩, ?_⟩
    have := h2 0
    have := h2 1
    simp_all [raceActs, Act.isStepOf, Act.isSpuriousOf]
    decide

/-- A pop holds its `Ref` while a push to the empty queue of capacity 1 wants the same slot: the push steps on and
on. Scaffolding of the model, no counterpart in the source. -/
def obstructActs : List (Act Nat) :=
  [.invoke 0 .push, .run 0, .run 0, .run 0, .elem 0 7, .dropRef 0,
   .invoke 1 .pop, .run 1, .run 1, .run 1, .invoke 2 .push] ++ List.replicate 40 (.run 2)

/-- The term for steps taken while the slot needed next is in other hands cannot be dropped: here a push takes 40
steps in a stretch with no claims and no spurious failure (all of them while the pop's `Ref` is alive). -/
example : ∃ (s₀ s : State 8 Nat) (tr₀ : Trace Nat), Run 8 1 tr₀ s₀ ∧ (∃ b, Holds tr₀ b (nRes tr₀ % 1)) ∧
    ∃ t, Work 1 tr₀ s₀ [] s t ∧ t.steps 2 = 40 ∧ t.spurious 2 = 0 ∧ claims ([] : Trace Nat) = 0 := by
  cases hr : runActs 1 (State.init 8 Nat) (obstructActs.take 11) with
  | none => exact absurd hr (by decide +kernel)
  | some r =>
    obtain ⟨s₀, tr₀⟩ := r
    have ht : tr₀ = [.invoke 0 .push, .reserve 0 0, .access 0 0 (.create 7), .ret 0 .pushed, .commit 0 0 (some 7),
        .invoke 1 .pop, .dequeue 1 0 (some 7), .ret 1 .popped, .invoke 2 .push] := by
      have h1 : (runActs 1 (State.init 8 Nat) (obstructActs.take 11)).map Prod.snd = some
        [.invoke 0 .push, .reserve 0 0, .access 0 0 (.create 7), .ret 0 .pushed, .commit 0 0 (some 7),
        .invoke 1 .pop, .dequeue 1 0 (some 7), .ret 1 .popped, .invoke 2 .push] := by decide +kernel
      rw [hr] at h1
      exact Option.some.inj h1
    cases hr2 : runActs 1 s₀ (List.replicate 40 (.run 2)) with
    | none =>
      have h1 : ((runActs 1 (State.init 8 Nat) (obstructActs.take 11)).bind fun r =>
        runActs 1 r.1 (List.replicate 40 (.run 2))).isSome = true := by decide +kernel
      rw [hr, Option.bind_some, hr2] at h1
      cases h1
    | some r =>
      obtain ⟨s, tr⟩ := r
      have ht2 : tr = [] := by
        have h1 : ((runActs 1 (State.init 8 Nat) (obstructActs.take 11)).bind fun r =>
          runActs 1 r.1 (List.replicate 40 (.run 2))).map Prod.snd = some [] := by decide +kernel
        rw [hr, Option.bind_some, hr2] at h1
        exact Option.some.inj h1
      subst ht2
      refine ⟨s₀, s, tr₀, ⟨by decide, by simpa using Exec.init.of_runActs hr, ?_⟩, ?_, ?_⟩
      · subst ht; exact NoStall.of_few (by decide +kernel)
      · subst ht; exact ⟨1, by simp [Holds, Committed, Released, Nat.mod_one]⟩
      · obtain ⟨t, h1, h2⟩ := C57_counted (tr₀ := tr₀) _ hr2
        refine ⟨t, h1, ?_, ?_, rfl⟩
        · rw [(h2 2).1]; decide +kernel
        · rw [(h2 2).2]; decide +kernel

end Thingbuf
