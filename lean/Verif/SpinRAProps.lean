import Verif.SpinRAInv
/-
C60: the `no_std` spin lock protects its data under the memory orderings written in the source.
-/
namespace Thingbuf.SpinRA

variable {T : Type} {o : Orders} {d : T} {tr : Trace T} {s : State T}

/-- **C60**. Mutual exclusion, although loads may return outdated values: the lock is acquired only when nobody holds it,
and the data is accessed, and the lock released, only by the one who holds it. -/
theorem C60_mutual_exclusion (h : Exec Orders.source d tr s) {pre post : Trace T} {e : Event T} {hb : List Nat}
    (htr : tr = pre ++ (e, hb) :: post) :
    match e with
    | .lock _ => holder pre = none
    | .read a _ | .write a _ | .unlock a => holder pre = some a := by
  have := ((h.inv rfl rfl).ok _ _ _ htr).2
  cases e with
  | read a x => exact this.1
  | lock a => exact this
  | write a x => exact this
  | unlock a => exact this

/-- **C60**. No data race: of any two of the events acquire, access and release, the earlier happens before the later. -/
theorem C60_race_free (h : Exec Orders.source d tr s) {p q : Nat} {e : Event T} {hb : List Nat} (hq : tr[q]? = some (e, hb))
    (hpq : p < q) : p ∈ hb := by
  obtain ⟨hl, heq⟩ := List.getElem?_eq_some_iff.1 hq
  have htr : tr = tr.take q ++ (e, hb) :: tr.drop (q + 1) := by
    rw [← heq, ← List.drop_eq_getElem_cons hl, List.take_append_drop]
  exact ((h.inv rfl rfl).ok _ _ _ htr).1 p (by rw [List.length_take]; omega)

/-- **C60**. So the holder of the lock reads what was written last, by whomever. -/
theorem C60_reads_last_write (h : Exec Orders.source d tr s) {pre post : Trace T} {a : OpId} {x : T} {hb : List Nat}
    (htr : tr = pre ++ (.read a x, hb) :: post) : x = lastWrite d pre :=
  ((h.inv rfl rfl).ok _ _ _ htr).2.2

/-- **C60**. Which orderings matter: only that a successful `compare_exchange` acquires and the `store` of the drop
releases. -/
theorem C60_race_free_orders (hacq : o.casOk.acq = true) (hrel : o.unlock.rel = true) (h : Exec o d tr s) {p q : Nat}
    {e : Event T} {hb : List Nat} (hq : tr[q]? = some (e, hb)) (hpq : p < q) : p ∈ hb := by
  obtain ⟨hl, heq⟩ := List.getElem?_eq_some_iff.1 hq
  have htr : tr = tr.take q ++ (e, hb) :: tr.drop (q + 1) := by
    rw [← heq, ← List.drop_eq_getElem_cons hl, List.take_append_drop]
  exact ((h.inv hacq hrel).ok _ _ _ htr).1 p (by rw [List.length_take]; omega)

theorem runActs_exec {acts : List (Act T)} {s' : State T} {evs : Trace T} (h : Exec o d tr s)
    (hr : runActs o s acts = some (s', evs)) : Exec o d (tr ++ evs) s' := by
  induction acts generalizing tr s evs with
  | nil => cases hr; rwa [List.append_nil]
  | cons act acts ih =>
    simp only [runActs] at hr
    split at hr
    · cases hr
    · next s1 e1 h1 =>
      split at hr
      · cases hr
      · next s2 e2 h2 =>
        cases hr
        rw [← List.append_assoc]
        exact ih (h.step h1) h2

/-- Two calls of `lock` compete. Call 1 gets the lock; call 2 finds it locked, spins and reads an outdated `true` once
more after the lock was released; then it gets the lock and reads what call 1 wrote. -/
def demo : List (Act Nat) :=
  [.call 1, .call 2, .run 1 0 1, .run 2 1 0, .write 1 7, .unlock 1 2, .run 2 1 0, .run 2 2 0, .run 2 2 3, .read 2 1, .unlock 2 4]

/-- The events of the demo. -/
theorem demo_run : ∃ (tr : Trace Nat) (s : State Nat), Exec Orders.source 0 tr s ∧
    tr.map Prod.fst = [.lock 1, .write 1 7, .unlock 1, .lock 2, .read 2 7, .unlock 2] :=
  ⟨_, _, runActs_exec (acts := demo) .init (s' := ((runActs Orders.source (.init 0) demo).get rfl).1)
    (evs := ((runActs Orders.source (.init 0) demo).get rfl).2) rfl, rfl⟩

example : holder (([(.lock 1, []), (.write 1 7, [0]), (.unlock 1, [1, 0]), (.lock 2, [2, 1, 0])]) : Trace Nat) = some 2 ∧
    lastWrite 0 (([(.lock 1, []), (.write 1 7, [0]), (.unlock 1, [1, 0]), (.lock 2, [2, 1, 0])]) : Trace Nat) = 7 := by decide

/-- The `Release` of the drop is needed: with a relaxed store the next holder may not see what the last one wrote. -/
theorem C60_release_needed : ∃ (tr : Trace Nat) (s : State Nat), Exec { Orders.source with unlock := .relaxed } 0 tr s ∧
    tr.map Prod.fst = [.lock 1, .write 1 7, .unlock 1, .lock 2, .read 2 0] := by
  refine ⟨_, _, runActs_exec (acts := [.call 1, .call 2, .run 1 0 1, .write 1 7, .unlock 1 2, .run 2 2 3, .read 2 0]) .init
    (s' := ((runActs { Orders.source with unlock := .relaxed } (.init 0)
      [.call 1, .call 2, .run 1 0 1, .write 1 7, .unlock 1 2, .run 2 2 3, .read 2 0]).get rfl).1)
    (evs := ((runActs { Orders.source with unlock := .relaxed } (.init 0)
      [.call 1, .call 2, .run 1 0 1, .write 1 7, .unlock 1 2, .run 2 2 3, .read 2 0]).get rfl).2) rfl, rfl⟩

/-- And so is the `Acquire` of the `compare_exchange`. -/
theorem C60_acquire_needed : ∃ (tr : Trace Nat) (s : State Nat), Exec { Orders.source with casOk := .release } 0 tr s ∧
    tr.map Prod.fst = [.lock 1, .write 1 7, .unlock 1, .lock 2, .read 2 0] := by
  refine ⟨_, _, runActs_exec (acts := [.call 1, .call 2, .run 1 0 1, .write 1 7, .unlock 1 2, .run 2 2 3, .read 2 0]) .init
    (s' := ((runActs { Orders.source with casOk := .release } (.init 0)
      [.call 1, .call 2, .run 1 0 1, .write 1 7, .unlock 1 2, .run 2 2 3, .read 2 0]).get rfl).1)
    (evs := ((runActs { Orders.source with casOk := .release } (.init 0)
      [.call 1, .call 2, .run 1 0 1, .write 1 7, .unlock 1 2, .run 2 2 3, .read 2 0]).get rfl).2) rfl, rfl⟩

end Thingbuf.SpinRA
