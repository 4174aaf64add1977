/-
The `no_std` spin lock (/repo/src/util/mutex/spin_impl.rs): C43.
-/
namespace Thingbuf.Spin

/-- Where a thread is. Models the control flow of /repo/src/util/mutex/spin_impl.rs lines 40-54 and 91-96. -/
inductive PC where
  | idle
  /-- `lock`, before the `compare_exchange` (/repo/src/util/mutex/spin_impl.rs line 43) -/
  | cas
  /-- `lock`, before the load in the inner loop (line 44) -/
  | spin
  /-- holds the `MutexGuard` (lines 50-53) -/
  | held
deriving DecidableEq, Repr

/-- `Mutex<T>` (/repo/src/util/mutex/spin_impl.rs lines 10-13) and the threads. -/
structure State (T : Type) where
  locked : Bool
  data : T
  pc : Nat → PC

/-- `const_mutex` / `Mutex::new` (lines 22-36). -/
def State.init {T : Type} (d : T) : State T := ⟨false, d, fun _ => .idle⟩

/-- Scaffolding of the model, no counterpart in the source. -/
def setPC {T : Type} (s : State T) (a : Nat) (p : PC) : State T :=
  { s with pc := fun b => if b = a then p else s.pc b }

/-- What happens next. Calls of /repo/src/util/mutex/spin_impl.rs lines 40-96, and scheduling. -/
inductive Act (T : Type) where
  /-- thread `a` calls `lock` -/
  | call (a : Nat)
  /-- thread `a` takes its next step inside `lock` -/
  | run (a : Nat)
  /-- thread `a` writes through its guard (`DerefMut`, lines 79-88) -/
  | write (a : Nat) (d : T)
  /-- thread `a` drops its guard (lines 91-96) -/
  | unlock (a : Nat)

/-- The machine (/repo/src/util/mutex/spin_impl.rs lines 40-54, 79-96). `Backoff` has no effect on
memory. -/
def step {T : Type} (s : State T) : Act T → Option (State T)
  | .call a => if s.pc a = .idle then some (setPC s a .cas) else none
  | .run a => match s.pc a with
    | .cas => if s.locked = false then some { setPC s a .held with locked := true } else some (setPC s a .spin)
    | .spin => if s.locked then some s else some (setPC s a .cas)
    | _ => none
  | .write a d => if s.pc a = .held then some { s with data := d } else none
  | .unlock a => if s.pc a = .held then some { setPC s a .idle with locked := false } else none

/-- Reachable states, with the log of successful acquisitions, writes and releases. Scaffolding of the model, no
counterpart in the source. -/
inductive Reach {T : Type} (d : T) : State T → Prop where
  | init : Reach d (State.init d)
  | step {s s' : State T} {act : Act T} : Reach d s → step s act = some s' → Reach d s'

theorem Reach.inv {T : Type} {d : T} {s : State T} (h : Reach d s) :
    (∀ a, s.pc a = .held → s.locked = true) ∧ (∀ a b, s.pc a = .held → s.pc b = .held → a = b) ∧
    (s.locked = true → ∃ a, s.pc a = .held) := by
  induction h with
  | init => simp [State.init]
  | @step s s' act _ hs ih =>
    obtain ⟨i1, i2, i3⟩ := ih
    cases act with
    | call a =>
      simp only [Spin.step] at hs
      split at hs
      · rename_i hp
        cases hs
        refine ⟨fun b hb => ?_, fun b c hb hc => ?_, fun hl => ?_⟩
        · simp only [setPC] at hb ⊢; split at hb
          · cases hb
          · exact i1 _ hb
        · simp only [setPC] at hb hc
          split at hb
          · cases hb
          · split at hc
            · cases hc
            · exact i2 _ _ hb hc
        · obtain ⟨b, hb⟩ := i3 hl
          refine ⟨b, ?_⟩
          simp only [setPC]
          split
          · rename_i h; subst h; rw [hp] at hb; cases hb
          · exact hb
      · cases hs
    | run a =>
      simp only [Spin.step] at hs
      split at hs
      · rename_i hp
        split at hs
        · rename_i hl
          cases hs
          refine ⟨fun b hb => rfl, fun b c hb hc => ?_, fun _ => ⟨a, by simp [setPC]⟩⟩
          have hno : ∀ b, s.pc b ≠ .held := fun b hb => by rw [i1 b hb] at hl; cases hl
          simp only [setPC] at hb hc
          split at hb
          · rename_i h1
            split at hc
            · rename_i h2; rw [h1, h2]
            · exact absurd hc (hno c)
          · exact absurd hb (hno b)
        · cases hs
          refine ⟨fun b hb => ?_, fun b c hb hc => ?_, fun hl => ?_⟩
          · simp only [setPC] at hb ⊢; split at hb
            · cases hb
            · exact i1 _ hb
          · simp only [setPC] at hb hc
            split at hb
            · cases hb
            · split at hc
              · cases hc
              · exact i2 _ _ hb hc
          · obtain ⟨b, hb⟩ := i3 hl
            refine ⟨b, ?_⟩
            simp only [setPC]
            split
            · rename_i h; subst h; rw [hp] at hb; cases hb
            · exact hb
      · rename_i hp
        split at hs
        · cases hs; exact ⟨i1, i2, i3⟩
        · cases hs
          refine ⟨fun b hb => ?_, fun b c hb hc => ?_, fun hl => ?_⟩
          · simp only [setPC] at hb ⊢; split at hb
            · cases hb
            · exact i1 _ hb
          · simp only [setPC] at hb hc
            split at hb
            · cases hb
            · split at hc
              · cases hc
              · exact i2 _ _ hb hc
          · obtain ⟨b, hb⟩ := i3 hl
            refine ⟨b, ?_⟩
            simp only [setPC]
            split
            · rename_i h; subst h; rw [hp] at hb; cases hb
            · exact hb
      · cases hs
    | write a d =>
      simp only [Spin.step] at hs
      split at hs
      · cases hs; exact ⟨i1, i2, i3⟩
      · cases hs
    | unlock a =>
      simp only [Spin.step] at hs
      split at hs
      · rename_i hp
        cases hs
        have hno : ∀ b, (setPC s a .idle).pc b ≠ .held := by
          intro b hb
          simp only [setPC] at hb
          split at hb
          · cases hb
          · rename_i h; exact h (i2 _ _ hb hp)
        exact ⟨fun b hb => absurd hb (hno b), fun b c hb _ => absurd hb (hno b), fun h => by cases h⟩
      · cases hs

/-- **C43** Mutual exclusion: in every reachable state, of any number of threads, at most one holds
the guard; and only a thread that holds it can change the data. -/
theorem C43_mutual_exclusion {T : Type} {d : T} {s : State T} (h : Reach d s) :
    (∀ a b, s.pc a = .held → s.pc b = .held → a = b) ∧
    (∀ act s', step s act = some s' → s'.data ≠ s.data → ∃ a, s.pc a = .held ∧ ∃ x, act = .write a x) := by
  refine ⟨h.inv.2.1, fun act s' hs hne => ?_⟩
  cases act with
  | write a x =>
    simp only [step] at hs
    split at hs
    · rename_i hp; exact ⟨a, hp, x, rfl⟩
    · cases hs
  | call a =>
    simp only [step] at hs; split at hs
    · cases hs; exact absurd rfl hne
    · cases hs
  | unlock a =>
    simp only [step] at hs; split at hs
    · cases hs; exact absurd rfl hne
    · cases hs
  | run a =>
    simp only [step] at hs; split at hs
    · split at hs <;> cases hs <;> exact absurd rfl hne
    · split at hs <;> cases hs <;> exact absurd rfl hne
    · cases hs

/-- **C43** A thread inside `lock` that runs alone while nobody holds the guard gets it within two steps. -/
theorem C43_solo_acquire {T : Type} {d : T} {s : State T} (h : Reach d s) (hfree : ∀ b, s.pc b ≠ .held)
    {a : Nat} (ha : s.pc a = .cas ∨ s.pc a = .spin) :
    (∃ s', step s (.run a) = some s' ∧ s'.pc a = .held) ∨
    (∃ s' s'', step s (.run a) = some s' ∧ step s' (.run a) = some s'' ∧ s''.pc a = .held) := by
  have hl : s.locked = false := by
    cases hl : s.locked with
    | false => rfl
    | true => obtain ⟨b, hb⟩ := h.inv.2.2 hl; exact absurd hb (hfree b)
  rcases ha with ha | ha
  · left
    refine ⟨{ setPC s a .held with locked := true }, by simp [step, ha, hl], by simp [setPC]⟩
  · right
    refine ⟨setPC s a .cas, { setPC (setPC s a .cas) a .held with locked := true }, by simp [step, ha, hl], ?_,
      by simp [setPC]⟩
    simp [step, setPC, hl]

/-- **C43** While somebody holds the guard no other thread acquires it, however long it spins. -/
theorem C43_no_steal {T : Type} {d : T} {s s' : State T} (h : Reach d s) {a b : Nat} (ha : s.pc a = .held)
    {act : Act T} (hs : step s act = some s') (hb : s'.pc b = .held) (hact : ∀ c, act ≠ .unlock c) : b = a := by
  have h' := (Reach.step h hs).inv.2.1
  refine h' b a hb ?_
  cases act with
  | unlock c => exact absurd rfl (hact c)
  | write c x =>
    simp only [step] at hs; split at hs
    · cases hs; exact ha
    · cases hs
  | call c =>
    simp only [step] at hs; split at hs
    · rename_i hp; cases hs
      simp only [setPC]; split
      · rename_i e; subst e; rw [hp] at ha; cases ha
      · exact ha
    · cases hs
  | run c =>
    simp only [step] at hs; split at hs
    · rename_i hp
      have hne : a ≠ c := by intro e; rw [e, hp] at ha; cases ha
      split at hs <;> cases hs <;> simpa [setPC, hne] using ha
    · rename_i hp
      split at hs <;> cases hs
      · exact ha
      · simp only [setPC]; split
        · rename_i e; subst e; rw [hp] at ha; cases ha
        · exact ha
    · cases hs

/-- Run a list of actions (for concrete cases). Scaffolding of the model, no counterpart in the source. -/
def runActs {T : Type} : State T → List (Act T) → Option (State T)
  | s, [] => some s
  | s, act :: acts => (step s act).bind fun s' => runActs s' acts

/-- Three threads contend; thread 1 holds the lock, has written, and thread 2 spins. -/
example : ((runActs (State.init 0) [.call 0, .call 1, .call 2, .run 1, .run 2, .run 0, .write 1 5, .run 2]).map
    fun s => (s.pc 0, s.pc 1, s.pc 2, s.locked, s.data)) = some (.spin, .held, .spin, true, 5) := by
  decide

end Thingbuf.Spin
