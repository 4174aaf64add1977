import Verif.Backoff
/-
Properties of `Backoff`: C42.
-/
namespace Thingbuf

theorem Backoff.spin_n (b : Backoff) : b.spin.n = if b.n ≤ 3 then b.n + 1 else b.n := by
  unfold Backoff.spin Backoff.maxSpins; split <;> rfl

theorem Backoff.spinYield_n (b : Backoff) : b.spinYield.n = if b.n ≤ 6 then b.n + 1 else b.n := by
  unfold Backoff.spinYield Backoff.maxYields; split <;> rfl

/-- One call on a `Backoff`. -/
inductive BackoffCall where
  | spin
  | spinYield
deriving DecidableEq, Repr

/-- Its effect. -/
def Backoff.apply (b : Backoff) : BackoffCall → Backoff
  | .spin => b.spin
  | .spinYield => b.spinYield

/-- The counter after a sequence of calls on a new `Backoff`. -/
def Backoff.after (l : List BackoffCall) : Backoff := l.foldl Backoff.apply Backoff.new

/-- **C42** After any sequence of `spin`/`spin_yield` calls the counter is at most 7, so it fits `u8`, the
next increment does not overflow, and the shifts `1 << self.0` and `1 << self.0.min(MAX_SPINS)` (on
`i32`) stay below the width of the type: a call issues at most 128 spin hints. -/
theorem C42_backoff_bounded (l : List BackoffCall) :
    (Backoff.after l).n ≤ 7 ∧ ((Backoff.after l).apply .spin).n < 256 ∧
    ((Backoff.after l).apply .spinYield).n < 256 ∧
    (Backoff.after l).spinIters ≤ 8 ∧ ∀ std, (Backoff.after l).spinYieldIters std ≤ 128 := by
  have key : ∀ (b : Backoff), b.n ≤ 7 → (l.foldl Backoff.apply b).n ≤ 7 := by
    induction l with
    | nil => exact fun b h => h
    | cons c l ih =>
      intro b h
      refine ih _ ?_
      cases c <;> simp only [Backoff.apply, Backoff.spin_n, Backoff.spinYield_n] <;> split <;> omega
  have h7 : (Backoff.after l).n ≤ 7 := key _ (by decide)
  generalize Backoff.after l = b at h7
  obtain ⟨n⟩ := b
  simp only at h7
  have hn : n = 0 ∨ n = 1 ∨ n = 2 ∨ n = 3 ∨ n = 4 ∨ n = 5 ∨ n = 6 ∨ n = 7 := by omega
  rcases hn with rfl | rfl | rfl | rfl | rfl | rfl | rfl | rfl <;> decide

/-- **C42** The counter never decreases, and once `done_spinning` holds it holds for ever. -/
theorem C42_backoff_monotone (l l' : List BackoffCall) :
    (Backoff.after l).n ≤ (Backoff.after (l ++ l')).n ∧
    ((Backoff.after l).doneSpinning = true → (Backoff.after (l ++ l')).doneSpinning = true) := by
  have key : ∀ (l' : List BackoffCall) (b : Backoff), b.n ≤ (l'.foldl Backoff.apply b).n := by
    intro l'
    induction l' with
    | nil => exact fun b => Nat.le_refl _
    | cons c l ih =>
      intro b
      refine Nat.le_trans ?_ (ih _)
      cases c <;> simp only [Backoff.apply, Backoff.spin_n, Backoff.spinYield_n] <;> split <;> omega
  have h := key l' (Backoff.after l)
  have e : Backoff.after (l ++ l') = l'.foldl Backoff.apply (Backoff.after l) := by
    simp [Backoff.after, List.foldl_append]
  rw [e]
  refine ⟨h, fun hd => ?_⟩
  simp only [Backoff.doneSpinning, decide_eq_true_eq] at hd ⊢
  omega

/-- **C42** Spinning makes progress: three calls are enough to be done. -/
theorem C42_backoff_done (l : List BackoffCall) (h : 3 ≤ l.length) : (Backoff.after l).doneSpinning = true := by
  match l, h with
  | a :: b :: c :: l, _ =>
    have h3 : (Backoff.after [a, b, c]).doneSpinning = true := by
      cases a <;> cases b <;> cases c <;> decide
    exact (C42_backoff_monotone [a, b, c] l).2 h3

example : (Backoff.after [.spin, .spinYield]).doneSpinning = false ∧
    (Backoff.after [.spin, .spinYield, .spin]).doneSpinning = true ∧
    (Backoff.after (List.replicate 20 .spinYield)).n = 7 ∧ (Backoff.after (List.replicate 20 .spin)).n = 4 := by
  decide

end Thingbuf
