/-
Words and position arithmetic of `Core` (/repo/src/lib.rs lines 89-166).

`usize` is `BitVec w` for an arbitrary width `w`.  Nothing in this file depends on
Mathlib.
-/
namespace Thingbuf

/-- `usize::next_power_of_two` of the Rust core library, called from `Core::new`
(/repo/src/lib.rs line 109), which computes it as `MAX >> (n-1).leading_zeros()) + 1`.
`nextPow2_spec` shows that it is the least power of two that is at least `n`. -/
def nextPow2 (n : Nat) : Nat := if n ≤ 1 then 1 else 2 ^ (Nat.log2 (n - 1) + 1)

theorem nextPow2_spec (n : Nat) :
    (∃ k, nextPow2 n = 2 ^ k) ∧ n ≤ nextPow2 n ∧ ∀ k, n ≤ 2 ^ k → nextPow2 n ≤ 2 ^ k := by
  unfold nextPow2
  split
  · exact ⟨⟨0, rfl⟩, by omega, fun k _ => Nat.one_le_two_pow⟩
  · have hne : n - 1 ≠ 0 := by omega
    refine ⟨⟨_, rfl⟩, ?_, ?_⟩
    · have := Nat.lt_log2_self (n := n - 1)
      omega
    · intro k hk
      have h1 : 2 ^ (n - 1).log2 ≤ n - 1 := Nat.log2_self_le hne
      have : 2 ^ (n-1).log2 < 2 ^ k := by omega
      have := (Nat.pow_lt_pow_iff_right (a := 2) (by omega)).1 this
      exact Nat.pow_le_pow_right (by omega) this

/-- The immutable fields of `Core` (/repo/src/lib.rs lines 89-99: `gen`, `gen_mask`,
`idx_mask`, `closed`, `capacity`).  The mutable fields `head`, `tail` are part of the
machine state (`Verif/Core.lean`). -/
structure Params (w : Nat) where
  gen : BitVec w
  genMask : BitVec w
  idxMask : BitVec w
  closed : BitVec w
  capacity : BitVec w

/-- `Core::new` (/repo/src/lib.rs lines 108-123).  `capacity + 1` and
`next_power_of_two` are computed on `Nat` and then truncated to the word; the two agree with the
checked/wrapping Rust operations whenever `WellSized` holds. -/
def Params.new (w cap : Nat) : Params w :=
  let closed : BitVec w := BitVec.ofNat w (nextPow2 (cap + 1))
  let idxMask : BitVec w := closed - 1#w
  { gen := closed <<< 1
    genMask := ~~~(closed ||| idxMask)
    idxMask := idxMask
    closed := closed
    capacity := BitVec.ofNat w cap }

/-- Rust's `+` on `usize`: overflow panics in debug builds.  `none` is that panic. Used for the additions of
/repo/src/lib.rs lines 152, 155, 246, 260 and 315. -/
def checkedAdd {w : Nat} (x y : BitVec w) : Option (BitVec w) :=
  if x.toNat + y.toNat < 2 ^ w then some (x + y) else none

/-- `Core::idx_gen` (/repo/src/lib.rs lines 145-147). -/
def Params.idxGen {w : Nat} (c : Params w) (val : BitVec w) : BitVec w × BitVec w :=
  (val &&& c.idxMask, val &&& c.genMask)

/-- `Core::next` (/repo/src/lib.rs lines 150-161); `none` is an arithmetic overflow panic. -/
def Params.next {w : Nat} (c : Params w) (idx gen : BitVec w) : Option (BitVec w) :=
  match checkedAdd idx 1#w with
  | none => none
  | some i1 =>
    if i1 < c.capacity then checkedAdd (idx ||| gen) 1#w
    else some (gen + c.gen)

/-- The sizes for which the encoding works: at least one slot, and at least four
generations fit in a word.  `wellSized_of_alloc64`/`32` show that every slot array that can
be allocated satisfies this. About the words that /repo/src/lib.rs lines 108-123 compute; no code checks this. -/
def WellSized (w cap : Nat) : Prop :=
  0 < cap ∧ 8 * nextPow2 (cap + 1) ≤ 2 ^ w

instance (w cap : Nat) : Decidable (WellSized w cap) := inferInstanceAs (Decidable (_ ∧ _))

/-- Number of generations that fit in a word. About the layout of /repo/src/lib.rs lines 89-123; no code computes
this. -/
def numGens (w cap : Nat) : Nat := 2 ^ w / (2 * nextPow2 (cap + 1))

/-- Number of positions before the position counter wraps. About the layout of /repo/src/lib.rs lines 89-123; no
code computes this. -/
def period (w cap : Nat) : Nat := cap * numGens w cap

/-- The word that represents position `p`: lap number in the generation bits, index in
the low bits. The words that /repo/src/lib.rs lines 150-161 produce one after the other. -/
def enc (w cap p : Nat) : BitVec w :=
  BitVec.ofNat w (p / cap * (2 * nextPow2 (cap + 1)) + p % cap)

/-- The value of `tail` at position `p`, with the closed bit set iff `c`. The closed bit is that of /repo/src/lib.rs
line 173. -/
def tailWord (w cap p : Nat) (c : Bool) : BitVec w :=
  if c then enc w cap p ||| (Params.new w cap).closed else enc w cap p

/-! ### Arithmetic facts about `WellSized` -/

/-- Arithmetic consequences of `WellSized`. Scaffolding of the model, no counterpart in the source. -/
structure Sz (w cap k n : Nat) : Prop where
  pos : 0 < cap
  npt : nextPow2 (cap + 1) = 2 ^ k
  lt : cap < 2 ^ k
  w_eq : w = (k + 1) + n
  n2 : 2 ≤ n

theorem WellSized.sz {w cap : Nat} (h : WellSized w cap) : ∃ k n, Sz w cap k n := by
  obtain ⟨hpos, h8⟩ := h
  obtain ⟨⟨k, hk⟩, hle, -⟩ := nextPow2_spec (cap + 1)
  have hlt : cap + 1 ≤ 2 ^ k := hk ▸ hle
  rw [hk] at h8
  have h8' : 2 ^ (k + 3) ≤ 2 ^ w := by rw [Nat.pow_add]; omega
  have hkw : k + 3 ≤ w := (Nat.pow_le_pow_iff_right (by omega)).1 h8'
  exact ⟨k, w - (k + 1), hpos, hk, hlt, by omega, by omega⟩

theorem mul_add_mod' {a m r : Nat} (hr : r < m) : (a * m + r) % m = r := by
  rw [Nat.mul_comm, Nat.mul_add_mod, Nat.mod_eq_of_lt hr]

theorem mul_add_div' {a m r : Nat} (hr : r < m) : (a * m + r) / m = a := by
  rw [Nat.mul_comm, Nat.mul_add_div (by omega), Nat.div_eq_of_lt hr, Nat.add_zero]

namespace Sz

variable {w cap k n : Nat}

theorem two_pow_w (h : Sz w cap k n) : 2 ^ w = 2 ^ (k + 1) * 2 ^ n := by
  rw [h.w_eq, Nat.pow_add]

theorem k_lt_w (h : Sz w cap k n) : k + 1 < w := by
  have := h.w_eq; have := h.n2; omega

theorem numGens_eq (h : Sz w cap k n) : numGens w cap = 2 ^ n := by
  unfold numGens
  rw [h.npt, h.two_pow_w, show 2 * 2 ^ k = 2 ^ (k + 1) from by rw [Nat.pow_succ]; omega]
  exact Nat.mul_div_cancel_left _ (Nat.two_pow_pos _)

theorem numGens_ge (h : Sz w cap k n) : 4 ≤ 2 ^ n := by
  calc 4 = 2 ^ 2 := rfl
    _ ≤ 2 ^ n := Nat.pow_le_pow_right (by omega) h.n2

theorem closed_eq (h : Sz w cap k n) : (Params.new w cap).closed = BitVec.twoPow w k := by
  apply BitVec.eq_of_toNat_eq
  simp [Params.new, h.npt, BitVec.toNat_twoPow]

theorem closed_toNat (h : Sz w cap k n) : (Params.new w cap).closed.toNat = 2 ^ k := by
  rw [h.closed_eq]
  exact BitVec.toNat_twoPow_of_lt (by have := h.k_lt_w; omega)

theorem idxMask_toNat (h : Sz w cap k n) : (Params.new w cap).idxMask.toNat = 2 ^ k - 1 := by
  have hw := h.k_lt_w
  have h1 : (Params.new w cap).idxMask = (Params.new w cap).closed - 1#w := rfl
  have h2 : 2 ^ k < 2 ^ w := Nat.pow_lt_pow_right (by omega) (by omega)
  have h3 : 0 < 2 ^ k := Nat.two_pow_pos k
  have h4 : (1#w).toNat = 1 := by
    simp only [BitVec.toNat_ofNat]
    exact Nat.mod_eq_of_lt (by omega)
  rw [h1, BitVec.toNat_sub, h.closed_toNat, h4]
  have : 2 ^ w - 1 + 2 ^ k = (2 ^ k - 1) + 2 ^ w := by omega
  rw [this, Nat.add_mod_right]
  exact Nat.mod_eq_of_lt (by omega)

theorem gen_toNat (h : Sz w cap k n) : (Params.new w cap).gen.toNat = 2 ^ (k + 1) := by
  have h1 : (Params.new w cap).gen = (Params.new w cap).closed <<< 1 := rfl
  rw [h1, BitVec.toNat_shiftLeft, h.closed_toNat, Nat.shiftLeft_eq, Nat.pow_one, ← Nat.pow_succ]
  exact Nat.mod_eq_of_lt (Nat.pow_lt_pow_right (by omega) h.k_lt_w)

theorem capacity_toNat (h : Sz w cap k n) : (Params.new w cap).capacity.toNat = cap := by
  show (BitVec.ofNat w cap).toNat = cap
  rw [BitVec.toNat_ofNat]
  apply Nat.mod_eq_of_lt
  have := h.lt
  have h2 : 2 ^ k < 2 ^ w := Nat.pow_lt_pow_right (by omega) (by have := h.k_lt_w; omega)
  omega

theorem idx_toNat (h : Sz w cap k n) (x : BitVec w) :
    ((Params.new w cap).idxGen x).1.toNat = x.toNat % 2 ^ k := by
  show (x &&& _).toNat = _
  rw [BitVec.toNat_and, h.idxMask_toNat, Nat.and_two_pow_sub_one_eq_mod]

theorem low_toNat (h : Sz w cap k n) :
    ((Params.new w cap).closed ||| (Params.new w cap).idxMask).toNat = 2 ^ (k + 1) - 1 := by
  rw [BitVec.toNat_or, h.closed_toNat, h.idxMask_toNat]
  apply Nat.eq_of_testBit_eq
  intro i
  rw [Nat.testBit_or, Nat.testBit_two_pow_sub_one, Nat.testBit_two_pow_sub_one,
    Nat.testBit_two_pow]
  by_cases h1 : k = i <;> by_cases h2 : i < k <;> simp [h1, h2] <;> omega

theorem genMask_getLsbD (h : Sz w cap k n) (i : Nat) (hi : i < w) :
    (Params.new w cap).genMask.getLsbD i = decide (k + 1 ≤ i) := by
  have h1 : (Params.new w cap).genMask =
    ~~~((Params.new w cap).closed ||| (Params.new w cap).idxMask) := rfl
  rw [h1, BitVec.getLsbD_not]
  simp only [hi, decide_true, Bool.true_and]
  rw [BitVec.getLsbD, h.low_toNat, Nat.testBit_two_pow_sub_one]
  by_cases h2 : i < k + 1
  · have : ¬ (k + 1 ≤ i) := by omega
    simp [h2, this]
  · have : k + 1 ≤ i := by omega
    simp [h2, this]

theorem gen_part_toNat (h : Sz w cap k n) (x : BitVec w) :
    ((Params.new w cap).idxGen x).2.toNat = x.toNat / 2 ^ (k + 1) * 2 ^ (k + 1) := by
  show (x &&& _).toNat = _
  apply Nat.eq_of_testBit_eq
  intro i
  rw [Nat.testBit_mul_two_pow, Nat.testBit_div_two_pow]
  by_cases hi : i < w
  · have := h.genMask_getLsbD i hi
    rw [BitVec.toNat_and, Nat.testBit_and]
    rw [BitVec.getLsbD] at this
    rw [this, Bool.and_comm]
    by_cases h2 : k + 1 ≤ i
    · simp [h2]
    · simp [h2]
  · have h1 : (x &&& (Params.new w cap).genMask).toNat.testBit i = false :=
      BitVec.getLsbD_of_ge _ _ (by omega)
    have h2 : x.toNat.testBit i = false := BitVec.getLsbD_of_ge _ _ (by omega)
    rw [h1]
    by_cases h3 : k + 1 ≤ i
    · simp [h3, h2]
    · simp [h3]

/-- Facts of linear arithmetic that every use below needs: the pieces of a word. -/
theorem pieces (h : Sz w cap k n) (p : Nat) :
    (p / cap) % 2 ^ n * 2 ^ (k + 1) + 2 ^ (k + 1) ≤ 2 ^ w ∧ p % cap < cap := by
  refine ⟨?_, Nat.mod_lt _ h.pos⟩
  have h1 : (p / cap) % 2 ^ n + 1 ≤ 2 ^ n := Nat.mod_lt _ (Nat.two_pow_pos n)
  have := Nat.mul_le_mul_right (2 ^ (k + 1)) h1
  rw [h.two_pow_w, Nat.mul_comm (2 ^ (k + 1))]
  rw [Nat.add_mul, Nat.one_mul] at this
  exact this

theorem mod_pow_w (h : Sz w cap k n) (a r : Nat) (hr : r < 2 ^ (k + 1)) :
    (a * 2 ^ (k + 1) + r) % 2 ^ w = a % 2 ^ n * 2 ^ (k + 1) + r := by
  rw [h.two_pow_w, Nat.mod_mul, mul_add_mod' hr, mul_add_div' hr, Nat.add_comm, Nat.mul_comm]

theorem enc_toNat (h : Sz w cap k n) (p : Nat) :
    (enc w cap p).toNat = p / cap % 2 ^ n * 2 ^ (k + 1) + p % cap := by
  unfold enc
  have h1 : p % cap < cap := Nat.mod_lt _ h.pos
  have h2 := h.lt
  have h3 : 2 * 2 ^ k = 2 ^ (k + 1) := by rw [Nat.pow_succ]; omega
  rw [BitVec.toNat_ofNat, h.npt, h3]
  exact h.mod_pow_w _ _ (by omega)

theorem testBit_k (a r : Nat) (hr : r < 2 ^ k) :
    (a * 2 ^ (k + 1) + r).testBit k = false := by
  rw [Nat.testBit_eq_decide_div_mod_eq]
  have h1 : a * 2 ^ (k + 1) = 2 ^ k * (2 * a) := by
    rw [Nat.pow_succ, Nat.mul_comm a, Nat.mul_assoc]
  rw [h1, Nat.mul_add_div (Nat.two_pow_pos k), Nat.div_eq_of_lt hr]
  simp

theorem or_closed_toNat (h : Sz w cap k n) (x : BitVec w) (hx : x.toNat.testBit k = false) :
    (x ||| (Params.new w cap).closed).toNat = x.toNat + 2 ^ k := by
  rw [BitVec.toNat_or, h.closed_toNat]
  apply Nat.eq_of_testBit_eq
  intro i
  rw [Nat.testBit_or, Nat.testBit_two_pow]
  rcases Nat.lt_trichotomy i k with hi | hi | hi
  · rw [Nat.add_comm x.toNat, Nat.testBit_two_pow_add_gt hi]
    have : k ≠ i := by omega
    simp [this]
  · subst hi
    rw [Nat.add_comm x.toNat, Nat.testBit_two_pow_add_eq]
    simp [hx]
  · have hne : k ≠ i := by omega
    simp only [hne, decide_false, Bool.or_false]
    -- higher bits are not affected: no carry
    have hm : x.toNat % 2 ^ (k + 1) < 2 ^ k := by
      have hb := hx
      rw [Nat.testBit_eq_decide_div_mod_eq, decide_eq_false_iff_not] at hb
      have h4 : x.toNat % (2 ^ k * 2) = x.toNat % 2 ^ k + 2 ^ k * (x.toNat / 2 ^ k % 2) := by
        rw [Nat.mod_mul]
      rw [Nat.pow_succ, h4]
      have h5 : x.toNat / 2 ^ k % 2 = 0 := by omega
      rw [h5]
      have := Nat.mod_lt x.toNat (Nat.two_pow_pos k)
      omega
    have hdiv : (x.toNat + 2 ^ k) / 2 ^ (k + 1) = x.toNat / 2 ^ (k + 1) := by
      have e : 2 ^ (k + 1) = 2 ^ k + 2 ^ k := by rw [Nat.pow_succ]; omega
      have h6 := Nat.div_add_mod x.toNat (2 ^ (k + 1))
      have : x.toNat + 2 ^ k = 2 ^ (k + 1) * (x.toNat / 2 ^ (k + 1)) +
          (x.toNat % 2 ^ (k + 1) + 2 ^ k) := by omega
      rw [this, Nat.mul_comm]
      exact mul_add_div' (by omega)
    have e1 : i = (i - (k + 1)) + (k + 1) := by omega
    rw [e1, ← Nat.testBit_div_two_pow, ← Nat.testBit_div_two_pow, hdiv]

theorem enc_testBit (h : Sz w cap k n) (p : Nat) : (enc w cap p).toNat.testBit k = false := by
  rw [h.enc_toNat]
  exact testBit_k _ _ (by have := Nat.mod_lt p h.pos; have := h.lt; omega)

theorem tailWord_toNat (h : Sz w cap k n) (p : Nat) (c : Bool) :
    (tailWord w cap p c).toNat =
      p / cap % 2 ^ n * 2 ^ (k + 1) + (if c then 2 ^ k else 0) + p % cap := by
  unfold tailWord
  cases c
  · simp [h.enc_toNat]
  · simp only [if_true]
    rw [h.or_closed_toNat _ (h.enc_testBit p), h.enc_toNat]
    omega

end Sz

/-! ### The facts used by the machine proofs (no bit-level notions in the statements) -/

section
variable {w cap : Nat}

theorem idx_tailWord (hw : WellSized w cap) (p : Nat) (c : Bool) :
    ((Params.new w cap).idxGen (tailWord w cap p c)).1.toNat = p % cap := by
  obtain ⟨k, n, h⟩ := hw.sz
  have h1 : p % cap < cap := Nat.mod_lt _ h.pos
  have h2 := h.lt
  rw [h.idx_toNat, h.tailWord_toNat]
  have e : p / cap % 2 ^ n * 2 ^ (k + 1) + (if c then 2 ^ k else 0) + p % cap
      = 2 ^ k * (2 * (p / cap % 2 ^ n) + (if c then 1 else 0)) + p % cap := by
    rw [Nat.pow_succ, Nat.mul_add]
    have : p / cap % 2 ^ n * (2 ^ k * 2) = 2 ^ k * (2 * (p / cap % 2 ^ n)) := by
      rw [Nat.mul_comm, Nat.mul_assoc]
    cases c <;> simp [this]
  rw [e, Nat.mul_add_mod]
  exact Nat.mod_eq_of_lt (by omega)

theorem tailWord_false (p : Nat) : tailWord w cap p false = enc w cap p := rfl

theorem idx_enc (hw : WellSized w cap) (p : Nat) :
    ((Params.new w cap).idxGen (enc w cap p)).1.toNat = p % cap :=
  idx_tailWord hw p false

theorem gen_tailWord_toNat (hw : WellSized w cap) (p : Nat) (c : Bool) :
    ((Params.new w cap).idxGen (tailWord w cap p c)).2.toNat =
      p / cap % numGens w cap * (2 * nextPow2 (cap + 1)) := by
  obtain ⟨k, n, h⟩ := hw.sz
  have h1 : p % cap < cap := Nat.mod_lt _ h.pos
  have h2 := h.lt
  have h3 : 2 * 2 ^ k = 2 ^ (k + 1) := by rw [Nat.pow_succ]; omega
  rw [h.gen_part_toNat, h.tailWord_toNat, h.numGens_eq, h.npt, h3, Nat.add_assoc,
    mul_add_div' (by split <;> omega)]

theorem gen_enc_toNat (hw : WellSized w cap) (p : Nat) :
    ((Params.new w cap).idxGen (enc w cap p)).2.toNat =
      p / cap % numGens w cap * (2 * nextPow2 (cap + 1)) :=
  gen_tailWord_toNat hw p false

/-- The generation bits are zero exactly in the first lap of a period. -/
theorem gen_eq_zero (hw : WellSized w cap) (p : Nat) :
    ((Params.new w cap).idxGen (enc w cap p)).2 = 0#w ↔ p / cap % numGens w cap = 0 := by
  rw [← BitVec.toNat_inj, gen_enc_toNat hw]
  have : 0 < nextPow2 (cap + 1) := by
    have := (nextPow2_spec (cap + 1)).2.1; omega
  simp only [BitVec.toNat_ofNat, Nat.zero_mod, Nat.mul_eq_zero]
  omega

theorem closedBit_tailWord (hw : WellSized w cap) (p : Nat) (c : Bool) :
    (tailWord w cap p c &&& (Params.new w cap).closed) ≠ 0#w ↔ c = true := by
  obtain ⟨k, n, h⟩ := hw.sz
  have key : (tailWord w cap p c).toNat.testBit k = c := by
    unfold tailWord
    cases c
    · exact h.enc_testBit p
    · simp only [if_true, BitVec.toNat_or, h.closed_toNat, Nat.testBit_or, h.enc_testBit,
        Nat.testBit_two_pow_self, Bool.or_true]
  rw [h.closed_eq, BitVec.and_twoPow, BitVec.getLsbD, key]
  cases c
  · simp
  · simp only [if_true, iff_true]
    intro h0
    have h1 := congrArg BitVec.toNat h0
    rw [BitVec.toNat_twoPow_of_lt (by have := h.k_lt_w; omega)] at h1
    have := Nat.two_pow_pos k
    simp at h1

theorem tailWord_or_closed (p : Nat) (c : Bool) :
    tailWord w cap p c ||| (Params.new w cap).closed = tailWord w cap p true := by
  unfold tailWord
  cases c <;> simp [BitVec.or_assoc]

theorem tailWord_and_not_closed (hw : WellSized w cap) (p : Nat) (c : Bool) :
    tailWord w cap p c &&& ~~~(Params.new w cap).closed = enc w cap p := by
  obtain ⟨k, n, h⟩ := hw.sz
  have hb := h.enc_testBit p
  apply BitVec.eq_of_getLsbD_eq
  intro i hi
  have hc : (Params.new w cap).closed.getLsbD i = decide (k = i) := by
    rw [BitVec.getLsbD, h.closed_toNat, Nat.testBit_two_pow]
  rw [BitVec.getLsbD_and, BitVec.getLsbD_not]
  unfold tailWord
  by_cases hk : k = i
  · subst hk
    have : (enc w cap p).getLsbD k = false := hb
    cases c <;> simp [hc, this]
  · cases c
    · simp only [Bool.false_eq_true, if_false, hc, hk, hi, decide_true, decide_false,
        Bool.not_false, Bool.and_true]
    · simp only [if_true, BitVec.getLsbD_or, hc, hk, hi, decide_true, decide_false,
        Bool.not_false, Bool.and_true, Bool.or_false]

theorem enc_add_gen (hw : WellSized w cap) (p : Nat) :
    enc w cap p + (Params.new w cap).gen = enc w cap (p + cap) := by
  obtain ⟨k, n, h⟩ := hw.sz
  apply BitVec.eq_of_toNat_eq
  have h1 : p % cap < cap := Nat.mod_lt _ h.pos
  have h2 := h.lt
  have h3 : 2 * 2 ^ k = 2 ^ (k + 1) := by rw [Nat.pow_succ]; omega
  rw [BitVec.toNat_add, h.gen_toNat, h.enc_toNat, h.enc_toNat, Nat.add_mod_right,
    Nat.add_div_right _ h.pos]
  have : p / cap % 2 ^ n * 2 ^ (k + 1) + p % cap + 2 ^ (k + 1)
      = (p / cap % 2 ^ n + 1) * 2 ^ (k + 1) + p % cap := by
    rw [Nat.add_mul]; omega
  rw [this, h.mod_pow_w _ _ (by omega), Nat.mod_add_mod]

theorem enc_succ_checked (hw : WellSized w cap) (p : Nat) :
    checkedAdd (enc w cap p) 1#w = some (enc w cap p + 1#w) := by
  obtain ⟨k, n, h⟩ := hw.sz
  have h1 : p % cap < cap := Nat.mod_lt _ h.pos
  have h2 := h.lt
  have h3 : 2 * 2 ^ k = 2 ^ (k + 1) := by rw [Nat.pow_succ]; omega
  have h4 := (h.pieces p).1
  have h5 : (1#w).toNat ≤ 1 := by
    simp only [BitVec.toNat_ofNat]; exact Nat.mod_le ..
  unfold checkedAdd
  rw [if_pos]
  rw [h.enc_toNat]
  omega

theorem one_toNat (hw : WellSized w cap) : (1#w).toNat = 1 := by
  obtain ⟨k, n, h⟩ := hw.sz
  simp only [BitVec.toNat_ofNat]
  apply Nat.mod_eq_of_lt
  exact Nat.one_lt_two_pow (by have := h.k_lt_w; omega)

theorem enc_succ_toNat (hw : WellSized w cap) (p : Nat) :
    (enc w cap p + 1#w).toNat = (enc w cap p).toNat + 1 := by
  obtain ⟨k, n, h⟩ := hw.sz
  have h1 : p % cap < cap := Nat.mod_lt _ h.pos
  have h2 := h.lt
  have h3 : 2 * 2 ^ k = 2 ^ (k + 1) := by rw [Nat.pow_succ]; omega
  have h4 := (h.pieces p).1
  rw [BitVec.toNat_add, one_toNat hw]
  apply Nat.mod_eq_of_lt
  rw [h.enc_toNat]
  omega

/-- `next` moves the encoded position forward by one, without overflow. -/
theorem next_enc (hw : WellSized w cap) (p : Nat) :
    (Params.new w cap).next ((Params.new w cap).idxGen (enc w cap p)).1
      ((Params.new w cap).idxGen (enc w cap p)).2 = some (enc w cap (p + 1)) := by
  obtain ⟨k, n, h⟩ := hw.sz
  have h1 : p % cap < cap := Nat.mod_lt _ h.pos
  have h2 := h.lt
  have h3 : 2 * 2 ^ k = 2 ^ (k + 1) := by rw [Nat.pow_succ]; omega
  have h4 := (h.pieces p).1
  have hi := idx_enc hw p
  have hone := one_toNat hw
  have hadd : checkedAdd ((Params.new w cap).idxGen (enc w cap p)).1 1#w =
      some (((Params.new w cap).idxGen (enc w cap p)).1 + 1#w) := by
    unfold checkedAdd
    rw [if_pos]
    rw [hi, hone]; omega
  have hi1 : (((Params.new w cap).idxGen (enc w cap p)).1 + 1#w).toNat = p % cap + 1 := by
    rw [BitVec.toNat_add, hi, hone]
    exact Nat.mod_eq_of_lt (by omega)
  unfold Params.next
  rw [hadd]
  simp only
  have hor : ((Params.new w cap).idxGen (enc w cap p)).1 |||
      ((Params.new w cap).idxGen (enc w cap p)).2 = enc w cap p := by
    apply BitVec.eq_of_getLsbD_eq
    intro i hi'
    show ((enc w cap p &&& _) ||| (enc w cap p &&& _)).getLsbD i = _
    rw [BitVec.getLsbD_or, BitVec.getLsbD_and, BitVec.getLsbD_and, h.genMask_getLsbD i hi']
    have e2 : (Params.new w cap).idxMask.getLsbD i = decide (i < k) := by
      rw [BitVec.getLsbD, h.idxMask_toNat, Nat.testBit_two_pow_sub_one]
    rw [e2]
    rcases Nat.lt_trichotomy i k with hk | hk | hk
    · have : ¬ (k + 1 ≤ i) := by omega
      simp [hk, this]
    · subst hk
      have : (enc w cap p).getLsbD i = false := h.enc_testBit p
      simp [this]
    · have h7 : ¬ (i < k) := by omega
      have h8 : k + 1 ≤ i := by omega
      simp [h7, h8]
  split
  · rename_i hlt
    rw [BitVec.lt_def, hi1, h.capacity_toNat] at hlt
    rw [hor, enc_succ_checked hw]
    congr 1
    apply BitVec.eq_of_toNat_eq
    rw [enc_succ_toNat hw, h.enc_toNat, h.enc_toNat]
    have e1 : (p + 1) / cap = p / cap := by
      rw [Nat.div_eq_iff h.pos]
      have := Nat.div_add_mod p cap
      have e3 : cap * (p / cap) = p / cap * cap := Nat.mul_comm ..
      constructor <;> omega
    have e2 : (p + 1) % cap = p % cap + 1 := by
      have a := Nat.div_add_mod p cap
      have b := Nat.div_add_mod (p + 1) cap
      rw [e1] at b
      omega
    rw [e1, e2]; omega
  · rename_i hlt
    rw [BitVec.lt_def, hi1, h.capacity_toNat] at hlt
    congr 1
    apply BitVec.eq_of_toNat_eq
    have hcap : p % cap + 1 = cap := by omega
    have a := Nat.div_add_mod p cap
    have e0 : p + 1 = cap * (p / cap + 1) := by rw [Nat.mul_add]; omega
    have e1 : (p + 1) / cap = p / cap + 1 := by
      rw [e0]; exact Nat.mul_div_cancel_left _ h.pos
    have e2 : (p + 1) % cap = 0 := by
      rw [e0]; exact Nat.mul_mod_right ..
    rw [BitVec.toNat_add, gen_enc_toNat hw, h.gen_toNat, h.enc_toNat, e1, e2, h.numGens_eq,
      h.npt, h3]
    have : p / cap % 2 ^ n * 2 ^ (k + 1) + 2 ^ (k + 1)
      = (p / cap % 2 ^ n + 1) * 2 ^ (k + 1) + 0 := by
      rw [Nat.add_mul]; omega
    rw [this, h.mod_pow_w _ _ (by omega), Nat.mod_add_mod]

/-- Within one period the encoding is injective. -/
theorem enc_inj (hw : WellSized w cap) {p q : Nat} (he : enc w cap p = enc w cap q)
    (h1 : p < q + period w cap) (h2 : q < p + period w cap) : p = q := by
  obtain ⟨k, n, h⟩ := hw.sz
  have hp : p % cap < cap := Nat.mod_lt _ h.pos
  have hq : q % cap < cap := Nat.mod_lt _ h.pos
  have hlt := h.lt
  have h3 : 2 * 2 ^ k = 2 ^ (k + 1) := by rw [Nat.pow_succ]; omega
  have hn := congrArg BitVec.toNat he
  rw [h.enc_toNat, h.enc_toNat] at hn
  have hr : p % cap = q % cap := by
    have := congrArg (· % 2 ^ (k + 1)) hn
    rwa [mul_add_mod' (by omega), mul_add_mod' (by omega)] at this
  have hd : p / cap % 2 ^ n = q / cap % 2 ^ n := by
    have := congrArg (· / 2 ^ (k + 1)) hn
    rwa [mul_add_div' (by omega), mul_add_div' (by omega)] at this
  have hper : period w cap = cap * 2 ^ n := by unfold period; rw [h.numGens_eq]
  have ap := Nat.div_add_mod p cap
  have aq := Nat.div_add_mod q cap
  have bound : ∀ {x y : Nat}, x < y + cap * 2 ^ n → x % cap = y % cap → x / cap < y / cap + 2 ^ n := by
    intro x y hxy hm
    have ax := Nat.div_add_mod x cap
    have ay := Nat.div_add_mod y cap
    have : cap * (x / cap) < cap * (y / cap + 2 ^ n) := by rw [Nat.mul_add]; omega
    exact Nat.lt_of_mul_lt_mul_left this
  rw [hper] at h1 h2
  have b1 := bound h1 hr
  have b2 := bound h2 hr.symm
  have hdd : p / cap = q / cap := by
    have ep := Nat.div_add_mod (p / cap) (2 ^ n)
    have eq := Nat.div_add_mod (q / cap) (2 ^ n)
    rw [hd] at ep
    have hpos := Nat.two_pow_pos n
    have e : p / cap / 2 ^ n = q / cap / 2 ^ n := by
      rcases Nat.lt_trichotomy (p / cap / 2 ^ n) (q / cap / 2 ^ n) with hh | hh | hh
      · have := Nat.mul_le_mul_left (2 ^ n) hh
        rw [Nat.succ_eq_add_one, Nat.mul_add, Nat.mul_one] at this
        omega
      · exact hh
      · have := Nat.mul_le_mul_left (2 ^ n) hh
        rw [Nat.succ_eq_add_one, Nat.mul_add, Nat.mul_one] at this
        omega
    rw [e] at ep
    omega
  rw [hdd] at ap
  omega

theorem tailWord_inj (hw : WellSized w cap) {p q : Nat} {c d : Bool}
    (he : tailWord w cap p c = tailWord w cap q d) : enc w cap p = enc w cap q ∧ c = d := by
  constructor
  · rw [← tailWord_and_not_closed hw p c, ← tailWord_and_not_closed hw q d, he]
  · have h1 := closedBit_tailWord hw p c
    have h2 := closedBit_tailWord hw q d
    rw [he] at h1
    cases c <;> cases d <;> simp_all

/-- A "published" slot state is never mistaken for a "free" one of the same slot. -/
theorem enc_ne_enc_succ (hw : WellSized w cap) {p q : Nat} (hm : p % cap = q % cap) :
    enc w cap p ≠ enc w cap q + 1#w := by
  obtain ⟨k, n, h⟩ := hw.sz
  have hp : p % cap < cap := Nat.mod_lt _ h.pos
  have hlt := h.lt
  have h3 : 2 * 2 ^ k = 2 ^ (k + 1) := by rw [Nat.pow_succ]; omega
  intro he
  have hn := congrArg BitVec.toNat he
  rw [enc_succ_toNat hw, h.enc_toNat, h.enc_toNat, hm, Nat.add_assoc] at hn
  have := congrArg (· % 2 ^ (k + 1)) hn
  rw [mul_add_mod' (by omega), mul_add_mod' (by omega)] at this
  omega

theorem succ_inj {x y : BitVec w} (h : x + 1#w = y + 1#w) : x = y := by
  simpa using h

theorem enc_succ_add_gen (hw : WellSized w cap) (p : Nat) :
    enc w cap p + 1#w + (Params.new w cap).gen = enc w cap (p + cap) + 1#w := by
  rw [← enc_add_gen hw, BitVec.add_assoc, BitVec.add_comm 1#w, ← BitVec.add_assoc]

theorem enc_of_lt {i : Nat} (h : i < cap) : enc w cap i = BitVec.ofNat w i := by
  unfold enc
  rw [Nat.div_eq_of_lt h, Nat.mod_eq_of_lt h, Nat.zero_mul, Nat.zero_add]

theorem period_ge (hw : WellSized w cap) : 4 * cap ≤ period w cap := by
  obtain ⟨k, n, h⟩ := hw.sz
  unfold period
  rw [h.numGens_eq, Nat.mul_comm]
  exact Nat.mul_le_mul_left _ h.numGens_ge

/-- Every slot array that can be allocated on a 64 bit target is well sized: a slot contains
an `AtomicUsize` (8 bytes) and an allocation has at most `isize::MAX` bytes. -/
theorem wellSized_of_alloc64 {cap : Nat} (h0 : 0 < cap) (h : cap * 8 ≤ 2 ^ 63 - 1) :
    WellSized 64 cap := by
  refine ⟨h0, ?_⟩
  have := (nextPow2_spec (cap + 1)).2.2 60 (by omega)
  omega

/-- The same for 32 bit targets (4 byte `AtomicUsize`). -/
theorem wellSized_of_alloc32 {cap : Nat} (h0 : 0 < cap) (h : cap * 4 ≤ 2 ^ 31 - 1) :
    WellSized 32 cap := by
  refine ⟨h0, ?_⟩
  have := (nextPow2_spec (cap + 1)).2.2 29 (by omega)
  omega

end

end Thingbuf
