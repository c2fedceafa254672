import Verif.Lemmas.IntOps

/-!
C15, C16, C51: integer operators.
-/
namespace Nagini.IntOps

/-! ### C15 -/

/-- **C15, full claim.** -/
def DivModFaithful : Prop :=
  ∀ a b : Int, b ≠ 0 → IsPyDivMod a b (floordiv a b) (mod a b)

/-- C15 is violated by `7 // -2`: the verifier computes -3 (Python: -4), and 1 for
`7 % -2` (Python: -1). -/
theorem C15_division_fails : ¬ DivModFaithful := by
  intro h
  have := h 7 (-2) (by decide)
  rw [divmod_iff 7 (-2) (by decide)] at this
  revert this
  decide

/-- **C15, exact proved part**: division and modulo agree with Python iff the divisor
is positive or divides the dividend.  Missing: negative divisors that do not divide,
for which the claim is false. -/
theorem C15_division_iff_partial (a b : Int) (hb : b ≠ 0) :
    IsPyDivMod a b (floordiv a b) (mod a b) ↔ 0 < b ∨ b ∣ a := divmod_iff a b hb

/-- Python's quotient and remainder are uniquely determined by the specification. -/
theorem C15_spec_unique (a b q r q' r' : Int) (hb : b ≠ 0)
    (h : IsPyDivMod a b q r) (h' : IsPyDivMod a b q' r') : q = q' ∧ r = r' :=
  divmod_unique a b q r q' r' hb h h'

/-- Non-vacuity: -7 // 2 = -4, -7 % 2 = 1. -/
example : IsPyDivMod (-7) 2 (-4) 1 := (C15_division_iff_partial (-7) 2 (by decide)).2 (Or.inl (by decide))

/-! ### C16 -/

/-- **C16, full claim**: for every bit size and all operands accepted by the
preconditions the results are Python's. -/
def BitopsFaithful : Prop :=
  ∀ (n : Nat) (a b : Int), inRange n a → inRange n b →
    IsBitwise and a b (bitAnd n a b) ∧ IsBitwise or a b (bitOr n a b) ∧ IsBitwise xor a b (bitXor n a b)

/-- **C16, exact proved part (&)**: correct iff not both operands are negative. -/
theorem C16_and_iff_partial (n : Nat) (a b : Int) (ha : inRange n a) (hb : inRange n b) :
    IsBitwise and a b (bitAnd n a b) ↔ 0 ≤ a ∨ 0 ≤ b := by
  unfold bitAnd
  rw [bitwise_iff and n a b _ _ ha hb]
  · simp
    omega
  · intro k
    rw [BitVec.toNat_and, Nat.testBit_and, toBV_testBit, toBV_testBit]
    cases decide (k < n) <;> simp

/-- **C16, exact proved part (|)**: correct iff both operands are non-negative. -/
theorem C16_or_iff_partial (n : Nat) (a b : Int) (ha : inRange n a) (hb : inRange n b) :
    IsBitwise or a b (bitOr n a b) ↔ 0 ≤ a ∧ 0 ≤ b := by
  unfold bitOr
  rw [bitwise_iff or n a b _ _ ha hb]
  · simp
  · intro k
    rw [BitVec.toNat_or, Nat.testBit_or, toBV_testBit, toBV_testBit]
    cases decide (k < n) <;> simp

/-- **C16, exact proved part (^)**: correct iff the operands have the same sign. -/
theorem C16_xor_iff_partial (n : Nat) (a b : Int) (ha : inRange n a) (hb : inRange n b) :
    IsBitwise xor a b (bitXor n a b) ↔ (0 ≤ a ↔ 0 ≤ b) := by
  unfold bitXor
  rw [bitwise_iff xor n a b _ _ ha hb]
  · by_cases h1 : a < 0 <;> by_cases h2 : b < 0 <;> simp [h1, h2] <;> omega
  · intro k
    rw [BitVec.toNat_xor, Nat.testBit_xor, toBV_testBit, toBV_testBit]
    cases decide (k < n) <;> simp

/-- C16 is violated: `-1 | 0` is accepted and gives 255 instead of -1. -/
theorem C16_bitops_fail : ¬ BitopsFaithful := by
  intro h
  have hr : inRange 8 (-1) ∧ inRange 8 0 := by unfold inRange intMin intMax; decide
  have := (h 8 (-1) 0 hr.1 hr.2).2.1
  rw [C16_or_iff_partial 8 _ _ hr.1 hr.2] at this
  revert this
  decide

/-- The witness evaluated. -/
theorem C16_witness : bitOr 8 (-1) 0 = 255 ∧ bitAnd 8 (-1) (-1) = 255 ∧ bitXor 8 (-1) 0 = 255 := by decide

/-- Non-vacuity: 12 & -10 = 4 with eight bits. -/
example : inRange 8 12 ∧ inRange 8 (-10) ∧ bitAnd 8 12 (-10) = 4 ∧ IsBitwise and 12 (-10) 4 := by
  have h : inRange 8 12 ∧ inRange 8 (-10) := by unfold inRange intMin intMax; decide
  refine ⟨h.1, h.2, by decide, ?_⟩
  exact (C16_and_iff_partial 8 12 (-10) h.1 h.2).2 (by decide)

/-- **C16, full claim for shifts.** -/
def ShiftsFaithful : Prop :=
  ∀ (n : Nat) (a : Int) (s : Nat), shiftPre n a s →
    lshift n a s = pyShl a s ∧ IsPyShr a s (rshift n a s)

/-- **C16, exact proved part (<<)**: correct iff the amount is at most 64 or the
result fits in `n` bits. -/
theorem C16_shl_iff_partial (n : Nat) (a : Int) (s : Nat) (h : shiftPre n a s) :
    lshift n a s = pyShl a s ↔ s ≤ 64 ∨ a.natAbs * 2 ^ s < 2 ^ n := by
  unfold lshift pyShl
  by_cases hs : s ≤ 64
  · have : (0 : Int) ≤ (s : Int) ∧ (s : Int) ≤ 64 := ⟨by omega, by exact_mod_cast hs⟩
    simp [this, hs, shiftFactor64_eq s hs]
  · have hn : ¬ ((0 : Int) ≤ (s : Int) ∧ (s : Int) ≤ 64) := by omega
    obtain ⟨_, _, _, hm⟩ := h
    have hlt : s < 2 ^ n := by
      unfold intMax at hm
      have : (s : Int) < 2 ^ n := by omega
      exact_mod_cast this
    rw [if_neg hn]
    simp only [hs, false_or]
    have hmod : ∀ x : Nat, x * 2 ^ s % 2 ^ n = x * 2 ^ s ↔ x * 2 ^ s < 2 ^ n := by
      intro x
      constructor
      · intro h
        rw [← h]
        exact Nat.mod_lt _ (by positivity)
      · exact Nat.mod_eq_of_lt
    by_cases h0 : a ≥ 0
    · obtain ⟨x, rfl⟩ := Int.eq_ofNat_of_zero_le h0
      rw [if_pos h0]
      unfold fromBV
      rw [shl_toNat n x s hlt, Int.natAbs_natCast, ← hmod x]
      constructor
      · intro h; exact_mod_cast h
      · intro h; exact_mod_cast h
    · obtain ⟨x, hx⟩ := Int.eq_ofNat_of_zero_le (show 0 ≤ -a by omega)
      rw [if_neg h0, hx]
      unfold fromBV
      rw [shl_toNat n x s hlt]
      have hna : a.natAbs = x := by omega
      rw [hna, ← hmod x]
      have ha : a = -(x : Int) := by omega
      rw [ha]
      constructor
      · intro h
        have : ((x * 2 ^ s % 2 ^ n : Nat) : Int) = (x : Int) * 2 ^ s := by linarith
        exact_mod_cast this
      · intro h
        rw [h]; push_cast; ring

/-- **C16, exact proved part (>>)**: correct iff the amount is at most 64, the
operand is non-negative, or the operand is divisible by `2^s` and `-a < 2^n`. -/
theorem C16_shr_iff_partial (n : Nat) (a : Int) (s : Nat) (h : shiftPre n a s) :
    IsPyShr a s (rshift n a s) ↔ s ≤ 64 ∨ 0 ≤ a ∨ (-a < 2 ^ n ∧ (2 ^ s : Int) ∣ a) := by
  unfold rshift
  by_cases hs : s ≤ 64
  · have : (0 : Int) ≤ (s : Int) ∧ (s : Int) ≤ 64 := ⟨by omega, by exact_mod_cast hs⟩
    simp [this, hs, shiftFactor64_eq s hs, isPyShr_ediv]
  · have hn : ¬ ((0 : Int) ≤ (s : Int) ∧ (s : Int) ≤ 64) := by omega
    obtain ⟨hmin, hmax, _, hm⟩ := h
    have hmin := hmin.resolve_left (by omega)
    have hmax := hmax.resolve_left (by omega)
    unfold intMin at hmin
    unfold intMax at hmax hm
    have hlt : s < 2 ^ n := by
      have : (s : Int) < 2 ^ n := by omega
      exact_mod_cast this
    rw [if_neg hn]
    simp only [hs, false_or]
    by_cases h0 : a ≥ 0
    · obtain ⟨x, rfl⟩ := Int.eq_ofNat_of_zero_le h0
      rw [if_pos h0]
      unfold fromBV
      have hx : x < 2 ^ n := by
        have : (x : Int) < 2 ^ n := by omega
        exact_mod_cast this
      rw [shr_toNat n x s hlt, Nat.mod_eq_of_lt hx]
      simp only [h0, true_or, iff_true]
      have := isPyShr_ediv (x : Int) s
      push_cast
      exact this
    · obtain ⟨x, hx⟩ := Int.eq_ofNat_of_zero_le (show 0 ≤ -a by omega)
      rw [if_neg h0, hx]
      have ha : a = -(x : Int) := by omega
      have h0' : ¬ (0 ≤ a) := by omega
      simp only [h0', false_or]
      unfold fromBV
      rw [shr_toNat n x s hlt]
      have hp : (0 : Int) < 2 ^ s := by positivity
      have hxp : 0 < x := by omega
      rw [ha]
      rw [Int.dvd_neg]
      by_cases hxn : x < 2 ^ n
      · rw [Nat.mod_eq_of_lt hxn]
        have hxn' : (x : Int) < 2 ^ n := by exact_mod_cast hxn
        simp only [hxn', true_and]
        have hdm := Int.mul_ediv_add_emod (x : Int) (2 ^ s)
        have hnn := Int.emod_nonneg (x : Int) (ne_of_gt hp)
        have hml := Int.emod_lt_of_pos (x : Int) hp
        push_cast
        constructor
        · rintro ⟨h1, h2⟩
          apply Int.dvd_of_emod_eq_zero
          nlinarith
        · intro hd
          have hz := Int.emod_eq_zero_of_dvd hd
          constructor <;> nlinarith
      · have hxe : x = 2 ^ n := by
          have : (x : Int) ≤ 2 ^ n := by omega
          have : x ≤ 2 ^ n := by exact_mod_cast this
          omega
        subst hxe
        simp only [Nat.mod_self, Nat.zero_div]
        constructor
        · rintro ⟨h1, h2⟩
          have : (0 : Int) < ((2 ^ n : Nat) : Int) := by exact_mod_cast hxp
          simp at h1
          omega
        · rintro ⟨h1, _⟩
          push_cast at h1
          omega

/-- C16 is violated by shifts: with 8 bits `1 << 65` gives 0, and `-1 >> 65` gives 0
(Python: -1). -/
theorem C16_shifts_fail : ¬ ShiftsFaithful := by
  intro h
  have hp : shiftPre 8 1 (65 : Nat) := by unfold shiftPre intMin intMax; decide
  have := (h 8 1 65 hp).1
  rw [C16_shl_iff_partial 8 1 65 hp] at this
  revert this
  decide

/-- Right-shift witness. -/
theorem C16_rshift_negative_fails : shiftPre 8 (-1) (65 : Nat) ∧ rshift 8 (-1) (65 : Nat) = 0 ∧
    IsPyShr (-1) 65 (-1) := by
  refine ⟨by unfold shiftPre intMin intMax; decide, by decide, by unfold IsPyShr; decide⟩

/-- Non-vacuity: -13 >> 2 = -4 and 5 << 40 under the preconditions. -/
example : shiftPre 8 (-13) (2 : Nat) ∧ IsPyShr (-13) 2 (rshift 8 (-13) (2 : Nat)) ∧
    shiftPre 8 5 (40 : Nat) ∧ lshift 8 5 (40 : Nat) = pyShl 5 40 := by
  have h1 : shiftPre 8 (-13) (2 : Nat) := by unfold shiftPre intMin intMax; decide
  have h2 : shiftPre 8 5 (40 : Nat) := by unfold shiftPre intMin intMax; decide
  exact ⟨h1, (C16_shr_iff_partial 8 _ 2 h1).2 (by decide), h2, (C16_shl_iff_partial 8 _ 40 h2).2 (by decide)⟩

/-! ### C52: true division -/

/-- **C52, full claim**: `a / b` on integers is a `float`, as in Python. -/
def TrueDivIsFloat : Prop := ∀ (a b : Int) (ty : NumTy), b ≠ 0 → truedivTy a b ty → ty = .float

/-- C52 is violated: the contract makes `4 / 2` an `int`. -/
theorem C52_truediv_fails : ¬ TrueDivIsFloat := by
  intro h
  have := h 4 2 .int (by decide) ⟨fun _ => rfl, fun h => absurd rfl h⟩
  cases this

/-- **C52, exact proved part**: the contract pins the type down and it is Python's iff the
division has a remainder.  Missing: exact divisions, where the claim is false. -/
theorem C52_truediv_iff_partial (a b : Int) :
    (∃ ty, truedivTy a b ty) ∧ ((∀ ty, truedivTy a b ty → ty = .float) ↔ ¬ b ∣ a) := by
  unfold truedivTy
  rw [Int.dvd_iff_emod_eq_zero]
  by_cases h : a % b = 0
  · refine ⟨⟨.int, fun _ => rfl, fun h' => absurd h h'⟩, ?_⟩
    simp only [h, not_true, iff_false]
    intro h'
    have := h' .int ⟨fun _ => rfl, fun h => absurd rfl h⟩
    cases this
  · refine ⟨⟨.float, fun h' => absurd h' h, fun _ => rfl⟩, ?_⟩
    simp only [h, not_false_iff, iff_true]
    intro ty h'
    exact h'.2 h

/-- Non-vacuity: 7 / 2. -/
example : truedivTy 7 2 .float ∧ ¬ (2 : Int) ∣ 7 := by
  unfold truedivTy
  decide

/-! ### C51: power, bit length, inversion -/

/-- **C51 (power).** For every base and non-negative exponent. -/
theorem C51_power (a : Int) (n : Nat) : pow a n = a ^ n := pow_eq a n

/-- **C51 (bit_length).** For every integer the precondition accepts. -/
theorem C51_bit_length (a : Int) (h1 : a < 2 ^ 64) (h2 : -2 ^ 64 < a) :
    ∃ l : Nat, bitLength a = l ∧ IsBitLength a l := by
  unfold bitLength IsBitLength
  have hlt : a.natAbs < 2 ^ 64 := by omega
  have he : (if a ≥ 0 then a else -a) = (a.natAbs : Int) := by split <;> omega
  rw [he]
  obtain ⟨l, e, b⟩ := bl64 a.natAbs hlt
  exact ⟨l, e, b.spec⟩

/-- **C51 (~).** `~a` flips every bit. -/
theorem C51_invert (a : Int) (k : Nat) : pyBit (invert a) k = !pyBit a k := by
  unfold pyBit invert
  have hp : (0 : Int) < 2 ^ k := by positivity
  have : (-(1 + a)) / 2 ^ k = -(a / 2 ^ k) - 1 := by
    have h1 := Int.mul_ediv_add_emod a (2 ^ k)
    have h2 := Int.emod_nonneg a (ne_of_gt hp)
    have h3 := Int.emod_lt_of_pos a hp
    rw [Int.ediv_eq_iff_of_pos hp]
    constructor <;> nlinarith
  rw [this]
  rcases Int.emod_two_eq_zero_or_one (a / 2 ^ k) with h | h
  · rw [show (-(a / 2 ^ k) - 1) % 2 = 1 by omega, h]; rfl
  · rw [show (-(a / 2 ^ k) - 1) % 2 = 0 by omega, h]; rfl

/-- Non-vacuity: 1000.bit_length() = 10. -/
example : (1000 : Int) < 2 ^ 64 ∧ (-2 ^ 64 : Int) < 1000 ∧ bitLength 1000 = 10 := by decide

end Nagini.IntOps
