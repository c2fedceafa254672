import Verif.Model.IntOps
import Mathlib.Tactic.Ring
import Mathlib.Tactic.Linarith
import Mathlib.Tactic.NormNum
import Mathlib.Tactic.IntervalCases
import Mathlib.Data.Nat.Bitwise

set_option linter.unusedVariables false
set_option linter.unusedSimpArgs false
namespace Nagini.IntOps

theorem divmod_iff (a b : Int) (hb : b ≠ 0) :
    IsPyDivMod a b (floordiv a b) (mod a b) ↔ 0 < b ∨ b ∣ a := by
  unfold IsPyDivMod floordiv mod
  have h1 : a = a / b * b + a % b := by
    have := Int.mul_ediv_add_emod a b
    rw [mul_comm] at this
    omega
  have h2 := Int.emod_nonneg a hb
  have h3 := Int.emod_lt_abs a hb
  constructor
  · rintro ⟨_, _, hn⟩
    by_cases h : 0 < b
    · exact Or.inl h
    · right
      have := hn (by omega)
      exact Int.dvd_of_emod_eq_zero (by omega)
  · intro h
    refine ⟨h1, ?_, ?_⟩
    · intro hp
      rw [abs_of_pos hp] at h3
      exact ⟨h2, h3⟩
    · intro hn
      rcases h with h | h
      · omega
      · rw [Int.emod_eq_zero_of_dvd h]
        exact ⟨hn, le_refl _⟩

theorem divmod_unique (a b q r q' r' : Int) (hb : b ≠ 0)
    (h : IsPyDivMod a b q r) (h' : IsPyDivMod a b q' r') : q = q' ∧ r = r' := by
  obtain ⟨e, p, n⟩ := h
  obtain ⟨e', p', n'⟩ := h'
  have hd : (q - q') * b = r' - r := by ring_nf; linarith
  have key : q = q' := by
    rcases lt_or_gt_of_ne hb with hb | hb
    · have := n hb; have := n' hb
      by_contra hne
      rcases lt_or_gt_of_ne hne with h | h
      · nlinarith
      · nlinarith
    · have := p hb; have := p' hb
      by_contra hne
      rcases lt_or_gt_of_ne hne with h | h
      · nlinarith
      · nlinarith
  subst key
  exact ⟨rfl, by omega⟩

theorem pow_eq (a : Int) (n : Nat) : pow a n = a ^ n := by
  induction n using Nat.strongRecOn with
  | _ n ih =>
    match n with
    | 0 => simp [pow]
    | 1 => simp [pow]
    | 2 => simp [pow]; ring
    | n + 3 => rw [pow, ih (n + 2) (by omega)]; ring

/-! ### bits -/

theorem pyBit_natCast (m k : Nat) : pyBit (m : Int) k = m.testBit k := by
  unfold pyBit
  rw [Nat.testBit_eq_decide_div_mod_eq]
  have : ((m : Int) / 2 ^ k) % 2 = ((m / 2 ^ k % 2 : Nat) : Int) := by push_cast; rfl
  rw [this]
  by_cases h : m / 2 ^ k % 2 = 1
  · simp [h]
  · simp only [h, decide_false, beq_eq_false_iff_ne, ne_eq]
    omega

/-- Low bits only depend on the value modulo `2^n`. -/
theorem pyBit_emod (a : Int) (n k : Nat) (h : k < n) : pyBit (a % 2 ^ n) k = pyBit a k := by
  unfold pyBit
  congr 1
  have hn : (2 : Int) ^ n = 2 ^ k * (2 * 2 ^ (n - k - 1)) := by
    rw [← pow_succ', ← pow_add]; congr 1; omega
  have h1 : a = a % 2 ^ n + 2 ^ n * (a / 2 ^ n) := (Int.emod_add_mul_ediv a _).symm
  conv => rhs; rw [h1]
  rw [hn, show (a % (2 ^ k * (2 * 2 ^ (n - k - 1))) + 2 ^ k * (2 * 2 ^ (n - k - 1)) * (a / (2 ^ k * (2 * 2 ^ (n - k - 1)))))
    = a % (2 ^ k * (2 * 2 ^ (n - k - 1))) + 2 ^ k * (2 * (2 ^ (n - k - 1) * (a / (2 ^ k * (2 * 2 ^ (n - k - 1)))))) by ring]
  rw [Int.add_mul_ediv_left _ _ (by positivity), Int.add_mul_emod_self_left]

theorem pyBit_high_nonneg (a : Int) (n k : Nat) (h0 : 0 ≤ a) (ha : a < 2 ^ n) (h : n ≤ k) :
    pyBit a k = false := by
  unfold pyBit
  have : a / 2 ^ k = 0 := Int.ediv_eq_zero_of_lt h0 (lt_of_lt_of_le ha (pow_le_pow_right₀ (by norm_num) h))
  simp [this]

theorem pyBit_high_neg (a : Int) (n k : Nat) (h0 : a < 0) (ha : -2 ^ n ≤ a) (h : n ≤ k) :
    pyBit a k = true := by
  unfold pyBit
  have hk : (2 : Int) ^ n ≤ 2 ^ k := pow_le_pow_right₀ (by norm_num) h
  have : a / 2 ^ k = -1 := by
    have hp : (0 : Int) < 2 ^ k := by positivity
    apply le_antisymm
    · have : a / 2 ^ k < 0 := Int.ediv_neg_of_neg_of_pos h0 hp
      omega
    · rw [Int.le_ediv_iff_mul_le hp]; linarith
  simp [this]

theorem toBV_toNat (n : Nat) (a : Int) : ((toBV n a).toNat : Int) = a % 2 ^ n := by
  unfold toBV
  rw [BitVec.toNat_ofInt]
  have : (0 : Int) ≤ a % (2 ^ n : Nat) := Int.emod_nonneg _ (by positivity)
  rw [Int.toNat_of_nonneg this]
  push_cast
  rfl

theorem toBV_testBit (n : Nat) (a : Int) (k : Nat) :
    (toBV n a).toNat.testBit k = (decide (k < n) && pyBit a k) := by
  rw [← pyBit_natCast, toBV_toNat]
  by_cases h : k < n
  · simp [h, pyBit_emod a n k h]
  · simp only [h, decide_false, Bool.false_and]
    exact pyBit_high_nonneg _ n k (Int.emod_nonneg _ (by positivity)) (Int.emod_lt_of_pos _ (by positivity)) (by omega)

/-- High bits of an operand in the accepted range. -/
theorem pyBit_high (n k : Nat) (a : Int) (ha : inRange n a) (h : n ≤ k) :
    pyBit a k = decide (a < 0) := by
  unfold inRange intMin intMax at ha
  by_cases h0 : a < 0
  · simp [h0, pyBit_high_neg a n k h0 ha.1 h]
  · simp [h0, pyBit_high_nonneg a n k (by omega) (by omega) h]

theorem bitwise_iff (op : Bool → Bool → Bool) (n : Nat) (a b : Int) (c : BitVec n)
    (hc : ∀ k, c.toNat.testBit k = (decide (k < n) && op (pyBit a k) (pyBit b k)))
    (ha : inRange n a) (hb : inRange n b) :
    IsBitwise op a b (fromBV c) ↔ op (decide (a < 0)) (decide (b < 0)) = false := by
  unfold IsBitwise fromBV
  constructor
  · intro h
    have := h n
    rw [pyBit_natCast, hc] at this
    rw [pyBit_high n n a ha (le_refl _), pyBit_high n n b hb (le_refl _)] at this
    simpa using this.symm
  · intro h k
    rw [pyBit_natCast, hc]
    by_cases hk : k < n
    · simp [hk]
    · rw [pyBit_high n k a ha (by omega), pyBit_high n k b hb (by omega), h]
      simp

/-! ### shifts -/

theorem shiftFactor8_eq (s : Nat) (h : s ≤ 8) : shiftFactor8 s = 2 ^ s := by
  interval_cases s <;> rfl

theorem shiftFactor32_eq (s : Nat) (h : s ≤ 32) : shiftFactor32 s = 2 ^ s := by
  interval_cases s <;> rfl

theorem shiftFactor64_eq (s : Nat) (h : s ≤ 64) : shiftFactor64 s = 2 ^ s := by
  interval_cases s <;> rfl

theorem toBV_toNat_nat (n m : Nat) : (toBV n (m : Int)).toNat = m % 2 ^ n := by
  have := toBV_toNat n (m : Int)
  exact_mod_cast this

theorem shl_toNat (n x s : Nat) (hs : s < 2 ^ n) :
    (toBV n (x : Int) <<< toBV n (s : Int)).toNat = x * 2 ^ s % 2 ^ n := by
  rw [BitVec.shiftLeft_eq', BitVec.toNat_shiftLeft, toBV_toNat_nat, toBV_toNat_nat, Nat.mod_eq_of_lt hs,
    Nat.shiftLeft_eq, Nat.mod_mul_mod]

theorem shr_toNat (n x s : Nat) (hs : s < 2 ^ n) :
    (toBV n (x : Int) >>> toBV n (s : Int)).toNat = (x % 2 ^ n) / 2 ^ s := by
  rw [BitVec.ushiftRight_eq', BitVec.toNat_ushiftRight, toBV_toNat_nat, toBV_toNat_nat, Nat.mod_eq_of_lt hs,
    Nat.shiftRight_eq_div_pow]

theorem isPyShr_ediv (a : Int) (s : Nat) : IsPyShr a s (a / 2 ^ s) := by
  have hp : (0 : Int) < 2 ^ s := by positivity
  refine ⟨Int.ediv_mul_le _ (ne_of_gt hp), ?_⟩
  have := Int.lt_ediv_add_one_mul_self a hp
  exact this

theorem isPyShr_unique (a : Int) (s : Nat) (c c' : Int) (h : IsPyShr a s c) (h' : IsPyShr a s c') :
    c = c' := by
  have hp : (0 : Int) < 2 ^ s := by positivity
  obtain ⟨h1, h2⟩ := h
  obtain ⟨h1', h2'⟩ := h'
  have e1 : c * 2 ^ s < (c' + 1) * 2 ^ s := by linarith
  have e2 : c' * 2 ^ s < (c + 1) * 2 ^ s := by linarith
  have := lt_of_mul_lt_mul_right e1 (le_of_lt hp)
  have := lt_of_mul_lt_mul_right e2 (le_of_lt hp)
  omega

/-! ### bit length -/

/-- Computation-friendly form. -/
def BL (v l : Nat) : Prop := v < 2 ^ l ∧ (l ≠ 0 → 2 ^ (l - 1) ≤ v)

theorem BL.spec {v l : Nat} (h : BL v l) : v < 2 ^ l ∧ ∀ m, v < 2 ^ m → l ≤ m := by
  refine ⟨h.1, ?_⟩
  intro m hm
  by_contra hlt
  have hl : l ≠ 0 := by omega
  have h1 := h.2 hl
  have : 2 ^ m ≤ 2 ^ (l - 1) := Nat.pow_le_pow_right (by norm_num) (by omega)
  omega

theorem BL.shift {v l k : Nat} (h : BL (v / 2 ^ k) l) (hv : 2 ^ k ≤ v) : BL v (l + k) := by
  have hp : 0 < 2 ^ k := by positivity
  have hl : l ≠ 0 := by
    rintro rfl
    have := h.1
    have : 0 < v / 2 ^ k := Nat.div_pos hv hp
    simp at *
    omega
  constructor
  · rw [pow_add]
    exact (Nat.div_lt_iff_lt_mul hp).1 h.1
  · intro _
    have := h.2 hl
    rw [show l + k - 1 = (l - 1) + k by omega, pow_add]
    exact (Nat.le_div_iff_mul_le hp).1 this

theorem bl8 (v : Nat) (h : v < 256) : ∃ l, bitLength8 v = (l : Nat) ∧ BL v l := by
  unfold bitLength8
  split_ifs with h1 h2 h3 h4 h5 h6 h7 h8
  · exact ⟨0, rfl, by constructor <;> simp; omega⟩
  · exact ⟨1, rfl, by constructor <;> simp <;> omega⟩
  · exact ⟨2, rfl, by constructor <;> simp <;> omega⟩
  · exact ⟨3, rfl, by constructor <;> simp <;> omega⟩
  · exact ⟨4, rfl, by constructor <;> simp <;> omega⟩
  · exact ⟨5, rfl, by constructor <;> simp <;> omega⟩
  · exact ⟨6, rfl, by constructor <;> simp <;> omega⟩
  · exact ⟨7, rfl, by constructor <;> simp <;> omega⟩
  · exact ⟨8, rfl, by constructor <;> simp <;> omega⟩

theorem sf32_8 : shiftFactor32 8 = 256 := rfl
theorem sf32_16 : shiftFactor32 16 = 65536 := rfl
theorem sf32_24 : shiftFactor32 24 = 16777216 := rfl
theorem sf32_32 : shiftFactor32 32 = 4294967296 := rfl

theorem bl32 (v : Nat) (h : v < 4294967296) : ∃ l, bitLength32 v = (l : Nat) ∧ BL v l := by
  unfold bitLength32
  rw [sf32_8, sf32_16, sf32_24]
  split_ifs with h1 h2 h3
  · exact bl8 v (by omega)
  · obtain ⟨l, e, b⟩ := bl8 (v / 2 ^ 8) (by norm_num; omega)
    exact ⟨l + 8, by have : ((v : Int) / 256) = ((v / 2 ^ 8 : Nat) : Int) := by norm_num
                     rw [this, e]; rfl, b.shift (by norm_num; omega)⟩
  · obtain ⟨l, e, b⟩ := bl8 (v / 2 ^ 16) (by norm_num; omega)
    exact ⟨l + 16, by have : ((v : Int) / 65536) = ((v / 2 ^ 16 : Nat) : Int) := by norm_num
                      rw [this, e]; rfl, b.shift (by norm_num; omega)⟩
  · obtain ⟨l, e, b⟩ := bl8 (v / 2 ^ 24) (by norm_num; omega)
    exact ⟨l + 24, by have : ((v : Int) / 16777216) = ((v / 2 ^ 24 : Nat) : Int) := by norm_num
                      rw [this, e]; rfl, b.shift (by norm_num; omega)⟩

theorem bl64 (v : Nat) (h : v < 2 ^ 64) : ∃ l, bitLength64 v = (l : Nat) ∧ BL v l := by
  unfold bitLength64
  rw [sf32_32]
  split_ifs with h1
  · exact bl32 v (by omega)
  · obtain ⟨l, e, b⟩ := bl32 (v / 2 ^ 32) (by norm_num at *; omega)
    exact ⟨l + 32, by have : ((v : Int) / 4294967296) = ((v / 2 ^ 32 : Nat) : Int) := by norm_num
                      rw [this, e]; rfl, b.shift (by norm_num; omega)⟩

end Nagini.IntOps
