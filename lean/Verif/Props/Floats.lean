import Verif.Lemmas.Floats
import Mathlib.Data.Fintype.EquivFin
import Mathlib.Data.Set.Finite.Basic
set_option linter.unusedSimpArgs false
set_option linter.unusedVariables false
/-!
C138, C139, C140: the interpreted encodings of floating point numbers.
-/
namespace Nagini.Floats

/-! ### C138 -/

/-- The contracts of the real encoding can be met: the verifier does not assume a contradiction. -/
def C138 : Prop := ∃ (Ref : Type) (I : Real Ref), I.Contracts

/-- They cannot. -/
theorem C138_fails : ¬ C138 := by
  rintro ⟨Ref, I, C, K⟩
  have h := (Real.ge_val C (Real.F_boxInf C false) (Real.F_boxNan C)).1
    (K.ge _ _ (Real.F_boxInf C false) (Real.F_boxNan C) trivial)
  exact h.1 (Or.inl ⟨Real.val_boxInf C false, Real.val_boxNan C⟩)

/-- The contradiction is assumed in a program that compares `float("inf")` with `float("nan")`: both are floats, as
required, and no result meets the postcondition.  This holds for each of the four operators. -/
theorem C138_program_fails {Ref : Type} (I : Real Ref) (C : I.Core) :
    I.F (I.literal (.inf false)) ∧ I.F (I.literal .nan) ∧
    (∀ res, ¬ I.GePost (I.literal (.inf false)) (I.literal .nan) res) ∧
    (∀ res, ¬ I.GtPost (I.literal (.inf false)) (I.literal .nan) res) ∧
    (∀ res, ¬ I.LePost (I.literal .nan) (I.literal (.inf false)) res) ∧
    (∀ res, ¬ I.LtPost (I.literal .nan) (I.literal (.inf false)) res) := by
  have h1 : I.F (I.literal (.inf false)) := Real.F_boxInf C false
  have h2 : I.F (I.literal .nan) := Real.F_boxNan C
  have hc : Real.Clash (I.val (I.literal (.inf false))) (I.val (I.literal .nan)) :=
    Or.inl ⟨Real.val_boxInf C false, Real.val_boxNan C⟩
  refine ⟨h1, h2, fun res h => ?_, fun res h => ?_, fun res h => ?_, fun res h => ?_⟩
  · exact ((Real.ge_val C h1 h2).1 h).1 hc
  · exact ((Real.gt_val C h1 h2).1 h).1 hc
  · exact ((Real.le_val C h2 h1).1 h).1 hc
  · exact ((Real.lt_val C h2 h1).1 h).1 hc

/-- Exactly the comparisons of infinity with NaN are contradictory, where `>=` and `>` are affected for `inf` on the
left and `-inf` on the right of NaN, and the other two operators for `-inf` on the left and `inf` on the right. -/
theorem C138_exact {Ref : Type} (I : Real Ref) (C : I.Core) (s o : Ref) (hs : I.F s) (ho : I.F o) :
    ((∃ res, I.GePost s o res) ↔
      ¬ ((I.val s = .inf false ∧ I.val o = .nan) ∨ (I.val s = .nan ∧ I.val o = .inf true))) ∧
    ((∃ res, I.GtPost s o res) ↔
      ¬ ((I.val s = .inf false ∧ I.val o = .nan) ∨ (I.val s = .nan ∧ I.val o = .inf true))) ∧
    ((∃ res, I.LePost s o res) ↔
      ¬ ((I.val s = .inf true ∧ I.val o = .nan) ∨ (I.val s = .nan ∧ I.val o = .inf false))) ∧
    ((∃ res, I.LtPost s o res) ↔
      ¬ ((I.val s = .inf true ∧ I.val o = .nan) ∨ (I.val s = .nan ∧ I.val o = .inf false))) := by
  simp only [Real.ge_val C hs ho, Real.gt_val C hs ho, Real.le_val C hs ho, Real.lt_val C hs ho, Real.Clash]
  grind

/-- The other contracts, and those of comparisons that do not compare infinity with NaN, can be met. -/
theorem C138_partial : ∃ (Ref : Type) (I : Real Ref), I.Core ∧
    I.Compare fun s o => ¬ (I.val s = .nan ∧ ∃ b, I.val o = .inf b) ∧ ¬ (I.val o = .nan ∧ ∃ b, I.val s = .inf b) := by
  refine ⟨Std, std, std_core, ?_, ?_, ?_, ?_⟩ <;> intro s o hs ho h
  · refine (Real.ge_val std_core hs ho).2 ⟨?_, by rw [std_val, std_val]; rfl⟩
    rintro (k | k)
    · exact h.2 ⟨k.2, _, k.1⟩
    · exact h.1 ⟨k.1, _, k.2⟩
  · refine (Real.gt_val std_core hs ho).2 ⟨?_, by rw [std_val, std_val]; rfl⟩
    rintro (k | k)
    · exact h.2 ⟨k.2, _, k.1⟩
    · exact h.1 ⟨k.1, _, k.2⟩
  · refine (Real.le_val std_core hs ho).2 ⟨?_, by rw [std_val, std_val]; rfl⟩
    rintro (k | k)
    · exact h.1 ⟨k.2, _, k.1⟩
    · exact h.2 ⟨k.1, _, k.2⟩
  · refine (Real.lt_val std_core hs ho).2 ⟨?_, by rw [std_val, std_val]; rfl⟩
    rintro (k | k)
    · exact h.1 ⟨k.2, _, k.1⟩
    · exact h.2 ⟨k.1, _, k.2⟩

/-- The contracts of the 32 bit encoding can be met, whatever the operations of SMT-LIB compute. -/
theorem C138_ieee (A : Arith) : ∃ (Ref : Type) (I : Ieee Ref), I.Contracts A := ⟨Std32, std32 A, std32_contracts A⟩

example : ∃ res, std.GePost (.float (.inf false)) (.int 3) res :=
  ((C138_exact std std_core (.float (.inf false)) (.int 3) rfl rfl).1).2 (by rw [std_val, std_val]; decide +kernel)

example : ¬ ∃ res, std.LtPost (.float .nan) (std.literal (.inf false)) res := fun ⟨res, h⟩ =>
  (C138_program_fails std std_core).2.2.2.2.2 res h

/-! ### C139 -/

/-- In the real encoding, arithmetic, equality, negation, conditions, literals and integers mean what they mean for
exact numbers with NaN and infinities; divisions are accepted if they do not raise an exception. -/
structure Exact {Ref : Type} (I : Real Ref) : Prop where
  nan : I.F (I.literal .nan) ∧ I.val (I.literal .nan) = .nan
  inf : ∀ b, I.F (I.literal (.inf b)) ∧ I.val (I.literal (.inf b)) = .inf b
  ratio : ∀ n d, I.F (I.literal (.ratio n d)) ∧ I.val (I.literal (.ratio n d)) = .fin (n / d)
  ofInt : ∀ n, I.F (I.intBox n) ∧ I.val (I.intBox n) = .fin n
  isNaN : ∀ s, I.F s → (I.isNaN s = true ↔ I.val s = .nan)
  truth : ∀ s, I.F s → I.bool s = (I.val s).truth
  eq : ∀ s o, I.F s → I.F o → I.eq s o = (I.val s).eq (I.val o)
  add : ∀ s o, I.F s → I.F o → I.F (I.add s o) ∧ I.val (I.add s o) = (I.val s).add (I.val o)
  radd : ∀ s o, I.F s → I.F o → I.F (I.radd s o) ∧ I.val (I.radd s o) = (I.val o).add (I.val s)
  sub : ∀ s o, I.F s → I.F o → I.F (I.sub s o) ∧ I.val (I.sub s o) = (I.val s).sub (I.val o)
  rsub : ∀ s o, I.F s → I.F o → I.F (I.rsub s o) ∧ I.val (I.rsub s o) = (I.val o).sub (I.val s)
  mul : ∀ s o, I.F s → I.F o → I.F (I.mul s o) ∧ I.val (I.mul s o) = (I.val s).mul (I.val o)
  rmul : ∀ s o, I.F s → I.F o → I.F (I.rmul s o) ∧ I.val (I.rmul s o) = (I.val o).mul (I.val s)
  divPre : ∀ s o, I.F s → I.F o → (I.DivPre o ↔ (I.val s).div (I.val o) ≠ none)
  truediv : ∀ s o, I.F s → I.F o → I.DivPre o →
    I.F (I.truediv s o) ∧ (I.val s).div (I.val o) = some (I.val (I.truediv s o))
  rtruediv : ∀ s o, I.F s → I.F o → I.DivPre s →
    I.F (I.rtruediv s o) ∧ (I.val o).div (I.val s) = some (I.val (I.rtruediv s o))
  pos : ∀ s, I.F s → I.pos s = s
  neg : ∀ s, I.F s → I.F (I.neg s) ∧ I.val (I.neg s) = (I.val s).neg

/-- Conversions to integers are accepted if they do not raise an exception, and cut off the fraction. -/
def Truncates {Ref : Type} (I : Real Ref) : Prop := ∀ s, I.F s →
  (I.IntPre s ↔ (I.val s).toInt ≠ none) ∧ ∀ n, (I.val s).toInt = some n → I.int s = I.intBox n

/-- The real encoding computes with exact numbers. -/
def C139 : Prop := ∀ (Ref : Type) (I : Real Ref), I.Core → Exact I ∧ Truncates I

theorem C139_partial (Ref : Type) (I : Real Ref) (C : I.Core) : Exact I where
  nan := ⟨Real.F_boxNan C, Real.val_boxNan C⟩
  inf b := by cases b <;> exact ⟨Real.F_boxInf C _, Real.val_boxInf C _⟩
  ratio n d := ⟨Real.F_box C _, Real.val_box C _⟩
  ofInt n := by
    obtain ⟨h, k⟩ := C.ints n
    refine ⟨by simp [Real.F, h, Ty.isFloat], ?_⟩
    rw [Real.val_int C (by rw [h]; rfl), k]
  isNaN s hs := by
    rw [C.isNaN s hs]
    rcases Real.kinds C hs with h | h | h | h <;> simp [h]
  truth s hs := (Real.bool_val C hs).1 (C.bool s hs)
  eq s o hs ho := (Real.eq_val C hs ho).1 (C.eq s o hs ho)
  add s o hs ho := ⟨(C.add s o hs ho).1, Real.add_val C hs ho (C.add s o hs ho)⟩
  radd s o hs ho := ⟨(C.radd s o hs ho).1, Real.radd_val C hs ho (C.radd s o hs ho)⟩
  sub s o hs ho := ⟨(C.sub s o hs ho).1, Real.sub_val C hs ho (C.sub s o hs ho)⟩
  rsub s o hs ho := ⟨(C.rsub s o hs ho).1, Real.sub_val C ho hs (C.rsub s o hs ho)⟩
  mul s o hs ho := ⟨(C.mul s o hs ho).1, Real.mul_val C hs ho (C.mul s o hs ho)⟩
  rmul s o hs ho := ⟨(C.rmul s o hs ho).1, Real.mul_val C ho hs (C.rmul s o hs ho)⟩
  divPre s o hs ho := Real.div_none C ho
  truediv s o hs ho h := ⟨(C.truediv s o hs ho h).1, Real.div_val C hs ho h (C.truediv s o hs ho h)⟩
  rtruediv s o hs ho h := ⟨(C.rtruediv s o hs ho h).1, Real.div_val C ho hs h (C.rtruediv s o hs ho h)⟩
  pos s hs := C.pos s hs
  neg s hs := ⟨(C.neg s hs).1, Real.neg_val C hs (C.neg s hs)⟩

/-- Comparisons by size agree with exact numbers, except for those that compare infinity with NaN; where a contract can
be met at all, it is met only by the right result. -/
theorem C139_compare {Ref : Type} (I : Real Ref) (C : I.Core) (s o : Ref) (hs : I.F s) (ho : I.F o) (res : Bool) :
    (I.GePost s o res → res = (I.val o).le (I.val s)) ∧ (I.GtPost s o res → res = (I.val o).lt (I.val s)) ∧
    (I.LePost s o res → res = (I.val s).le (I.val o)) ∧ (I.LtPost s o res → res = (I.val s).lt (I.val o)) :=
  ⟨fun h => ((Real.ge_val C hs ho).1 h).2, fun h => ((Real.gt_val C hs ho).1 h).2,
    fun h => ((Real.le_val C hs ho).1 h).2, fun h => ((Real.lt_val C hs ho).1 h).2⟩

/-- Conversions are accepted exactly if they raise no exception, and return the right integer exactly for numbers that
are not negative and for integers. -/
theorem C139_int {Ref : Type} (I : Real Ref) (C : I.Core) (s : Ref) (hs : I.F s) :
    (I.IntPre s ↔ (I.val s).toInt ≠ none) ∧
    ∀ q n, I.val s = .fin q → (I.val s).toInt = some n → (I.int s = I.intBox n ↔ 0 ≤ q ∨ ∃ m : Int, q = m) := by
  refine ⟨?_, fun q n hq hn => ?_⟩
  · unfold Real.IntPre
    rw [Real.num_iff C hs]
    cases I.val s <;> simp [Ext.toInt]
  · have hnum : I.num s := (Real.num_iff C hs).2 ⟨q, hq⟩
    have hu : I.unbox s = q := by
      rcases Real.kinds C hs with h | h | h | h <;> rw [h.2.2.2] at hq <;> cases hq; rfl
    have hi := (C.int s hs hnum).2
    rw [hu] at hi
    rw [hq] at hn
    simp only [Ext.toInt, Option.some.injEq] at hn
    have hinj : I.intBox ⌊q⌋ = I.intBox n ↔ ⌊q⌋ = n :=
      ⟨fun h => by have := congrArg I.intUnbox h; rwa [(C.ints _).2, (C.ints _).2] at this, fun h => by rw [h]⟩
    rw [hi, hinj]
    by_cases h0 : 0 ≤ q
    · simp [h0] at hn ⊢; exact hn
    · simp only [h0, if_false] at hn
      subst hn
      simp only [h0, false_or]
      constructor
      · intro h
        refine ⟨⌊q⌋, le_antisymm ?_ (Int.floor_le q)⟩
        rw [h]; exact Int.le_ceil q
      · rintro ⟨m, rfl⟩
        simp

/-- `int(-1.5)` is -2. -/
theorem C139_fails : ¬ C139 := fun h => by
  have k := ((h Std std std_core).2 (std.literal (.ratio (-3) 2)) rfl).2 (-1) (by
    rw [std_val]; decide +kernel)
  have k' : Std.int (-2) = Std.int (-1) := by
    rw [← show std.int (std.literal (.ratio (-3) 2)) = Std.int (-2) by decide +kernel]
    exact k
  cases k'

example : std.val (std.truediv (.int 7) (std.literal (.ratio 1 2))) = .fin 14 := by
  have h := (C139_partial Std std std_core).truediv (.int 7) (std.literal (.ratio 1 2)) rfl rfl
    (((C139_partial Std std std_core).divPre (.int 7) (std.literal (.ratio 1 2)) rfl rfl).2 (by
      rw [std_val, std_val]; decide +kernel))
  have k : Ext.div (std.val (.int 7)) (std.val (std.literal (.ratio 1 2))) = some (.fin 14) := by
    rw [std_val, std_val]; decide +kernel
  rw [k] at h
  exact (Option.some.inj h.2).symm

example : std.GePost (.int 3) (.float (.inf true)) true :=
  (Real.ge_val (s := .int 3) (o := .float (.inf true)) std_core rfl rfl).2 (by rw [std_val, std_val]; decide +kernel)

example : std.int (std.literal (.ratio 7 2)) = .int 3 := by
  refine ((C139_int std std_core (std.literal (.ratio 7 2)) rfl).2 (7 / 2) 3 ?_ ?_).2 (Or.inl (by norm_num))
  · rw [std_val]; decide +kernel
  · rw [std_val]; decide +kernel

/-! ### C140 -/

/-- In the 32 bit encoding, conditions, divisions, conversions to integers and comparisons of SMT-LIB's numbers (where
the number zero has its own values) agree with Python. -/
def C140 : Prop := ∀ (Ref : Type) (I : Ieee Ref) (A : Arith), I.Contracts A →
  ∀ s o, I.F s → I.F o → I.unbox s ≠ .num 0 → I.unbox o ≠ .num 0 → ∀ x y, (I.unbox s).ext = x → (I.unbox o).ext = y →
    I.bool s = x.truth ∧ (I.DivPre o ↔ x.div y ≠ none) ∧
    (∃ n, x.toInt = some n ∧ I.int s = I.intBox n) ∧
    I.eq s o = x.eq y ∧ I.ge s o = y.le x ∧ I.gt s o = y.lt x ∧ I.le s o = x.le y ∧ I.lt s o = x.lt y

theorem notNull {Ref : Type} {I : Ieee Ref} {A : Arith} (C : I.Contracts A) {r : Ref} (h : I.F r) : r ≠ I.null := by
  rintro rfl
  simp [Ieee.F, C.null, Ty.isFloat] at h

theorem F_literal {Ref : Type} {I : Ieee Ref} {A : Arith} (C : I.Contracts A) (bits : Nat) :
    I.F (I.literal bits) ∧ I.unbox (I.literal bits) = Fp.ofBits (BitVec.ofInt 32 bits) := by
  unfold Ieee.literal
  rw [C.create]
  exact ⟨by simp [Ieee.F, (C.box _).1, Ty.isFloat], (C.box _).2⟩

/-- The literal -0.0 is true as a condition and accepted as a divisor, although it is the number zero. -/
theorem C140_zero_fails {Ref : Type} (I : Ieee Ref) (A : Arith) (C : I.Contracts A) :
    I.F (I.literal 0x80000000) ∧ (I.unbox (I.literal 0x80000000)).ext = .fin 0 ∧
    I.bool (I.literal 0x80000000) = true ∧ I.DivPre (I.literal 0x80000000) ∧
    (Ext.fin 0).truth = false ∧ ∀ x, Ext.div x (.fin 0) = none := by
  obtain ⟨h, k⟩ := F_literal C 0x80000000
  have e : Fp.ofBits (BitVec.ofInt 32 (0x80000000 : Nat)) = .zero true := by decide +kernel
  rw [e] at k
  refine ⟨h, by rw [k]; rfl, (C.bool _ h (notNull C h)).2 (by rw [k, Ieee.zero_eq]; simp), ?_, by simp [Ext.truth],
    fun x => by simp [Ext.div]⟩
  unfold Ieee.DivPre
  rw [k, Ieee.zero_eq]; simp

/-- `int(-1.5)` is -2, and conversions of NaN and infinities are accepted. -/
theorem C140_int_fails {Ref : Type} (I : Ieee Ref) (A : Arith) (C : I.Contracts A) :
    ((I.unbox (I.literal 0xBFC00000)).ext.toInt = some (-1) ∧ I.int (I.literal 0xBFC00000) = I.intBox (-2)) ∧
    (I.F (I.literal 0x7FC00000) ∧ (I.unbox (I.literal 0x7FC00000)).ext.toInt = none) ∧
    (I.F (I.literal 0x7F800000) ∧ (I.unbox (I.literal 0x7F800000)).ext.toInt = none) := by
  obtain ⟨h1, k1⟩ := F_literal C 0xBFC00000
  obtain ⟨h2, k2⟩ := F_literal C 0x7FC00000
  obtain ⟨h3, k3⟩ := F_literal C 0x7F800000
  have e1 : Fp.ofBits (BitVec.ofInt 32 (0xBFC00000 : Nat)) = .num (-3 / 2) := by decide +kernel
  have e2 : Fp.ofBits (BitVec.ofInt 32 (0x7FC00000 : Nat)) = .nan := by decide +kernel
  have e3 : Fp.ofBits (BitVec.ofInt 32 (0x7F800000 : Nat)) = .inf false := by decide +kernel
  rw [e1] at k1; rw [e2] at k2; rw [e3] at k3
  refine ⟨⟨by rw [k1]; decide +kernel, ?_⟩, ⟨h2, by rw [k2]; rfl⟩, h3, by rw [k3]; rfl⟩
  rw [(C.int _ h1).2, k1]
  congr 1
  show ⌊(-3 / 2 : ℚ)⌋ = -2
  decide +kernel

theorem C140_fails : ¬ C140 := fun h => by
  let A : Arith := ⟨fun _ _ => .nan, fun _ _ => .nan, fun _ _ => .nan, fun _ _ => .nan, fun _ => .nan, fun _ => 0⟩
  have C := std32_contracts A
  obtain ⟨z1, z2, z3, _, z4, _⟩ := C140_zero_fails (std32 A) A C
  have hn : (std32 A).unbox ((std32 A).literal 0x80000000) ≠ .num 0 := by
    rw [(F_literal C _).2]; decide +kernel
  have k := (h _ (std32 A) A C _ _ z1 z1 hn hn _ _ z2 z2).1
  rw [z3, z4] at k
  cases k

/-- Conditions and divisions agree with Python exactly for values other than -0.0. -/
theorem C140_partial {Ref : Type} (I : Ieee Ref) (A : Arith) (C : I.Contracts A) (s : Ref) (hs : I.F s)
    (hn : I.unbox s ≠ .num 0) :
    (I.bool s = (I.unbox s).ext.truth ↔ I.unbox s ≠ .zero true) ∧
    ∀ x, (I.DivPre s ↔ Ext.div x (I.unbox s).ext ≠ none) ↔ I.unbox s ≠ .zero true := by
  have hb := C.bool s hs (notNull C hs)
  rw [Ieee.zero_eq] at hb
  unfold Ieee.DivPre
  rw [Ieee.zero_eq]
  revert hb hn
  cases hu : I.unbox s with
  | zero b => cases b <;> cases I.bool s <;> simp [Fp.ext, Ext.truth, Ext.div]
  | num q => cases I.bool s <;> simp [Fp.ext, Ext.truth, Ext.div]; exact fun h => ⟨h, fun _ => h⟩
  | _ => cases I.bool s <;> simp [Fp.ext, Ext.truth, Ext.div]

/-- All comparisons agree with Python. -/
theorem C140_compare {Ref : Type} (I : Ieee Ref) (A : Arith) (C : I.Contracts A) (s o : Ref) (hs : I.F s) (ho : I.F o)
    (h1 : I.unbox s ≠ .num 0) (h2 : I.unbox o ≠ .num 0) :
    I.eq s o = (I.unbox s).ext.eq (I.unbox o).ext ∧ I.ge s o = (I.unbox o).ext.le (I.unbox s).ext ∧
    I.gt s o = (I.unbox o).ext.lt (I.unbox s).ext ∧ I.le s o = (I.unbox s).ext.le (I.unbox o).ext ∧
    I.lt s o = (I.unbox s).ext.lt (I.unbox o).ext := by
  rw [C.eq s o hs ho, C.ge s o hs ho, C.gt s o hs ho, C.le s o hs ho, C.lt s o hs ho, Fp.eq_ext h1 h2,
    Fp.geq_ext h1 h2, Fp.geq_ext h2 h1, Fp.gt_ext, Fp.gt_ext]
  exact ⟨rfl, rfl, rfl, rfl, rfl⟩

/-- Conversions of numbers are right exactly for numbers that are not negative and for integers. -/
theorem C140_int {Ref : Type} (I : Ieee Ref) (A : Arith) (C : I.Contracts A) (s : Ref) (hs : I.F s) (q : ℚ) (n : Int)
    (hq : (I.unbox s).ext = .fin q) (hn : (I.unbox s).ext.toInt = some n) :
    I.int s = I.intBox n ↔ 0 ≤ q ∨ ∃ m : Int, q = m := by
  have hr : (I.unbox s).toReal A.other = q := by
    revert hq; cases I.unbox s <;> simp [Fp.ext, Fp.toReal]
  have hi := (C.int s hs).2
  rw [Ieee.toInt, hr] at hi
  rw [hq] at hn
  simp only [Ext.toInt, Option.some.injEq] at hn
  have hinj : I.intBox ⌊q⌋ = I.intBox n ↔ ⌊q⌋ = n :=
    ⟨fun h => by have := congrArg I.intUnbox h; rwa [(C.ints _).2, (C.ints _).2] at this, fun h => by rw [h]⟩
  rw [hi, hinj]
  by_cases h0 : 0 ≤ q
  · simp [h0] at hn ⊢; exact hn
  · simp only [h0, if_false] at hn
    subst hn
    simp only [h0, false_or]
    constructor
    · intro h
      refine ⟨⌊q⌋, le_antisymm ?_ (Int.floor_le q)⟩
      rw [h]; exact Int.le_ceil q
    · rintro ⟨m, rfl⟩
      simp

/-- Arithmetic is that of SMT-LIB with rounding to the nearest number, and negation changes the sign. -/
theorem C140_arith {Ref : Type} (I : Ieee Ref) (A : Arith) (C : I.Contracts A) (s o : Ref) (hs : I.F s) (ho : I.F o) :
    I.unbox (I.add s o) = A.add (I.unbox s) (I.unbox o) ∧ I.unbox (I.radd s o) = A.add (I.unbox o) (I.unbox s) ∧
    I.unbox (I.sub s o) = A.sub (I.unbox s) (I.unbox o) ∧ I.unbox (I.rsub s o) = A.sub (I.unbox o) (I.unbox s) ∧
    I.unbox (I.mul s o) = A.mul (I.unbox s) (I.unbox o) ∧ I.unbox (I.rmul s o) = A.mul (I.unbox o) (I.unbox s) ∧
    (I.DivPre o → I.unbox (I.truediv s o) = A.div (I.unbox s) (I.unbox o)) ∧
    (I.DivPre s → I.unbox (I.rtruediv s o) = A.div (I.unbox o) (I.unbox s)) ∧
    I.pos s = s ∧ (I.unbox (I.neg s)).ext = (I.unbox s).ext.neg ∧ (I.isNaN s = true ↔ I.unbox s = .nan) := by
  refine ⟨?_, ?_, ?_, ?_, ?_, ?_, fun h => ?_, fun h => ?_, (C.pos s hs).2, ?_, C.isNaN s hs⟩
  · rw [(C.add s o hs ho).2, (C.box _).2]
  · rw [(C.radd s o hs ho).2, (C.box _).2]
  · rw [(C.sub s o hs ho).2, (C.box _).2]
  · rw [(C.rsub s o hs ho).2, (C.box _).2]
  · rw [(C.mul s o hs ho).2, (C.box _).2]
  · rw [(C.rmul s o hs ho).2, (C.box _).2]
  · rw [(C.truediv s o hs ho h).2, (C.box _).2]
  · rw [(C.rtruediv s o hs ho h).2, (C.box _).2]
  · rw [(C.neg s hs).2, (C.box _).2]
    cases I.unbox s <;> simp [Fp.neg, Fp.ext, Ext.neg]

/-- Since there are finitely many numbers of 32 bits, some float equals two different integers; in Python, comparisons
with integers are exact. -/
theorem C140_mixed_fails {Ref : Type} (I : Ieee Ref) (A : Arith) (C : I.Contracts A)
    (hfin : (Set.range fun n : Int => A.ofReal n).Finite) (hnan : ∀ n : Int, A.ofReal n ≠ .nan) :
    ∃ f i j, i ≠ j ∧ I.typeof f = .float ∧ I.eq f (I.intBox i) = true ∧ I.eq f (I.intBox j) = true := by
  have : ∃ i j : Int, i ≠ j ∧ A.ofReal i = A.ofReal j := by
    by_contra hc
    have hinj : Function.Injective fun n : Int => A.ofReal n := fun a b hab => by
      by_contra hne; exact hc ⟨a, b, hne, hab⟩
    exact (Set.infinite_range_of_injective hinj) hfin
  obtain ⟨i, j, hij, he⟩ := this
  have hF : ∀ n, I.F (I.intBox n) := fun n => by simp [Ieee.F, (C.ints n).1, Ty.isFloat]
  have hu : ∀ n, I.unbox (I.intBox n) = A.ofReal n := fun n => by
    rw [C.unbox _ (hF n) (by rw [(C.ints n).1]; rfl), (C.ints n).2]; simp
  have hb : I.F (I.box (A.ofReal i)) := by simp [Ieee.F, (C.box _).1, Ty.isFloat]
  have hr : ∀ x : Fp, x ≠ .nan → Fp.eq x x = true := by
    intro x hx; cases x <;> simp_all [Fp.eq]
  refine ⟨I.box (A.ofReal i), i, j, hij, (C.box _).1, ?_, ?_⟩
  · rw [C.eq _ _ hb (hF i), (C.box _).2, hu, hr _ (hnan i)]
  · rw [C.eq _ _ hb (hF j), (C.box _).2, hu, ← he, hr _ (hnan i)]

/-- Numbers that are rounded to -1, 0 or 1. -/
def coarse : Arith :=
  ⟨fun _ _ => .nan, fun _ _ => .nan, fun _ _ => .nan, fun _ _ => .nan,
    fun q => if q = 0 then .zero false else if q < 0 then .num (-1) else .num 1, fun _ => 0⟩

example : ∃ f i j, i ≠ j ∧ (std32 coarse).typeof f = .float ∧ (std32 coarse).eq f ((std32 coarse).intBox i) = true ∧
    (std32 coarse).eq f ((std32 coarse).intBox j) = true := by
  refine C140_mixed_fails _ _ (std32_contracts coarse) ?_ ?_
  · refine Set.Finite.subset (Set.toFinite {Fp.zero false, Fp.num (-1), Fp.num 1}) ?_
    rintro _ ⟨n, rfl⟩
    simp only [coarse]
    split
    · simp
    · split <;> simp
  · intro n
    simp only [coarse]
    split
    · simp
    · split <;> simp

example : (std32 coarse).bool (.float (.num 2)) = true ∧ (std32 coarse).int (.float (.num (5 / 2))) = .int 2 := by
  have C := std32_contracts coarse
  refine ⟨((C140_partial _ _ C (.float (.num 2)) rfl (by decide +kernel)).1).2 (by decide +kernel), ?_⟩
  exact (C140_int _ _ C (.float (.num (5 / 2))) rfl (5 / 2) 2 rfl (by decide +kernel)).2 (Or.inl (by norm_num))

example : (std32 coarse).le (.float (.zero true)) (.float (.zero false)) = true :=
  (C140_compare _ _ (std32_contracts coarse) (.float (.zero true)) (.float (.zero false)) rfl rfl (by decide +kernel)
    (by decide +kernel)).2.2.2.1.trans (by decide +kernel)

example : (std32 coarse).unbox ((std32 coarse).add (.int 1) (.float .nan)) = .nan :=
  (C140_arith _ _ (std32_contracts coarse) (.int 1) (.float .nan) rfl rfl).1

end Nagini.Floats
