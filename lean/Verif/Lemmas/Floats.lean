import Verif.Model.Floats
import Verif.Spec.Floats
import Mathlib.Tactic.Linarith
import Mathlib.Tactic.NormNum
set_option linter.unusedSimpArgs false
set_option linter.unusedVariables false
set_option linter.unnecessarySeqFocus false
/-!
Helper lemmas for the encodings of floating point numbers.
-/
namespace Nagini.Floats

/-- The number that a reference stands for in the real encoding. -/
def Real.val {Ref : Type} (I : Real Ref) (r : Ref) : Ext :=
  if I.isNan r then .nan else if I.isInf r false then .inf false else if I.isInf r true then .inf true
  else .fin (I.unbox r)

/-- The number that a value of SMT-LIB stands for. -/
def Fp.ext : Fp → Ext
  | .nan => .nan
  | .inf b => .inf b
  | .zero _ => .fin 0
  | .num q => .fin q

namespace Real
variable {Ref : Type} {I : Real Ref}

theorem F_box (C : I.Core) (p : ℚ) : I.F (I.box p) := by simp [F, (C.box p).1, Ty.isFloat]
theorem F_boxNan (C : I.Core) : I.F I.boxNan := by simp [F, C.boxNan.1, Ty.isFloat]
theorem F_boxInf (C : I.Core) (b : Bool) : I.F (I.boxInf b) := by simp [F, (C.boxInf b).1, Ty.isFloat]

theorem val_box (C : I.Core) (p : ℚ) : I.val (I.box p) = .fin p := by
  obtain ⟨_, h1, h2, h3, h4⟩ := C.box p
  simp [val, h1, h2, h3, h4]
theorem val_boxNan (C : I.Core) : I.val I.boxNan = .nan := by simp [val, C.boxNan.2.1]
theorem val_boxInf (C : I.Core) (b : Bool) : I.val (I.boxInf b) = .inf b := by
  obtain ⟨_, h1, h2, h3⟩ := C.boxInf b
  cases b <;> simp [val, h1, h2, h3]

/-- Every reference is of one of four kinds. -/
theorem kinds (C : I.Core) {r : Ref} (hr : I.F r) :
    (I.isNan r = true ∧ I.isInf r false = false ∧ I.isInf r true = false ∧ I.val r = .nan) ∨
    (I.isNan r = false ∧ I.isInf r false = true ∧ I.isInf r true = false ∧ I.val r = .inf false) ∨
    (I.isNan r = false ∧ I.isInf r false = false ∧ I.isInf r true = true ∧ I.val r = .inf true) ∨
    (I.isNan r = false ∧ I.isInf r false = false ∧ I.isInf r true = false ∧ I.val r = .fin (I.unbox r)) := by
  obtain ⟨_, a1, a2, a3, a4, a5⟩ := C.add r (I.box 0) hr (F_box C 0)
  obtain ⟨_, b1, b2, b3, _⟩ := C.box 0
  have n1 : I.boxNan ≠ I.boxInf false := fun h => by
    have := congrArg I.val h; rw [val_boxNan C, val_boxInf C] at this; cases this
  have n2 : I.boxNan ≠ I.boxInf true := fun h => by
    have := congrArg I.val h; rw [val_boxNan C, val_boxInf C] at this; cases this
  have n3 : I.boxInf false ≠ I.boxInf true := fun h => by
    have := congrArg I.val h; rw [val_boxInf C, val_boxInf C] at this; cases this
  cases hn : I.isNan r <;> cases hp : I.isInf r false <;> cases hm : I.isInf r true <;>
    simp_all [val]

theorem val_int (C : I.Core) {r : Ref} (hr : (I.typeof r).isInt = true) : I.val r = .fin (I.intUnbox r) := by
  have hf : I.F r := by
    unfold F; revert hr; cases I.typeof r <;> simp [Ty.isInt, Ty.isFloat]
  have h1 := C.isNan r hf hr
  have h2 := C.isInf r false hf hr
  have h3 := C.isInf r true hf hr
  have h4 := C.unbox r hf ⟨h1, h2, h3⟩ hr
  simp [val, h1, h2, h3, h4]

theorem num_iff (C : I.Core) {r : Ref} (hr : I.F r) : I.num r ↔ ∃ q, I.val r = .fin q := by
  rcases kinds C hr with h | h | h | h <;> simp [num, h]

theorem add_val (C : I.Core) {s o res : Ref} (hs : I.F s) (ho : I.F o) (h : I.AddPost s o res) :
    I.val res = Ext.add (I.val s) (I.val o) := by
  obtain ⟨-, a1, a2, a3, a4, a5⟩ := h
  rcases kinds C hs with h | h | h | h <;> rcases kinds C ho with k | k | k | k <;>
    simp_all [Ext.add, num, val_box C, val_boxNan C, val_boxInf C]

theorem radd_val (C : I.Core) {s o res : Ref} (hs : I.F s) (ho : I.F o) (h : I.RaddPost s o res) :
    I.val res = Ext.add (I.val o) (I.val s) := by
  obtain ⟨-, a1, a2, a3, a4, a5⟩ := h
  rcases kinds C hs with h | h | h | h <;> rcases kinds C ho with k | k | k | k <;>
    simp_all [Ext.add, num, val_box C, val_boxNan C, val_boxInf C]

theorem sub_val (C : I.Core) {s o res : Ref} (hs : I.F s) (ho : I.F o) (h : I.SubPost s o res) :
    I.val res = Ext.sub (I.val s) (I.val o) := by
  obtain ⟨-, a1, a2, a3, a4, a5⟩ := h
  rcases kinds C hs with h | h | h | h <;> rcases kinds C ho with k | k | k | k <;>
    simp_all [Ext.add, Ext.sub, Ext.neg, num, val_box C, val_boxNan C, val_boxInf C, sub_eq_add_neg]

theorem mul_val (C : I.Core) {s o res : Ref} (hs : I.F s) (ho : I.F o) (h : I.MulPost s o res) :
    I.val res = Ext.mul (I.val s) (I.val o) := by
  obtain ⟨-, a1, a2, a3, a4, a5, a6, a7, a8, a9, a10⟩ := h
  rcases kinds C hs with h | h | h | h <;> rcases kinds C ho with k | k | k | k
  case inr.inl.inr.inr.inr | inr.inr.inl.inr.inr.inr =>
    rcases lt_trichotomy (I.unbox o) 0 with q | q | q <;>
      simp_all [Ext.mul, Ext.scale, num, val_boxNan C, val_boxInf C, ne_of_lt, ne_of_gt, not_lt_of_gt]
  case inr.inr.inr.inr.inl | inr.inr.inr.inr.inr.inl =>
    rcases lt_trichotomy (I.unbox s) 0 with q | q | q <;>
      simp_all [Ext.mul, Ext.scale, num, val_boxNan C, val_boxInf C, ne_of_lt, ne_of_gt, not_lt_of_gt]
  all_goals simp_all [Ext.mul, num, val_box C, val_boxNan C, val_boxInf C]

theorem div_none (C : I.Core) {s o : Ref} (ho : I.F o) :
    I.DivPre o ↔ Ext.div (I.val s) (I.val o) ≠ none := by
  unfold DivPre
  rw [num_iff C ho]
  rcases kinds C ho with k | k | k | k <;> simp [k, Ext.div]

theorem div_val (C : I.Core) {s o res : Ref} (hs : I.F s) (ho : I.F o) (hp : I.DivPre o) (h : I.DivPost s o res) :
    Ext.div (I.val s) (I.val o) = some (I.val res) := by
  obtain ⟨-, a1, a2, a3, a4, a5, a6⟩ := h
  unfold DivPre at hp
  rcases kinds C hs with h | h | h | h <;> rcases kinds C ho with k | k | k | k
  case inr.inl.inr.inr.inr | inr.inr.inl.inr.inr.inr =>
    rcases lt_trichotomy (I.unbox o) 0 with q | q | q <;>
      simp_all [Ext.div, Ext.quot, num, val_boxNan C, val_boxInf C, ne_of_lt, ne_of_gt, not_lt_of_gt]
  all_goals simp_all [Ext.div, Ext.quot, num, val_box C, val_boxNan C, val_boxInf C]

theorem neg_val (C : I.Core) {s res : Ref} (hs : I.F s) (h : I.NegPost s res) : I.val res = Ext.neg (I.val s) := by
  obtain ⟨-, a1, a2, a3, a4⟩ := h
  rcases kinds C hs with h | h | h | h <;> simp_all [Ext.neg, num, val_box C, val_boxNan C, val_boxInf C]

theorem bool_val (C : I.Core) {s : Ref} {res : Bool} (hs : I.F s) :
    I.BoolPost s res ↔ res = Ext.truth (I.val s) := by
  unfold BoolPost
  rcases kinds C hs with h | h | h | h <;> cases res <;> simp_all [Ext.truth, num]

theorem eq_val (C : I.Core) {s o : Ref} {res : Bool} (hs : I.F s) (ho : I.F o) :
    I.EqPost s o res ↔ res = Ext.eq (I.val s) (I.val o) := by
  unfold EqPost
  rcases kinds C hs with h | h | h | h <;> rcases kinds C ho with k | k | k | k <;> cases res <;>
    simp_all [Ext.eq, num]

/-- Infinity is compared with NaN, in the order in which the answers of the contracts differ. -/
def Clash (x y : Ext) : Prop := (x = .inf false ∧ y = .nan) ∨ (x = .nan ∧ y = .inf true)

instance (x y : Ext) : Decidable (Clash x y) := by unfold Clash; infer_instance

theorem ge_val (C : I.Core) {s o : Ref} {res : Bool} (hs : I.F s) (ho : I.F o) :
    I.GePost s o res ↔ ¬ Clash (I.val s) (I.val o) ∧ res = Ext.le (I.val o) (I.val s) := by
  unfold GePost Clash
  rcases kinds C hs with h | h | h | h <;> rcases kinds C ho with k | k | k | k <;> cases res <;>
    simp_all [Ext.le, Ext.lt, Ext.eq, num] <;> grind

theorem gt_val (C : I.Core) {s o : Ref} {res : Bool} (hs : I.F s) (ho : I.F o) :
    I.GtPost s o res ↔ ¬ Clash (I.val s) (I.val o) ∧ res = Ext.lt (I.val o) (I.val s) := by
  unfold GtPost Clash
  rcases kinds C hs with h | h | h | h <;> rcases kinds C ho with k | k | k | k <;> cases res <;>
    simp_all [Ext.le, Ext.lt, Ext.eq, num]

theorem le_val (C : I.Core) {s o : Ref} {res : Bool} (hs : I.F s) (ho : I.F o) :
    I.LePost s o res ↔ ¬ Clash (I.val o) (I.val s) ∧ res = Ext.le (I.val s) (I.val o) := by
  unfold LePost Clash
  rcases kinds C hs with h | h | h | h <;> rcases kinds C ho with k | k | k | k <;> cases res <;>
    simp_all [Ext.le, Ext.lt, Ext.eq, num] <;> grind

theorem lt_val (C : I.Core) {s o : Ref} {res : Bool} (hs : I.F s) (ho : I.F o) :
    I.LtPost s o res ↔ ¬ Clash (I.val o) (I.val s) ∧ res = Ext.lt (I.val s) (I.val o) := by
  unfold LtPost Clash
  rcases kinds C hs with h | h | h | h <;> rcases kinds C ho with k | k | k | k <;> cases res <;>
    simp_all [Ext.le, Ext.lt, Ext.eq, num]

end Real

/-! ### An interpretation -/

/-- References that are numbers. -/
inductive Std where
  | float (x : Ext)
  | int (n : Int)
  | bool (b : Bool)
  | other
deriving DecidableEq

/-- The number of a reference. -/
def Std.ext : Std → Ext
  | .float x => x
  | .int n => .fin n
  | .bool b => .fin (if b then 1 else 0)
  | .other => .fin 0

/-- The finite number of a reference. -/
def Std.rat (r : Std) : ℚ := match r.ext with
  | .fin q => q
  | _ => 0

def std : Real Std where
  typeof
    | .float _ => .float
    | .int _ => .int
    | .bool _ => .bool
    | .other => .other
  intUnbox
    | .int n => n
    | .bool b => if b then 1 else 0
    | _ => 0
  intBox := .int
  unbox := Std.rat
  box q := .float (.fin q)
  boxNan := .float .nan
  boxInf b := .float (.inf b)
  isNan r := r.ext = .nan
  isInf r b := r.ext = .inf b
  isNaN r := r.ext = .nan
  bool r := r.ext.truth
  ge s o := Ext.le o.ext s.ext
  gt s o := Ext.lt o.ext s.ext
  le s o := Ext.le s.ext o.ext
  lt s o := Ext.lt s.ext o.ext
  eq s o := Ext.eq s.ext o.ext
  add s o := .float (Ext.add s.ext o.ext)
  radd s o := .float (Ext.add o.ext s.ext)
  sub s o := .float (Ext.sub s.ext o.ext)
  rsub s o := .float (Ext.sub o.ext s.ext)
  mul s o := .float (Ext.mul s.ext o.ext)
  rmul s o := .float (Ext.mul o.ext s.ext)
  truediv s o := .float ((Ext.div s.ext o.ext).getD .nan)
  rtruediv s o := .float ((Ext.div o.ext s.ext).getD .nan)
  pos r := r
  neg r := .float (Ext.neg r.ext)
  int r := .int ⌊r.rat⌋

theorem std_F_float (x : Ext) : std.F (.float x) := rfl

theorem std_add (s o : Std) : std.AddPost s o (.float (Ext.add s.ext o.ext)) := by
  refine ⟨rfl, ?_⟩
  simp only [std, Real.num, Std.rat]
  cases s.ext <;> cases o.ext <;> simp [Ext.add] <;> grind

theorem std_radd (s o : Std) : std.RaddPost s o (.float (Ext.add o.ext s.ext)) := by
  refine ⟨rfl, ?_⟩
  simp only [std, Real.num, Std.rat]
  cases s.ext <;> cases o.ext <;> simp [Ext.add] <;> grind

theorem std_sub (s o : Std) : std.SubPost s o (.float (Ext.sub s.ext o.ext)) := by
  refine ⟨rfl, ?_⟩
  simp only [std, Real.num, Std.rat]
  cases s.ext <;> cases o.ext <;> simp [Ext.add, Ext.sub, Ext.neg] <;> grind

theorem std_mul (s o : Std) : std.MulPost s o (.float (Ext.mul s.ext o.ext)) := by
  refine ⟨rfl, ?_⟩
  simp only [std, Real.num, Std.rat]
  cases s.ext <;> cases o.ext <;> simp [Ext.mul, Ext.scale] <;> grind

theorem std_div (s o : Std) (h : std.DivPre o) : std.DivPost s o (.float ((Ext.div s.ext o.ext).getD .nan)) := by
  refine ⟨rfl, ?_⟩
  revert h
  simp only [Real.DivPre, std, Real.num, Std.rat]
  cases hs : s.ext <;> cases ho : o.ext <;> simp [Ext.div, Ext.quot] <;> grind

theorem std_neg (s : Std) : std.NegPost s (.float (Ext.neg s.ext)) := by
  refine ⟨rfl, ?_⟩
  simp only [std, Real.num, Std.rat]
  cases s.ext <;> simp [Ext.neg]

theorem std_core : std.Core where
  ints n := ⟨rfl, rfl⟩
  unbox r _ _ hi := by cases r <;> simp_all [std, Ty.isInt, Std.rat, Std.ext]
  box p := by simp [Real.BoxPost, std, Std.rat, Std.ext]
  boxNan := by simp [Real.BoxNanPost, std, Std.ext]
  boxInf b := by cases b <;> simp [Real.BoxInfPost, std, Std.ext]
  isNan r _ hi := by cases r <;> simp_all [std, Ty.isInt, Std.ext]
  isInf r b _ hi := by cases r <;> simp_all [std, Ty.isInt, Std.ext]
  isNaN r _ := rfl
  bool r _ := by
    simp only [Real.BoolPost, std, Real.num, Std.rat]
    cases r.ext <;> simp [Ext.truth]
  eq s o _ _ := by
    simp only [Real.EqPost, std, Real.num, Std.rat]
    cases s.ext <;> cases o.ext <;> simp [Ext.eq] <;> grind
  add s o _ _ := std_add s o
  radd s o _ _ := std_radd s o
  sub s o _ _ := std_sub s o
  rsub s o _ _ := std_sub o s
  mul s o _ _ := std_mul s o
  rmul s o _ _ := std_mul o s
  truediv s o _ _ h := std_div s o h
  rtruediv s o _ _ h := std_div o s h
  pos s _ := rfl
  neg s _ := std_neg s
  int s _ _ := ⟨rfl, rfl⟩

theorem std_val (r : Std) : std.val r = r.ext := by
  simp only [Real.val, std, Std.rat, decide_eq_true_eq]
  cases r.ext with
  | inf b => cases b <;> simp
  | _ => simp

/-! ### The 32 bit encoding -/

theorem Ieee.zero_eq : Ieee.zero = .zero false := by decide +kernel

theorem Fp.gt_ext (x y : Fp) : Fp.gt x y = Ext.lt y.ext x.ext := by
  cases x <;> cases y <;> simp [Fp.gt, Fp.ext, Ext.lt] <;> (try cases ‹Bool›) <;> simp

theorem Fp.eq_ext {x y : Fp} (hx : x ≠ .num 0) (hy : y ≠ .num 0) : Fp.eq x y = Ext.eq x.ext y.ext := by
  cases x <;> cases y <;> simp_all [Fp.eq, Fp.ext, Ext.eq] <;> grind

theorem Fp.geq_ext {x y : Fp} (hx : x ≠ .num 0) (hy : y ≠ .num 0) : Fp.geq x y = Ext.le y.ext x.ext := by
  unfold Fp.geq Ext.le
  rw [Fp.gt_ext, Fp.eq_ext hx hy]
  congr 1
  cases x <;> cases y <;> simp [Fp.ext, Ext.eq] <;> grind

/-- References of the 32 bit encoding. -/
inductive Std32 where
  | float (x : Fp)
  | int (n : Int)
  | bool (b : Bool)
  | null
deriving DecidableEq

def Std32.num : Std32 → Int
  | .int n => n
  | .bool b => if b then 1 else 0
  | _ => 0

def Std32.fp (A : Arith) : Std32 → Fp
  | .float x => x
  | r => A.ofReal (r.num / 1)

def std32 (A : Arith) : Ieee Std32 where
  typeof
    | .float _ => .float
    | .int _ => .int
    | .bool _ => .bool
    | .null => .other
  intUnbox := Std32.num
  intBox := .int
  null := .null
  create i := .float (Fp.ofBits (BitVec.ofInt 32 i))
  unbox := Std32.fp A
  box := .float
  isNaN r := r.fp A = .nan
  bool r := r ≠ .null ∧ r.fp A ≠ Ieee.zero
  ge s o := Fp.geq (s.fp A) (o.fp A)
  gt s o := Fp.gt (s.fp A) (o.fp A)
  le s o := Fp.geq (o.fp A) (s.fp A)
  lt s o := Fp.gt (o.fp A) (s.fp A)
  eq s o := Fp.eq (s.fp A) (o.fp A)
  add s o := .float (A.add (s.fp A) (o.fp A))
  radd s o := .float (A.add (o.fp A) (s.fp A))
  sub s o := .float (A.sub (s.fp A) (o.fp A))
  rsub s o := .float (A.sub (o.fp A) (s.fp A))
  mul s o := .float (A.mul (s.fp A) (o.fp A))
  rmul s o := .float (A.mul (o.fp A) (s.fp A))
  truediv s o := .float (A.div (s.fp A) (o.fp A))
  rtruediv s o := .float (A.div (o.fp A) (s.fp A))
  pos s := s
  neg s := .float (Fp.neg (s.fp A))
  int s := .int (Ieee.toInt A (s.fp A))

theorem std32_contracts (A : Arith) : (std32 A).Contracts A where
  ints n := ⟨rfl, rfl⟩
  null := rfl
  create i := rfl
  unbox r _ h := by cases r <;> simp_all [std32, Ty.isInt, Std32.fp, Std32.num]
  box p := ⟨rfl, rfl⟩
  boolNull := by simp [std32]
  bool r _ h := by simp_all [std32]
  isNaN r _ := by simp [std32]
  ge s o _ _ := rfl
  gt s o _ _ := rfl
  le s o _ _ := rfl
  lt s o _ _ := rfl
  eq s o _ _ := rfl
  add s o _ _ := ⟨rfl, rfl⟩
  radd s o _ _ := ⟨rfl, rfl⟩
  sub s o _ _ := ⟨rfl, rfl⟩
  rsub s o _ _ := ⟨rfl, rfl⟩
  mul s o _ _ := ⟨rfl, rfl⟩
  rmul s o _ _ := ⟨rfl, rfl⟩
  truediv s o _ _ _ := ⟨rfl, rfl⟩
  rtruediv s o _ _ _ := ⟨rfl, rfl⟩
  pos s h := ⟨h, rfl⟩
  neg s _ := ⟨rfl, rfl⟩
  int s _ := ⟨rfl, rfl⟩

end Nagini.Floats
