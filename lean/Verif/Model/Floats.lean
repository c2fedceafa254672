import Mathlib.Data.Rat.Floor
/-!
The interpreted encodings of floating point numbers: the contracts of resources/float_real.sil (exact numbers with NaN
and infinities) and resources/float_ieee32.sil (SMT-LIB's floating point numbers of 32 bits), and the translation of
literals (translators/expression.py:510-545, translators/call.py:149-159).

The functions are abstract in Viper; an interpretation gives every function a meaning, and a contract is a predicate on
interpretations.  Viper's `Perm` is read as the rational numbers.  Simplified: classes that inherit from `float`, `int`
or `bool` are left out.
-/
set_option linter.unusedVariables false
namespace Nagini.Floats

/-- Run-time types, as far as the contracts of the float functions distinguish them.  Models the constants of the type
domain with the `extends` entries of resources/builtins.json:372-480. -/
inductive Ty where
  | float | int | bool | other
deriving DecidableEq

/-- Whether a type is a subtype of `float`.  Models `issubtype(_, float())`, resources/bool.sil:13-17. -/
def Ty.isFloat : Ty → Bool
  | .other => false
  | _ => true

/-- Whether a type is a subtype of `int`.  Models `issubtype(_, int())`, resources/bool.sil:13-17. -/
def Ty.isInt : Ty → Bool
  | .int | .bool => true
  | _ => false

/-! ### The real encoding -/

/-- A meaning for every function of resources/float_real.sil:1-425, and for those functions on integers that it uses,
resources/bool.sil:298-308.  Functions that only swap their arguments are given by their own names. -/
structure Real (Ref : Type) where
  typeof : Ref → Ty
  intUnbox : Ref → Int
  intBox : Int → Ref
  unbox : Ref → ℚ
  box : ℚ → Ref
  boxNan : Ref
  boxInf : Bool → Ref
  isNan : Ref → Bool
  isInf : Ref → Bool → Bool
  isNaN : Ref → Bool
  bool : Ref → Bool
  ge : Ref → Ref → Bool
  gt : Ref → Ref → Bool
  le : Ref → Ref → Bool
  lt : Ref → Ref → Bool
  eq : Ref → Ref → Bool
  add : Ref → Ref → Ref
  radd : Ref → Ref → Ref
  sub : Ref → Ref → Ref
  rsub : Ref → Ref → Ref
  mul : Ref → Ref → Ref
  rmul : Ref → Ref → Ref
  truediv : Ref → Ref → Ref
  rtruediv : Ref → Ref → Ref
  pos : Ref → Ref
  neg : Ref → Ref
  int : Ref → Ref

namespace Real
variable {Ref : Type}

/-- The precondition `issubtype(typeof(r), float())` of all functions, e.g. resources/float_real.sil:7. -/
def F (I : Real Ref) (r : Ref) : Prop := (I.typeof r).isFloat = true

/-- The condition that an argument is neither NaN nor infinite, written out in the contracts, e.g.
resources/float_real.sil:53. -/
def num (I : Real Ref) (r : Ref) : Prop := I.isNan r = false ∧ I.isInf r false = false ∧ I.isInf r true = false

/-- Boxed integers, resources/bool.sil:298-308. -/
def IntPost (I : Real Ref) : Prop :=
  ∀ n, I.typeof (I.intBox n) = .int ∧ I.intUnbox (I.intBox n) = n

/-- Models the postcondition of `float___unbox__`, resources/float_real.sil:5-11. -/
def UnboxPost (I : Real Ref) (r : Ref) (v : ℚ) : Prop :=
  (I.typeof r).isInt = true → v = (I.intUnbox r : ℚ) / 1

/-- Models the postcondition of `__prim__perm___box__`, resources/float_real.sil:13-19. -/
def BoxPost (I : Real Ref) (p : ℚ) (r : Ref) : Prop :=
  I.typeof r = .float ∧ I.isNan r = false ∧ I.isInf r false = false ∧ I.isInf r true = false ∧ I.unbox r = p

/-- Models the postcondition of `float___box_nan`, resources/float_real.sil:21-26. -/
def BoxNanPost (I : Real Ref) (r : Ref) : Prop :=
  I.typeof r = .float ∧ I.isNan r = true ∧ I.isInf r false = false ∧ I.isInf r true = false

/-- Models the postcondition of `float___box_inf`, resources/float_real.sil:28-33. -/
def BoxInfPost (I : Real Ref) (negative : Bool) (r : Ref) : Prop :=
  I.typeof r = .float ∧ I.isNan r = false ∧ I.isInf r false = !negative ∧ I.isInf r true = negative

/-- Models the postconditions of `float___is_nan__` and `float___is_inf__`, resources/float_real.sil:35-43. -/
def FlagPost (I : Real Ref) (r : Ref) (flag : Bool) : Prop := (I.typeof r).isInt = true → flag = false

/-- Models the postcondition of `float___bool__`, resources/float_real.sil:50-56. -/
def BoolPost (I : Real Ref) (s : Ref) (res : Bool) : Prop :=
  (I.num s → (res = true ↔ I.unbox s ≠ 0 / 1)) ∧
  (I.isNan s = true ∨ I.isInf s false = true ∨ I.isInf s true = true → res = true)

/-- Models the postcondition of `float___ge__`, resources/float_real.sil:62-71. -/
def GePost (I : Real Ref) (s o : Ref) (res : Bool) : Prop :=
  (I.isNan s = true ∨ I.isNan o = true → res = false) ∧
  (I.isInf s false = true → res = true) ∧
  (I.isInf s true = true → res = I.isInf o true) ∧
  (I.isInf o false = true → res = I.isInf s false) ∧
  (I.isInf o true = true → res = true) ∧
  (I.num s → I.num o → (res = true ↔ I.unbox s ≥ I.unbox o))

/-- Models the postcondition of `float___gt__`, resources/float_real.sil:77-86. -/
def GtPost (I : Real Ref) (s o : Ref) (res : Bool) : Prop :=
  (I.isNan s = true ∨ I.isNan o = true → res = false) ∧
  (I.isInf s false = true → res = !I.isInf o false) ∧
  (I.isInf s true = true → res = false) ∧
  (I.isInf o false = true → res = false) ∧
  (I.isInf o true = true → res = !I.isInf s true) ∧
  (I.num s → I.num o → (res = true ↔ I.unbox s > I.unbox o))

/-- Models the postcondition of `float___le__`, resources/float_real.sil:92-101. -/
def LePost (I : Real Ref) (s o : Ref) (res : Bool) : Prop :=
  (I.isNan s = true ∨ I.isNan o = true → res = false) ∧
  (I.isInf s false = true → res = I.isInf o false) ∧
  (I.isInf s true = true → res = true) ∧
  (I.isInf o false = true → res = true) ∧
  (I.isInf o true = true → res = I.isInf s true) ∧
  (I.num s → I.num o → (res = true ↔ I.unbox s ≤ I.unbox o))

/-- Models the postcondition of `float___lt__`, resources/float_real.sil:107-116. -/
def LtPost (I : Real Ref) (s o : Ref) (res : Bool) : Prop :=
  (I.isNan s = true ∨ I.isNan o = true → res = false) ∧
  (I.isInf s false = true → res = false) ∧
  (I.isInf s true = true → res = !I.isInf o true) ∧
  (I.isInf o false = true → res = !I.isInf s false) ∧
  (I.isInf o true = true → res = false) ∧
  (I.num s → I.num o → (res = true ↔ I.unbox s < I.unbox o))

/-- Models the postcondition of `float___eq__`, resources/float_real.sil:122-135. -/
def EqPost (I : Real Ref) (s o : Ref) (res : Bool) : Prop :=
  (I.isNan s = true ∨ I.isNan o = true → res = false) ∧
  ((I.isInf s false = true ∧ I.isInf o false = true) ∨ (I.isInf s true = true ∧ I.isInf o true = true) →
    res = true) ∧
  ((I.isInf s false = true ∧ I.isInf o false = false) ∨ (I.isInf s true = true ∧ I.isInf o true = false) ∨
    (I.isInf o false = true ∧ I.isInf s false = false) ∨ (I.isInf o true = true ∧ I.isInf s true = false) →
    res = false) ∧
  (I.num s → I.num o → (res = true ↔ I.unbox s = I.unbox o))

/-- Models the postcondition of `float___add__`, resources/float_real.sil:141-156. -/
def AddPost (I : Real Ref) (s o res : Ref) : Prop :=
  I.F res ∧
  (I.isNan s = true ∨ I.isNan o = true → res = I.boxNan) ∧
  ((I.isInf s false = true ∧ I.isInf o true = true) ∨ (I.isInf s true = true ∧ I.isInf o false = true) →
    res = I.boxNan) ∧
  ((I.isInf s false = true ∧ I.isInf o true = false ∧ I.isNan o = false) ∨
    (I.isInf o false = true ∧ I.isInf s true = false ∧ I.isNan s = false) → res = I.boxInf false) ∧
  ((I.isInf s true = true ∧ I.isInf o false = false ∧ I.isNan o = false) ∨
    (I.isInf o true = true ∧ I.isInf s false = false ∧ I.isNan s = false) → res = I.boxInf true) ∧
  (I.num s → I.num o → res = I.box (I.unbox s + I.unbox o))

/-- Models the postcondition of `float___radd__`, resources/float_real.sil:162-177. -/
def RaddPost (I : Real Ref) (s o res : Ref) : Prop :=
  I.F res ∧
  (I.isNan s = true ∨ I.isNan o = true → res = I.boxNan) ∧
  ((I.isInf s false = true ∧ I.isInf o true = true) ∨ (I.isInf s true = true ∧ I.isInf o false = true) →
    res = I.boxNan) ∧
  ((I.isInf s false = true ∧ I.isInf o true = false ∧ I.isNan o = false) ∨
    (I.isInf o false = true ∧ I.isInf s true = false ∧ I.isNan s = false) → res = I.boxInf false) ∧
  ((I.isInf s true = true ∧ I.isInf o false = false ∧ I.isNan o = false) ∨
    (I.isInf o true = true ∧ I.isInf s false = false ∧ I.isNan s = false) → res = I.boxInf true) ∧
  (I.num s → I.num o → res = I.box (I.unbox o + I.unbox s))

/-- Models the postcondition of `float___sub__`, resources/float_real.sil:183-198; `float___rsub__`,
resources/float_real.sil:204-219, has the same one with the two arguments exchanged. -/
def SubPost (I : Real Ref) (s o res : Ref) : Prop :=
  I.F res ∧
  (I.isNan s = true ∨ I.isNan o = true → res = I.boxNan) ∧
  ((I.isInf s false = true ∧ I.isInf o false = true) ∨ (I.isInf s true = true ∧ I.isInf o true = true) →
    res = I.boxNan) ∧
  ((I.isInf s false = true ∧ I.isInf o false = false ∧ I.isNan o = false) ∨
    (I.isInf s false = false ∧ I.isInf s true = false ∧ I.isNan s = false ∧ I.isInf o true = true) →
    res = I.boxInf false) ∧
  ((I.isInf s true = true ∧ I.isInf o true = false ∧ I.isNan o = false) ∨
    (I.isInf s false = false ∧ I.isInf s true = false ∧ I.isNan s = false ∧ I.isInf o false = true) →
    res = I.boxInf true) ∧
  (I.num s → I.num o → res = I.box (I.unbox s - I.unbox o))

/-- Models the postcondition of `float___mul__`, resources/float_real.sil:225-273; `float___rmul__`,
resources/float_real.sil:279-327, has the same one with the two arguments exchanged. -/
def MulPost (I : Real Ref) (s o res : Ref) : Prop :=
  I.F res ∧
  (I.isNan s = true ∨ I.isNan o = true → res = I.boxNan) ∧
  (I.num s → I.unbox s = 0 / 1 → I.isInf o false = true ∨ I.isInf o true = true → res = I.boxNan) ∧
  (I.num o → I.unbox o = 0 / 1 → I.isInf s false = true ∨ I.isInf s true = true → res = I.boxNan) ∧
  ((I.isInf s false = true ∧ I.isInf o false = true) ∨ (I.isInf s true = true ∧ I.isInf o true = true) →
    res = I.boxInf false) ∧
  (I.num s → (I.unbox s > 0 / 1 ∧ I.isInf o false = true) ∨ (I.unbox s < 0 / 1 ∧ I.isInf o true = true) →
    res = I.boxInf false) ∧
  (I.num o → (I.isInf s false = true ∧ I.unbox o > 0 / 1) ∨ (I.isInf s true = true ∧ I.unbox o < 0 / 1) →
    res = I.boxInf false) ∧
  ((I.isInf s false = true ∧ I.isInf o true = true) ∨ (I.isInf s true = true ∧ I.isInf o false = true) →
    res = I.boxInf true) ∧
  (I.num s → (I.unbox s > 0 / 1 ∧ I.isInf o true = true) ∨ (I.unbox s < 0 / 1 ∧ I.isInf o false = true) →
    res = I.boxInf true) ∧
  (I.num o → (I.unbox o > 0 / 1 ∧ I.isInf s true = true) ∨ (I.unbox o < 0 / 1 ∧ I.isInf s false = true) →
    res = I.boxInf true) ∧
  (I.num s → I.num o → res = I.box (I.unbox s * I.unbox o))

/-- Models the precondition about the divisor of `float___truediv__` and `float___rtruediv__`,
resources/float_real.sil:333-334 and resources/float_real.sil:369-370. -/
def DivPre (I : Real Ref) (o : Ref) : Prop := I.num o → I.unbox o ≠ 0 / 1

/-- Models the postcondition of `float___truediv__`, resources/float_real.sil:335-363; `float___rtruediv__`,
resources/float_real.sil:371-399, has the same one with the two arguments exchanged. -/
def DivPost (I : Real Ref) (s o res : Ref) : Prop :=
  I.F res ∧
  (I.isNan s = true ∨ I.isNan o = true → res = I.boxNan) ∧
  ((I.isInf s false = true ∧ I.isInf o false = true) ∨ (I.isInf s false = true ∧ I.isInf o true = true) ∨
    (I.isInf s true = true ∧ I.isInf o false = true) ∨ (I.isInf s true = true ∧ I.isInf o true = true) →
    res = I.boxNan) ∧
  (I.isInf o false = true ∨ I.isInf o true = true → I.num s → res = I.box (0 / 1)) ∧
  (I.num o → (I.unbox o > 0 / 1 ∧ I.isInf s false = true) ∨ (I.unbox o < 0 / 1 ∧ I.isInf s true = true) →
    res = I.boxInf false) ∧
  (I.num o → (I.unbox o > 0 / 1 ∧ I.isInf s true = true) ∨ (I.unbox o < 0 / 1 ∧ I.isInf s false = true) →
    res = I.boxInf true) ∧
  (I.num s → I.num o → res = I.box (I.unbox s / I.unbox o))

/-- Models the postcondition of `float___neg__`, resources/float_real.sil:409-413. -/
def NegPost (I : Real Ref) (s res : Ref) : Prop :=
  I.F res ∧
  (I.num s → res = I.box (-I.unbox s)) ∧
  (I.isNan s = true → res = I.boxNan) ∧
  (I.isInf s false = true → res = I.boxInf true) ∧
  (I.isInf s true = true → res = I.boxInf false)

/-- Models the precondition of `float___int__`, resources/float_real.sil:418-419. -/
def IntPre (I : Real Ref) (s : Ref) : Prop := I.num s

/-- Models the postcondition of `float___int__`, resources/float_real.sil:420-421; SMT-LIB's `to_int` is the floor
function. -/
def IntResPost (I : Real Ref) (s res : Ref) : Prop :=
  I.typeof res = .int ∧ res = I.intBox ⌊I.unbox s⌋

/-- The contracts of all functions of the real encoding except for the four that compare numbers by size; every
postcondition is assumed for the arguments that meet the precondition.  Models resources/float_real.sil:5-56 and
resources/float_real.sil:118-421. -/
structure Core (I : Real Ref) : Prop where
  ints : I.IntPost
  unbox : ∀ r, I.F r → I.num r → I.UnboxPost r (I.unbox r)
  box : ∀ p, I.BoxPost p (I.box p)
  boxNan : I.BoxNanPost I.boxNan
  boxInf : ∀ b, I.BoxInfPost b (I.boxInf b)
  isNan : ∀ r, I.F r → I.FlagPost r (I.isNan r)
  isInf : ∀ r b, I.F r → I.FlagPost r (I.isInf r b)
  isNaN : ∀ r, I.F r → I.isNaN r = I.isNan r
  bool : ∀ r, I.F r → I.BoolPost r (I.bool r)
  eq : ∀ s o, I.F s → I.F o → I.EqPost s o (I.eq s o)
  add : ∀ s o, I.F s → I.F o → I.AddPost s o (I.add s o)
  radd : ∀ s o, I.F s → I.F o → I.RaddPost s o (I.radd s o)
  sub : ∀ s o, I.F s → I.F o → I.SubPost s o (I.sub s o)
  rsub : ∀ s o, I.F s → I.F o → I.SubPost o s (I.rsub s o)
  mul : ∀ s o, I.F s → I.F o → I.MulPost s o (I.mul s o)
  rmul : ∀ s o, I.F s → I.F o → I.MulPost o s (I.rmul s o)
  truediv : ∀ s o, I.F s → I.F o → I.DivPre o → I.DivPost s o (I.truediv s o)
  rtruediv : ∀ s o, I.F s → I.F o → I.DivPre s → I.DivPost o s (I.rtruediv s o)
  pos : ∀ s, I.F s → I.pos s = s
  neg : ∀ s, I.F s → I.NegPost s (I.neg s)
  int : ∀ s, I.F s → I.IntPre s → I.IntResPost s (I.int s)

/-- The contracts of the functions that compare numbers by size, for the pairs of arguments in `ok`.  Models
resources/float_real.sil:58-116. -/
structure Compare (I : Real Ref) (ok : Ref → Ref → Prop) : Prop where
  ge : ∀ s o, I.F s → I.F o → ok s o → I.GePost s o (I.ge s o)
  gt : ∀ s o, I.F s → I.F o → ok s o → I.GtPost s o (I.gt s o)
  le : ∀ s o, I.F s → I.F o → ok s o → I.LePost s o (I.le s o)
  lt : ∀ s o, I.F s → I.F o → ok s o → I.LtPost s o (I.lt s o)

/-- The contracts of all functions of the encoding.  Models resources/float_real.sil:1-425. -/
def Contracts (I : Real Ref) : Prop := I.Core ∧ I.Compare fun _ _ => True

end Real

/-- The values of float literals and of constant strings given to `float`: a number is the quotient returned by
`as_integer_ratio`.  Models the values used in translators/expression.py:515-526 and translators/call.py:149-155. -/
inductive Lit where
  | nan
  | inf (negative : Bool)
  | ratio (n : Int) (d : Nat)

/-- Models `translate_float_literal` in the real encoding, translators/expression.py:515-530. -/
def Real.literal {Ref : Type} (I : Real Ref) : Lit → Ref
  | .nan => I.boxNan
  | .inf false => I.boxInf false
  | .inf true => I.boxInf true
  | .ratio n d => I.box (n / d)

/-! ### The 32 bit encoding -/

/-- SMT-LIB's floating point numbers, as far as comparisons, zeroes and conversions to real numbers need them; numbers
other than zero are given by their value.  Models the sort in resources/float_ieee32.sil:136. -/
inductive Fp where
  | nan
  | inf (negative : Bool)
  | zero (negative : Bool)
  | num (q : ℚ)
deriving DecidableEq

/-- The value of a number that is not NaN and not infinite.  SMT-LIB's `fp.to_real`, resources/float_ieee32.sil:150;
`other` gives the values that SMT-LIB leaves open. -/
def Fp.toReal (other : Fp → ℚ) : Fp → ℚ
  | .nan => other .nan
  | .inf b => other (.inf b)
  | .zero _ => 0
  | .num q => q

/-- SMT-LIB's `fp.eq`, resources/float_ieee32.sil:139. -/
def Fp.eq : Fp → Fp → Bool
  | .inf a, .inf b => a == b
  | .zero _, .zero _ => true
  | .num p, .num q => p = q
  | _, _ => false

/-- SMT-LIB's `fp.gt`, resources/float_ieee32.sil:146. -/
def Fp.gt : Fp → Fp → Bool
  | .nan, _ | _, .nan => false
  | .inf a, .inf b => !a && b
  | .inf a, _ => !a
  | _, .inf b => b
  | .zero _, .zero _ => false
  | .zero _, .num q => q < 0
  | .num p, .zero _ => 0 < p
  | .num p, .num q => q < p

/-- SMT-LIB's `fp.geq`, resources/float_ieee32.sil:147. -/
def Fp.geq (x y : Fp) : Bool := Fp.gt x y || Fp.eq x y

/-- SMT-LIB's `fp.neg`, resources/float_ieee32.sil:145. -/
def Fp.neg : Fp → Fp
  | .nan => .nan
  | .inf b => .inf !b
  | .zero b => .zero !b
  | .num q => .num (-q)

/-- The number with a given bit pattern: a sign, an exponent of 8 bits and a fraction of 23 bits.  SMT-LIB's `to_fp`
for bit vectors, resources/float_ieee32.sil:137. -/
def Fp.ofBits (b : BitVec 32) : Fp :=
  let n := b.toNat
  let negative := decide (2 ^ 31 ≤ n)
  let e : Nat := n / 2 ^ 23 % 2 ^ 8
  let m : Nat := n % 2 ^ 23
  let sign : ℚ := if negative then -1 else 1
  if e = 255 then if m = 0 then .inf negative else .nan
  else if e = 0 then if m = 0 then .zero negative else .num (sign * m / 2 ^ 149)
  else .num (sign * (2 ^ 23 + m) * 2 ^ e / 2 ^ 150)

/-- What SMT-LIB's operations with rounding compute, which is not modelled: arithmetic, numbers from
real numbers, and the values of `fp.to_real` that SMT-LIB leaves open.  Models resources/float_ieee32.sil:136-153. -/
structure Arith where
  add : Fp → Fp → Fp
  sub : Fp → Fp → Fp
  mul : Fp → Fp → Fp
  div : Fp → Fp → Fp
  ofReal : ℚ → Fp
  other : Fp → ℚ

/-- A meaning for every function of resources/float_ieee32.sil:1-130, and for those functions on integers that it
uses, resources/bool.sil:298-308. -/
structure Ieee (Ref : Type) where
  typeof : Ref → Ty
  intUnbox : Ref → Int
  intBox : Int → Ref
  null : Ref
  create : Int → Ref
  unbox : Ref → Fp
  box : Fp → Ref
  isNaN : Ref → Bool
  bool : Ref → Bool
  ge : Ref → Ref → Bool
  gt : Ref → Ref → Bool
  le : Ref → Ref → Bool
  lt : Ref → Ref → Bool
  eq : Ref → Ref → Bool
  add : Ref → Ref → Ref
  radd : Ref → Ref → Ref
  sub : Ref → Ref → Ref
  rsub : Ref → Ref → Ref
  mul : Ref → Ref → Ref
  rmul : Ref → Ref → Ref
  truediv : Ref → Ref → Ref
  rtruediv : Ref → Ref → Ref
  pos : Ref → Ref
  neg : Ref → Ref
  int : Ref → Ref

namespace Ieee
variable {Ref : Type}

/-- The precondition `issubtype(typeof(r), float())` of all functions, e.g. resources/float_ieee32.sil:7. -/
def F (I : Ieee Ref) (r : Ref) : Prop := (I.typeof r).isFloat = true

/-- Models `___float32_zero`, resources/float_ieee32.sil:155-159. -/
def zero : Fp := Fp.ofBits (BitVec.ofInt 32 0)

/-- Models `___float32_to_int`, resources/float_ieee32.sil:161-165; SMT-LIB's `to_int` is the floor function. -/
def toInt (A : Arith) (f : Fp) : Int := ⌊f.toReal A.other⌋

/-- Models the precondition about the divisor of `float___truediv__` and `float___rtruediv__`,
resources/float_ieee32.sil:102 and resources/float_ieee32.sil:122; `!=` is SMT-LIB's inequality of values. -/
def DivPre (I : Ieee Ref) (o : Ref) : Prop := I.unbox o ≠ zero

/-- The contracts of the functions of the encoding.  Models resources/float_ieee32.sil:1-130. -/
structure Contracts (I : Ieee Ref) (A : Arith) : Prop where
  ints : ∀ n, I.typeof (I.intBox n) = .int ∧ I.intUnbox (I.intBox n) = n
  null : I.typeof I.null = .other
  create : ∀ i, I.create i = I.box (Fp.ofBits (BitVec.ofInt 32 i))
  unbox : ∀ r, I.F r → (I.typeof r).isInt = true → I.unbox r = A.ofReal ((I.intUnbox r : ℚ) / 1)
  box : ∀ p, I.typeof (I.box p) = .float ∧ I.unbox (I.box p) = p
  boolNull : I.bool I.null = false
  bool : ∀ r, I.F r → r ≠ I.null → (I.bool r = true ↔ I.unbox r ≠ zero)
  isNaN : ∀ r, I.F r → (I.isNaN r = true ↔ I.unbox r = .nan)
  ge : ∀ s o, I.F s → I.F o → I.ge s o = Fp.geq (I.unbox s) (I.unbox o)
  gt : ∀ s o, I.F s → I.F o → I.gt s o = Fp.gt (I.unbox s) (I.unbox o)
  le : ∀ s o, I.F s → I.F o → I.le s o = Fp.geq (I.unbox o) (I.unbox s)
  lt : ∀ s o, I.F s → I.F o → I.lt s o = Fp.gt (I.unbox o) (I.unbox s)
  eq : ∀ s o, I.F s → I.F o → I.eq s o = Fp.eq (I.unbox s) (I.unbox o)
  add : ∀ s o, I.F s → I.F o → I.F (I.add s o) ∧ I.add s o = I.box (A.add (I.unbox s) (I.unbox o))
  radd : ∀ s o, I.F s → I.F o → I.F (I.radd s o) ∧ I.radd s o = I.box (A.add (I.unbox o) (I.unbox s))
  sub : ∀ s o, I.F s → I.F o → I.F (I.sub s o) ∧ I.sub s o = I.box (A.sub (I.unbox s) (I.unbox o))
  rsub : ∀ s o, I.F s → I.F o → I.F (I.rsub s o) ∧ I.rsub s o = I.box (A.sub (I.unbox o) (I.unbox s))
  mul : ∀ s o, I.F s → I.F o → I.F (I.mul s o) ∧ I.mul s o = I.box (A.mul (I.unbox s) (I.unbox o))
  rmul : ∀ s o, I.F s → I.F o → I.F (I.rmul s o) ∧ I.rmul s o = I.box (A.mul (I.unbox o) (I.unbox s))
  truediv : ∀ s o, I.F s → I.F o → I.DivPre o →
    I.F (I.truediv s o) ∧ I.truediv s o = I.box (A.div (I.unbox s) (I.unbox o))
  pos : ∀ s, I.F s → I.F (I.pos s) ∧ I.pos s = s
  neg : ∀ s, I.F s → I.F (I.neg s) ∧ I.neg s = I.box (Fp.neg (I.unbox s))
  rtruediv : ∀ s o, I.F s → I.F o → I.DivPre s →
    I.F (I.rtruediv s o) ∧ I.rtruediv s o = I.box (A.div (I.unbox o) (I.unbox s))
  int : ∀ s, I.F s → I.typeof (I.int s) = .int ∧ I.int s = I.intBox (toInt A (I.unbox s))

/-- Models `translate_float_literal` in the 32 bit encoding, translators/expression.py:531-538; the argument is the
number that `struct.pack` and `int.from_bytes` return. -/
def literal (I : Ieee Ref) (bits : Nat) : Ref := I.create bits

end Ieee
end Nagini.Floats
