import Verif.Spec.IntOps

/-!
Model of the integer operations defined in resources/bool.sil and
resources/intbv.sil.

Trusted meaning of the target operators: Viper's `\` and `%` on Int (and `/` where
the result is an Int) are SMT-LIB `div`/`mod`, i.e. `Int.ediv`/`Int.emod`; the
interpreted domain of intbv.sil is `BitVec n` with `int2bv n` = reduction mod `2^n`
and `bv2int` = the unsigned value.
-/
namespace Nagini.IntOps

/-- `int___floordiv__`.  Models resources/bool.sil:424-429 (requires `other != 0`). -/
def floordiv (self other : Int) : Int := self / other

/-- `int___mod__`.  Models resources/bool.sil:437-442 (requires `other != 0`). -/
def mod (self other : Int) : Int := self % other

/-- `int___pow__`.  Models resources/bool.sil:397-405; the exponent is required to
be non-negative. -/
def pow (self : Int) : Nat → Int
  | 0 => 1
  | 1 => self
  | 2 => self * self
  | (n + 3) => self * pow self (n + 2)

/-- `_INT_MAX` as computed by main.py:81 and substituted into resources/intbv.sil:11. -/
def intMax (n : Nat) : Int := 2 ^ n - 1

/-- `_INT_MIN` as computed by main.py:80 and substituted into resources/intbv.sil:12. -/
def intMin (n : Nat) : Int := - 2 ^ n

/-- The range requirement of the bitwise operators on one operand.
Models resources/bool.sil:45-48 (and 72-75, 99-102). -/
def inRange (n : Nat) (a : Int) : Prop := intMin n ≤ a ∧ a ≤ intMax n

/-- `toBVInt`.  Models resources/intbv.sil:15. -/
def toBV (n : Nat) (i : Int) : BitVec n := BitVec.ofInt n i

/-- `fromBVInt`.  Models resources/intbv.sil:16. -/
def fromBV {n : Nat} (b : BitVec n) : Int := (b.toNat : Int)

/-- The integer case of `int___and__`.  Models resources/bool.sil:41-54. -/
def bitAnd (n : Nat) (a b : Int) : Int := fromBV (toBV n a &&& toBV n b)

/-- The integer case of `int___or__`.  Models resources/bool.sil:68-81. -/
def bitOr (n : Nat) (a b : Int) : Int := fromBV (toBV n a ||| toBV n b)

/-- The integer case of `int___xor__`.  Models resources/bool.sil:95-108. -/
def bitXor (n : Nat) (a b : Int) : Int := fromBV (toBV n a ^^^ toBV n b)

/-- `__shift_factor8`.  Models resources/bool.sil:122-135. -/
def shiftFactor8 (amount : Int) : Int :=
  if amount = 0 then 1 else if amount = 1 then 2 else if amount = 2 then 4 else if amount = 3 then 8
  else if amount = 4 then 16 else if amount = 5 then 32 else if amount = 6 then 64
  else if amount = 7 then 128 else 256

/-- `__shift_factor32`.  Models resources/bool.sil:137-145. -/
def shiftFactor32 (amount : Int) : Int :=
  if amount ≤ 8 then shiftFactor8 amount
  else if amount ≤ 16 then shiftFactor8 (amount - 8) * 256
  else if amount ≤ 24 then shiftFactor8 (amount - 16) * 256 * 256
  else shiftFactor8 (amount - 24) * 256 * 256 * 256

/-- `__shift_factor64`.  Models resources/bool.sil:147-153. -/
def shiftFactor64 (amount : Int) : Int :=
  if amount ≤ 32 then shiftFactor32 amount else shiftFactor32 (amount - 32) * shiftFactor32 32

/-- `__prim__int___lshift__`.  Models resources/bool.sil:155-165. -/
def lshift (n : Nat) (self other : Int) : Int :=
  if 0 ≤ other ∧ other ≤ 64 then self * shiftFactor64 other
  else if self ≥ 0 then fromBV (toBV n self <<< toBV n other)
  else - fromBV (toBV n (-self) <<< toBV n other)

/-- `__prim__int___rshift__`.  Models resources/bool.sil:202-213. -/
def rshift (n : Nat) (self other : Int) : Int :=
  if 0 ≤ other ∧ other ≤ 64 then self / shiftFactor64 other
  else if self ≥ 0 then fromBV (toBV n self >>> toBV n other)
  else - fromBV (toBV n (-self) >>> toBV n other)

/-- Preconditions of the shift functions.  Models resources/bool.sil:157-160 and
204-207. -/
def shiftPre (n : Nat) (self other : Int) : Prop :=
  (other ≤ 64 ∨ self ≥ intMin n) ∧ (other ≤ 64 ∨ self ≤ intMax n) ∧ other ≥ 0 ∧ other ≤ intMax n

/-- `__int_bit_length8`.  Models resources/bool.sil:256-269. -/
def bitLength8 (v : Int) : Int :=
  if v < 1 then 0 else if v < 2 then 1 else if v < 4 then 2 else if v < 8 then 3
  else if v < 16 then 4 else if v < 32 then 5 else if v < 64 then 6 else if v < 128 then 7 else 8

/-- `__int_bit_length32`.  Models resources/bool.sil:271-279. -/
def bitLength32 (v : Int) : Int :=
  if v < shiftFactor32 8 then bitLength8 v
  else if v < shiftFactor32 16 then bitLength8 (v / shiftFactor32 8) + 8
  else if v < shiftFactor32 24 then bitLength8 (v / shiftFactor32 16) + 16
  else bitLength8 (v / shiftFactor32 24) + 24

/-- `__int_bit_length64`.  Models resources/bool.sil:281-287. -/
def bitLength64 (v : Int) : Int :=
  if v < shiftFactor32 32 then bitLength32 v else bitLength32 (v / shiftFactor32 32) + 32

/-- `int_bit_length`.  Models resources/bool.sil:289-296 (with `abs`, 516-518). -/
def bitLength (self : Int) : Int := bitLength64 (if self ≥ 0 then self else -self)

/-- `int___invert__`.  Models resources/bool.sil:454-457. -/
def invert (self : Int) : Int := -(1 + self)

/-- Python type of a number as recorded by `typeof`.  Models the two type constants
used in resources/bool.sil:434-435. -/
inductive NumTy | int | float
  deriving DecidableEq

/-- Postcondition of `int___truediv__`: which types the result may have.  Models
resources/bool.sil:431-435 (requires `other != 0`; the value of a float result is not
specified there). -/
def truedivTy (self other : Int) (ty : NumTy) : Prop :=
  (self % other = 0 → ty = .int) ∧ (self % other ≠ 0 → ty = .float)

end Nagini.IntOps
