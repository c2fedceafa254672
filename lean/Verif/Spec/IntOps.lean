import Mathlib.Data.Int.Init

/-!
Python's integer operators, specified without reference to nagini.
-/
namespace Nagini.IntOps

/-- `q`, `r` are Python's `a // b` and `a % b`: `a = q * b + r` where the remainder
has the sign of the divisor and is smaller in absolute value. -/
def IsPyDivMod (a b q r : Int) : Prop :=
  a = q * b + r ∧ (0 < b → 0 ≤ r ∧ r < b) ∧ (b < 0 → b < r ∧ r ≤ 0)

/-- Bit `k` of a Python integer in (infinite) two's complement: the floor of
`a / 2^k` is odd. -/
def pyBit (a : Int) (k : Nat) : Bool := (a / 2 ^ k) % 2 == 1

/-- `c` is the bitwise combination of `a` and `b`. -/
def IsBitwise (op : Bool → Bool → Bool) (a b c : Int) : Prop :=
  ∀ k, pyBit c k = op (pyBit a k) (pyBit b k)

/-- `a << s` for `s ≥ 0`. -/
def pyShl (a : Int) (s : Nat) : Int := a * 2 ^ s

/-- `c` is `a >> s` for `s ≥ 0`: the floor of `a / 2^s`. -/
def IsPyShr (a : Int) (s : Nat) (c : Int) : Prop := c * 2 ^ s ≤ a ∧ a < (c + 1) * 2 ^ s

/-- `l` is `a.bit_length()`: the least number of bits holding `|a|`. -/
def IsBitLength (a : Int) (l : Nat) : Prop :=
  a.natAbs < 2 ^ l ∧ ∀ m, a.natAbs < 2 ^ m → l ≤ m

end Nagini.IntOps
