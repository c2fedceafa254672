import Mathlib.Data.Rat.Floor
/-!
What operations on floating point numbers mean: numbers without rounding, together with NaN and the two infinities, and
Python's rules for conditions, division and conversions to integers.  Written without reference to the encodings.
-/
namespace Nagini.Floats

/-- Numbers, NaN and infinities (positive: `false`, negative: `true`). -/
inductive Ext where
  | nan
  | inf (negative : Bool)
  | fin (q : ℚ)
deriving DecidableEq

namespace Ext

def add : Ext → Ext → Ext
  | nan, _ | _, nan => nan
  | inf a, inf b => if a = b then inf a else nan
  | inf a, fin _ => inf a
  | fin _, inf b => inf b
  | fin p, fin q => fin (p + q)

def neg : Ext → Ext
  | nan => nan
  | inf a => inf !a
  | fin q => fin (-q)

def sub (x y : Ext) : Ext := add x (neg y)

/-- Infinity with the sign of the product of an infinity and a number. -/
def scale (a : Bool) (q : ℚ) : Ext := if q = 0 then nan else inf (xor a (q < 0))

def mul : Ext → Ext → Ext
  | nan, _ | _, nan => nan
  | inf a, inf b => inf (xor a b)
  | inf a, fin q => scale a q
  | fin p, inf b => scale b p
  | fin p, fin q => fin (p * q)

/-- The quotient, for divisors other than zero. -/
def quot : Ext → Ext → Ext
  | nan, _ | _, nan => nan
  | inf _, inf _ => nan
  | inf a, fin q => inf (xor a (q < 0))
  | fin _, inf _ => fin 0
  | fin p, fin q => fin (p / q)

/-- Division; `none`: an exception is raised. -/
def div (x y : Ext) : Option Ext := if y = fin 0 then none else some (quot x y)

/-- Is the first number less than the second one? -/
def lt : Ext → Ext → Bool
  | nan, _ | _, nan => false
  | inf a, inf b => a && !b
  | inf a, fin _ => a
  | fin _, inf b => !b
  | fin p, fin q => p < q

def eq : Ext → Ext → Bool
  | inf a, inf b => a = b
  | fin p, fin q => p = q
  | _, _ => false

def le (x y : Ext) : Bool := lt x y || eq x y

/-- The value of a condition. -/
def truth : Ext → Bool
  | fin q => q ≠ 0
  | _ => true

/-- `int(x)`: the fraction is cut off; `none`: an exception is raised. -/
def toInt : Ext → Option Int
  | fin q => some (if 0 ≤ q then ⌊q⌋ else ⌈q⌉)
  | _ => none

end Ext
end Nagini.Floats
