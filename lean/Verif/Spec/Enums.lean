import Verif.Model.Enums

/-!
Enumerations in Python: every enumeration has one object for every value of its members.
-/
namespace Nagini.Enums

/-- Python's objects as far as they matter here. -/
inductive PyObj where
  | int (i : Int)
  | bool (b : Bool)
  | member (sil : Nat) (v : Int)
  | other (n : Nat)
deriving DecidableEq

/-- Numeric values. -/
def PyObj.val : PyObj → Int
  | .int i => i
  | .bool b => if b then 1 else 0
  | .member _ v => v
  | .other _ => 0

/-- Classes. -/
def PyObj.ty : PyObj → Ty
  | .int _ => .int
  | .bool _ => .bool
  | .member c _ => .enum c
  | .other n => .other n

/-- Equality: numbers by value, everything else by identity. -/
def PyObj.eq (a b : PyObj) : Prop :=
  a = b ∨ (isInt a.ty = true ∧ isInt b.ty = true ∧ a.val = b.val)

/-- Programs: Silver names of classes are different, members of a class have different names, and there is at
least one member. -/
structure Legal (P : List Enum) : Prop where
  sil : ∀ c ∈ P, ∀ d ∈ P, c.sil = d.sil → c = d
  members : ∀ c ∈ P, (c.members.map (·.1)).Nodup
  nonempty : ∀ c ∈ P, c.members ≠ []

end Nagini.Enums
