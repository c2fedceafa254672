import Verif.Model.IsInstance

/-!
Python's `isinstance`.
-/
namespace Nagini.IsInstance

/-- The superclass of a class in Python. -/
def pySuperclass (user : Classes) (c : Nat) : Option Nat :=
  if c = 0 then none
  else if c = 1 ∨ c = 2 ∨ c = 4 ∨ c = 5 then some 0
  else if c = 3 ∨ c = 6 then some 2
  else user c

/-- The path from a class to a superclass in Python. -/
inductive PySubclass (user : Classes) : Nat → Nat → Prop
  | refl (c : Nat) : PySubclass user c c
  | step {c p d : Nat} : pySuperclass user c = some p → PySubclass user p d → PySubclass user c d

/-- Python's `isinstance` for an object of class `d`. -/
def PyIsinstance (user : Classes) (env : Nat → Nat) (d : Nat) : Target → Prop
  | .cls c => PySubclass user d c
  | .var x => PySubclass user d (env x)

end Nagini.IsInstance
