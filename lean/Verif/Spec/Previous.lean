/-!
Specification for C154: the values that the variable of a loop had in previous iterations.
-/
namespace Nagini.Previous

/-- Values: tuples are lists of values, everything else is an atom. -/
inductive V
  | atom (n : Nat)
  | nil
  | cons (a b : V)
  deriving DecidableEq

/-- Targets of loops; tuples are built with `nil` and `cons`, `other` stands for attributes and subscripts. -/
inductive Target
  | name (x : String)
  | other
  | nil
  | cons (a b : Target)

/-- The variables that a target binds. -/
def Target.binds (x : String) : Target → Bool
  | .name y => x == y
  | .other => false
  | .nil => false
  | .cons a b => a.binds x || b.binds x

/-- The value that a variable has after the value has been assigned to the target: the last one counts. -/
def Target.value (x : String) : Target → V → Option V
  | .name y, v => if x = y then some v else none
  | .cons a b, .cons v w => (b.value x w).or (a.value x v)
  | _, _ => none

/-- A loop with the elements of the previous iterations. -/
structure Loop where
  target : Target
  done : List V

/-- The values in the previous iterations of the innermost loop whose target contains the variable. -/
def previous (x : String) : List Loop → Option (List (Option V))
  | [] => none
  | l :: ls => if l.target.binds x then some (l.done.map (l.target.value x)) else previous x ls

end Nagini.Previous
