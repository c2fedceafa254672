/-!
Specification vocabulary for class hierarchies with single inheritance.
-/
namespace Nagini.Classes

/-- A single-inheritance hierarchy: every class has at most one superclass, and
superclass chains are finite (`depth` strictly decreases). -/
structure Hier where
  sup : Nat → Option Nat
  depth : Nat → Nat
  depth_lt : ∀ c p, sup c = some p → depth p < depth c

/-- `d` is `c` or an ancestor of `c`: nominal subtyping. -/
inductive Anc (H : Hier) : Nat → Nat → Prop
  | refl (c : Nat) : Anc H c c
  | step {c p d : Nat} : H.sup c = some p → Anc H p d → Anc H c d

/-- `m` is a least common superclass of `a` and `b`. -/
def IsLCA (H : Hier) (a b m : Nat) : Prop :=
  Anc H a m ∧ Anc H b m ∧ ∀ m', Anc H a m' → Anc H b m' → Anc H m m'

/-- `x` is the definition in the nearest class on the superclass chain of `c`
that has one. -/
def Nearest {α : Type} (H : Hier) (defs : Nat → Option α) (c : Nat) (x : α) : Prop :=
  ∃ d, Anc H c d ∧ defs d = some x ∧ ∀ e, Anc H c e → Anc H e d → e ≠ d → defs e = none

end Nagini.Classes
