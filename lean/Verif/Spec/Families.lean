import Mathlib.Algebra.Group.Defs
import Verif.Spec.Classes

/-!
Meaning of predicates of classes: the resources of `o.P(..)` are those of the definitions of `P` in the class
of `o` and all its superclasses.
-/
set_option linter.unusedVariables false
namespace Nagini.Families

open Classes

/-- Assertions, as the resources (elements of `M`) that they stand for. -/
abbrev Assn (M : Type) := M → Prop

variable {M V : Type} [AddCommMonoid M]

/-- No resources. -/
def emp : Assn M := fun m => m = 0

/-- Separating conjunction. -/
def star (P Q : Assn M) : Assn M := fun m => ∃ a b, a + b = m ∧ P a ∧ Q b

/-- A predicate as written in a class: parameter names (the receiver first) and body, which depends on the
values of the parameters. -/
structure Def (V M : Type) where
  params : List Nat
  body : (Nat → Option V) → Assn M

/-- Python binds arguments by position. -/
def bindArgs (params : List Nat) (vals : List V) (n : Nat) : Option V := (params.zip vals).lookup n

/-- The resources contributed by class `c`. -/
def own (defs : Nat → Option (Def V M)) (vals : List V) (c : Nat) : Assn M :=
  match defs c with
  | some d => d.body (bindArgs d.params vals)
  | none => emp

/-- The resources of the predicate for an object whose class is `c`. -/
def meaning (H : Hier) (defs : Nat → Option (Def V M)) (vals : List V) (c : Nat) : Assn M :=
  star (own defs vals c)
    (match h : H.sup c with
    | none => emp
    | some p => meaning H defs vals p)
termination_by H.depth c
decreasing_by exact H.depth_lt c p h

end Nagini.Families
