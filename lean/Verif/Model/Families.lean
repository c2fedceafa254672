import Verif.Spec.Families
import Verif.Model.Classes

/-!
Model of predicate families: which predicates are collected in one Silver predicate, its body, and which
Silver predicate is named by an access.  One name `P` of predicates is fixed; `defs c` is the definition of
`P` in class `c`, `cls` the classes of the program in the order of translation.

Not modelled: abstract families (`ContractOnly`, no body), type variables, the well-formedness checks.
-/
set_option linter.unusedVariables false
namespace Nagini.Families

open Classes

variable {M V : Type} [AddCommMonoid M] (H : Hier) (defs : Nat → Option (Def V M))

/-- `overrides`: the predicate of that name in the direct superclass, given by its class.
Models lib/program_nodes.py:1139-1144 (`get_contents(False)` are the members of that class only). -/
def overridden (c : Nat) : Option Nat :=
  match H.sup c with
  | none => none
  | some p => if (defs p).isSome then some p else none

omit [AddCommMonoid M] in
theorem overridden_sup {c p : Nat} (h : overridden H defs c = some p) : H.sup c = some p := by
  unfold overridden at h
  split at h
  · cases h
  · split at h
    · cases h; assumption
    · cases h

/-- The root of the family of the predicate in class `c`: following `overrides`.
Models translators/program.py:1476-1478. -/
def rootOf (c : Nat) : Nat :=
  match h : overridden H defs c with
  | none => c
  | some p => rootOf p
termination_by H.depth c
decreasing_by exact H.depth_lt c p (overridden_sup H defs h)

/-- Adding the predicate of class `c` to the dictionary of families.
Models translators/program.py:1479-1482. -/
def addMember (r c : Nat) : List (Nat × List Nat) → List (Nat × List Nat)
  | [] => [(r, [c])]
  | (r', ms) :: fs => if r' = r then (r', ms ++ [c]) :: fs else (r', ms) :: addMember r c fs

/-- The families of a program.  Models translators/program.py:1474-1482. -/
def families (cls : List Nat) : List (Nat × List Nat) :=
  cls.foldl (fun fs c => if (defs c).isSome then addMember (rootOf H defs c) c fs else fs) []

/-- The members of the family with a given root.  Models translators/program.py:1520-1522. -/
def members (cls : List Nat) (r : Nat) : List Nat := ((families H defs cls).lookup r).getD []

/-- Names of a member's parameters are replaced by the variables of the root at the same position, whose
values are the arguments `vals`.  Models translators/predicate.py:113-124. -/
def memberEnv (rootParams params : List Nat) (vals : List V) (n : Nat) : Option V :=
  match (params.zip rootParams).lookup n with
  | some rv => (rootParams.zip vals).lookup rv
  | none => none

/-- The part of the body for one member: `isinstance(self, C) ==> body`.
Models translators/predicate.py:134-148. -/
def memberPart (rootParams : List Nat) (ty : Nat) (vals : List V) (c : Nat) : Assn M :=
  if issubtype H ty c then
    match defs c with
    | some d => d.body (memberEnv rootParams d.params vals)
    | none => emp
  else emp

/-- Conjunction of the parts.  Models translators/predicate.py:155-159. -/
def conj : List (Assn M) → Assn M
  | [] => emp
  | P :: Ps => star P (conj Ps)

/-- The body of the Silver predicate with root `r`: types of arguments (`argOk`), the parts of the members in
the order in which they are sorted, and an abstract predicate `rest` for receivers whose type is none of the
members' (not for lock invariants: `lockInv`).  `ty` is the type of the receiver.
Models translators/predicate.py:88-95, 149-159, 172-188. -/
def familyBody (order : List Nat → List Nat) (lockInv : Bool) (argOk : Nat → List V → Prop)
    (rest : Nat → List V → Assn M) (cls : List Nat) (r ty : Nat) (vals : List V) : Assn M := fun m =>
  argOk r vals ∧
    star (conj ((order (members H defs cls r)).map
        (memberPart H defs (((defs r).map Def.params).getD []) ty vals)))
      (if !lockInv && (members H defs cls r).all (fun c => decide (ty ≠ c)) then rest r vals else emp) m

/-- The root of the Silver predicate for an access with a receiver of static class `c`: go up as long as the
superclass has the predicate.  Models translators/call.py:1347-1351. -/
def climb (c : Nat) : Nat :=
  match h : H.sup c with
  | none => c
  | some p => if (lookup H defs p).isSome then climb p else c
termination_by H.depth c
decreasing_by exact H.depth_lt c p h

/-- The class that defines the predicate found for static class `c` (`pred.cls`).
Models lib/program_nodes.py:631-640, translators/contract.py:230-240. -/
def defClass (c : Nat) : Option Nat := lookup H (fun d => (defs d).map fun _ => d) c

/-- The Silver predicate of `o.P(..)`, by the class of its root.
Models translators/call.py:1345-1351: `get_predicate` of the last class reached. -/
def accessCall (c : Nat) : Option Nat := defClass H defs (climb H defs c)

/-- The Silver predicate of `Acc(o.P(..))`.  Models translators/contract.py:229, 236-243: starts at the class
of the definition found. -/
def accessAcc (c : Nat) : Option Nat :=
  match defClass H defs c with
  | none => none
  | some d => defClass H defs (climb H defs d)

end Nagini.Families
