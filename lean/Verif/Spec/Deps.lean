import Verif.Model.Deps
import Mathlib.Logic.Relation
/-!
Specification: which names a call needs, and call graphs.
-/
namespace Nagini.Deps
variable {N : Nat}

/-- Calling `a` needs the name of the dependency `d` if the classes `cs` exist: following
dependencies from `a`, with the conditions met on the way, one reaches `d`. -/
inductive Needs (deps : Fin N → List (Dep N)) : Fin N → List Nat → Dep N → Prop
  | direct {a d} : d ∈ deps a → d.conds = [] → Needs deps a [] d
  | step {a e cs d} : e ∈ deps a → Needs deps e.target cs d → Needs deps a (e.conds ++ cs) d

/-- Everything needed is defined, if the classes in `D` are the defined ones. -/
def Required (deps : Fin N → List (Dep N)) (root : Fin N) (D : Nat → Prop)
    (defd : Nat → Nat → Prop) : Prop :=
  ∀ cs d, Needs deps root cs d → (∀ c ∈ cs, D c) → defd d.ref d.mod

/-- The check that is generated from a set of dependencies passes: each dependency is defined
if all its conditions are. -/
def Passes (res : List (Dep N)) (D : Nat → Prop) (defd : Nat → Nat → Prop) : Prop :=
  ∀ e ∈ res, (∀ c ∈ e.conds, D c) → defd e.ref e.mod

/-- `b` is a (conditional or unconditional) dependency of `a`. -/
def DepEdge (deps : Fin N → List (Dep N)) (a b : Fin N) : Prop := ∃ d ∈ deps a, d.target = b
/-- `b` is a conditional dependency of `a` (a method call on an instance). -/
def CondEdge (deps : Fin N → List (Dep N)) (a b : Fin N) : Prop :=
  ∃ d ∈ deps a, d.target = b ∧ d.conds ≠ []

/-- A reference in the program text is used either for an instance method call or for a call
of something else, not both (translators/call.py:748-754: decided by the call's target). -/
def RefsConsistent (deps : Fin N → List (Dep N)) : Prop :=
  ∀ a b d e, d ∈ deps a → e ∈ deps b → d.conds = [] → e.conds ≠ [] → d.ref ≠ e.ref

mutual
/-- All calls in an expression. -/
def calls : Expr N → List (Fin N)
  | .leaf => []
  | .call m args => m :: callsL args
def callsL : List (Expr N) → List (Fin N)
  | [] => []
  | e :: es => calls e ++ callsL es
end

/-- Method `a` calls method `b`. -/
def Calls (body : Fin N → List (Expr N)) (a b : Fin N) : Prop := b ∈ callsL (body a)

end Nagini.Deps
