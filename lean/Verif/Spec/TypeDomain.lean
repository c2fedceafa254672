import Verif.Model.TypeDomain
import Mathlib.Logic.Relation

/-!
Nominal subtyping, stated without the type axioms.
-/
namespace Nagini.TypeDomain

/-- The class a closed class type directly derives from, with its arguments.  A class
without declared superclass derives from `object` (0). -/
inductive DirectSub (tbl : Table) : TExp → TExp → Prop
  | declared (c : Nat) (as : List TExp) (d : Nat) (es : List TExp) :
      (tbl c).sup = some (d, es) → DirectSub tbl (.app c as) ((TExp.app d es).subst as)
  | default (c : Nat) (as : List TExp) : c ≠ 0 → (tbl c).sup = none → DirectSub tbl (.app c as) (.app 0 [])

/-- Nominal subtyping. -/
def Nominal (tbl : Table) : TExp → TExp → Prop := Relation.ReflTransGen (DirectSub tbl)

/-- Closed types with the right number of arguments everywhere. -/
inductive Closed (tbl : Table) : TExp → Prop
  | app (c : Nat) (as : List TExp) : as.length = (tbl c).nvars → (∀ a ∈ as, Closed tbl a) → Closed tbl (.app c as)

/-- Superclass arguments: type variables of the class, right number of arguments. -/
inductive WfExp (tbl : Table) (n : Nat) : TExp → Prop
  | var (i : Nat) : i < n → WfExp tbl n (.var i)
  | app (c : Nat) (as : List TExp) : as.length = (tbl c).nvars → (∀ a ∈ as, WfExp tbl n a) → WfExp tbl n (.app c as)

/-- Class tables of Python programs: `object` and `NoneType` are as expected, and the
superclass relation is acyclic and well formed. -/
structure WfTable (tbl : Table) : Prop where
  objSup : (tbl 0).sup = none
  objIface : (tbl 0).iface = true
  objVars : (tbl 0).nvars = 0
  noneSup : (tbl 1).sup = some (0, [])
  noneVars : (tbl 1).nvars = 0
  /-- there is no infinite chain of superclasses -/
  acyclic : ∃ rank : Nat → Nat, ∀ c d es, (tbl c).sup = some (d, es) → rank d < rank c
  wfSup : ∀ c d es, (tbl c).sup = some (d, es) → WfExp tbl (tbl c).nvars (.app d es)

/-- Direct base classes of the builtin classes in Python. -/
def Builtin.pyBase : Builtin → Option Builtin
  | .object => none
  | .bool => some .int
  | .intEnum => some .int
  | .connectionRefusedError => some .exception
  | _ => some .object

/-- Ancestors along a base-class function. -/
def Ancestor (base : Builtin → Option Builtin) : Builtin → Builtin → Prop :=
  Relation.ReflTransGen fun c d => base c = some d

end Nagini.TypeDomain
