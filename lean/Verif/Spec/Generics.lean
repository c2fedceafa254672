import Verif.Model.Generics
import Mathlib.Logic.Relation

/-!
Subtyping of generic types as declared: superclasses are instantiated with the type arguments.
-/
namespace Nagini.Generics

mutual
/-- Replaces type variables everywhere. -/
def subst (as : List Ty) : Ty → Ty
  | .cls c => .cls c
  | .gen c bs => .gen c (substList as bs)
  | .var i => as[i]?.getD (.var i)
/-- Replaces type variables in a list. -/
def substList (as : List Ty) : List Ty → List Ty
  | [] => []
  | b :: bs => subst as b :: substList as bs
end

/-- The declared superclass of a type. -/
inductive Super (tbl : Table) : Ty → Ty → Prop
  | clsCls {c d} : (tbl c).sup = some (.cls d) → Super tbl (.cls c) (.cls d)
  | clsGen {c d bs} : (tbl c).sup = some (.gen d bs) → Super tbl (.cls c) (.gen d bs)
  | genCls {c as d} : (tbl c).sup = some (.cls d) → Super tbl (.gen c as) (.cls d)
  | genGen {c as d bs} : (tbl c).sup = some (.gen d bs) → Super tbl (.gen c as) (.gen d (substList as bs))

/-- Subtyping. -/
abbrev Sub (tbl : Table) : Ty → Ty → Prop := Relation.ReflTransGen (Super tbl)

/-- Superclasses without arguments. -/
inductive SupClass (tbl : Table) : Nat → Nat → Prop
  | cls {c d} : (tbl c).sup = some (.cls d) → SupClass tbl c d
  | gen {c d bs} : (tbl c).sup = some (.gen d bs) → SupClass tbl c d

/-- Subclasses without arguments. -/
abbrev Nominal (tbl : Table) : Nat → Nat → Prop := Relation.ReflTransGen (SupClass tbl)

mutual
/-- Types with `n` type variables in scope: generic classes have the right number of arguments. -/
def Valid (tbl : Table) (n : Nat) : Ty → Prop
  | .cls c => (tbl c).nvars = 0
  | .gen c as => (tbl c).nvars = as.length ∧ as ≠ [] ∧ ValidList tbl n as
  | .var i => i < n
/-- All types of a list. -/
def ValidList (tbl : Table) (n : Nat) : List Ty → Prop
  | [] => True
  | a :: as => Valid tbl n a ∧ ValidList tbl n as
end

/-- Tables of classes: superclasses are defined before and are valid types in the scope of the class. -/
structure ValidTable (tbl : Table) : Prop where
  cls : ∀ c d, (tbl c).sup = some (.cls d) → d < c ∧ Valid tbl (tbl c).nvars (.cls d)
  gen : ∀ c d bs, (tbl c).sup = some (.gen d bs) → d < c ∧ Valid tbl (tbl c).nvars (.gen d bs)

/-- Generic classes hand their type variables on unchanged, or have no generic superclass at all. -/
def Transparent (tbl : Table) : Prop := ∀ c, 0 < (tbl c).nvars →
  (∀ d bs, (tbl c).sup = some (.gen d bs) → bs = (List.range (tbl c).nvars).map .var) ∧
  (∀ d, (tbl c).sup = some (.cls d) → ∀ e, Nominal tbl d e → (tbl e).nvars = 0)

/-- Least upper bounds. -/
def IsLub (tbl : Table) (t1 t2 t : Ty) : Prop :=
  Sub tbl t1 t ∧ Sub tbl t2 t ∧ ∀ u, Sub tbl t1 u → Sub tbl t2 u → Sub tbl t u

/-- Least upper bounds of lists. -/
def IsLubList (tbl : Table) (ts : List Ty) (t : Ty) : Prop :=
  (∀ a ∈ ts, Sub tbl a t) ∧ ∀ u, (∀ a ∈ ts, Sub tbl a u) → Sub tbl t u

end Nagini.Generics
