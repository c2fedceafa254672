/-
Specification for C120: the type of a member, declared in a generic class, for a receiver of a type that
instantiates the class or one of its subclasses.
-/

namespace Nagini.Substs

/-- Types: a class, a class with arguments, a tuple, a tuple of any length, a variable of a class (by
index), an optional type, a union, `None`. -/
inductive Ty where
  | cls (c : Nat)
  | gen (c : Nat) (args : List Ty)
  | tuple (ts : List Ty)
  | vtuple (t : Ty)
  | var (c i : Nat)
  | opt (t : Ty)
  | union (ts : List Ty)
  | none

/-- The classes of a program: the number of type variables and the superclass (`none`: only
`object`). -/
structure Table where
  nvars : Nat → Nat
  sup : Nat → Option Ty

mutual
/-- Replacing all type variables. -/
def subst (σ : Nat → Nat → Ty) : Ty → Ty
  | .cls c => .cls c
  | .gen c as => .gen c (substs σ as)
  | .tuple ts => .tuple (substs σ ts)
  | .vtuple t => .vtuple (subst σ t)
  | .var c i => σ c i
  | .opt t => .opt (subst σ t)
  | .union ts => .union (substs σ ts)
  | .none => .none
/-- Replacing all type variables in a list of types. -/
def substs (σ : Nat → Nat → Ty) : List Ty → List Ty
  | [] => []
  | t :: ts => subst σ t :: substs σ ts
end

/-- The variables of class `c` stand for the given arguments. -/
def inst (c : Nat) (as : List Ty) : Nat → Nat → Ty :=
  fun k i => if k = c then as[i]?.getD (.var k i) else .var k i

/-- `Base tbl c as d bs`: an instance of `c[as]` is one of `d[bs]`, by the declared base classes. -/
inductive Base (tbl : Table) : Nat → List Ty → Nat → List Ty → Prop where
  | refl (c as) : Base tbl c as c as
  | cls {c as e d bs} : tbl.sup c = some (.cls e) → Base tbl e [] d bs → Base tbl c as d bs
  | gen {c as e es d bs} : tbl.sup c = some (.gen e es) → Base tbl e (substs (inst c as) es) d bs →
      Base tbl c as d bs

/-- `Occurs u t`: the type `u` is a part of `t`. -/
inductive Occurs : Ty → Ty → Prop where
  | refl (t) : Occurs t t
  | gen {u t c as} : Occurs u t → t ∈ as → Occurs u (.gen c as)
  | tuple {u t ts} : Occurs u t → t ∈ ts → Occurs u (.tuple ts)
  | vtuple {u t} : Occurs u t → Occurs u (.vtuple t)
  | opt {u t} : Occurs u t → Occurs u (.opt t)
  | union {u t ts} : Occurs u t → t ∈ ts → Occurs u (.union ts)

/-- All variables of the type are those of class `c`. -/
def Of (tbl : Table) (c : Nat) (t : Ty) : Prop := ∀ k i, Occurs (.var k i) t → k = c ∧ i < tbl.nvars c

/-- No variables. -/
def Ground (t : Ty) : Prop := ∀ k i, ¬ Occurs (.var k i) t

/-- No tuples of any length. -/
def NoVTuple (t : Ty) : Prop := ∀ u, ¬ Occurs (.vtuple u) t

/-- Sensible tables: superclasses are defined before, have the right number of arguments, and these use
only variables of the class. -/
def Wf (tbl : Table) : Prop :=
  ∀ c s, tbl.sup c = some s →
    (∃ e, s = .cls e ∧ e < c ∧ tbl.nvars e = 0) ∨
    (∃ e es, s = .gen e es ∧ e < c ∧ es.length = tbl.nvars e ∧ ∀ t ∈ es, Of tbl c t)

/-- The arguments of base classes are variables themselves or have none. -/
def Flat (tbl : Table) : Prop :=
  ∀ c e es, tbl.sup c = some (.gen e es) → ∀ t ∈ es, (∃ i, t = .var c i) ∨ Ground t

/-- The variables of a class themselves, as arguments. -/
def ident (tbl : Table) (c : Nat) : List Ty := (List.range (tbl.nvars c)).map (.var c)

end Nagini.Substs
