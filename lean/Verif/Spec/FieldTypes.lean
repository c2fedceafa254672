/-
Specification for C119: which values a field may have according to its declared type, and in which
order a program mentions its fields.
-/

namespace Nagini.FieldTypes

/-- Types as mypy reports them: `None`, a class, a class with an argument, a type variable (by name) and
a union.  A class has at most one type parameter. -/
inductive Ty where
  | none
  | cls (c : Nat)
  | gen (c : Nat) (arg : Ty)
  | tvar (n : Nat)
  | union (a b : Ty)
  deriving DecidableEq, Repr

/-- An access `x.a`: the type of `x` and the type of the whole expression at this place (mypy narrows
types after checks like `x.a is not None`). -/
structure Access where
  recv : Ty
  attr : Nat
  ty : Ty
  deriving DecidableEq, Repr

/-- Expressions.  Receivers of accesses are variables; `op` stands for all operators except `is` and
`is not`, and for the arguments of calls. -/
inductive Expr where
  | lit
  | attr (a : Access)
  | op (l r : Expr)
  | isCmp (l r : Expr)
  | cond (c a b : Expr)

/-- Statements. -/
inductive Stmt where
  | skip
  | expr (e : Expr)
  | assign (target value : Expr)
  | del (target : Expr)
  | ite (c : Expr) (a b : Stmt)
  | seq (a b : Stmt)

/-- Which values are instances of the classes: any interpretation will do. -/
structure Interp (Val : Type) where
  isNone : Val → Prop
  cls : Nat → Val → Prop
  gen : Nat → (Val → Prop) → Val → Prop

/-- The values of a type, given those of the type variables. -/
def Den {Val : Type} (I : Interp Val) (θ : Nat → Val → Prop) : Ty → Val → Prop
  | .none => I.isNone
  | .cls c => I.cls c
  | .gen c a => I.gen c (Den I θ a)
  | .tvar n => θ n
  | .union a b => fun v => Den I θ a v ∨ Den I θ b v

/-- The declarations of a program: the type parameter of a class and the declared types of the
fields. -/
structure Decls where
  param : Nat → Option Nat
  field : Nat → Nat → Ty

/-- `Stored D I θ r a v`: the field `a` of an object of type `r` may have the value `v`. -/
def Stored {Val : Type} (D : Decls) (I : Interp Val) (θ : Nat → Val → Prop) : Ty → Nat → Val → Prop
  | .cls c, a, v => Den I θ (D.field c a) v
  | .gen c t, a, v =>
    Den I (fun n => if D.param c = some n then Den I θ t else θ n) (D.field c a) v
  | _, _, _ => False

/-- `r` is one of the alternatives of a type. -/
inductive Alt : Ty → Ty → Prop where
  | cls (c) : Alt (.cls c) (.cls c)
  | gen (c t) : Alt (.gen c t) (.gen c t)
  | left {r a b} : Alt r a → Alt r (.union a b)
  | right {r a b} : Alt r b → Alt r (.union a b)

/-- The type reported for an access has only values that the field of one of the possible receivers
may have. -/
def Access.Ok (D : Decls) (x : Access) : Prop :=
  ∀ (Val : Type) (I : Interp Val) θ (v : Val), Den I θ x.ty v → ∃ r, Alt r x.recv ∧ Stored D I θ r x.attr v

/-- All accesses of an expression, as written. -/
def Expr.accesses : Expr → List Access
  | .lit => []
  | .attr a => [a]
  | .op l r => l.accesses ++ r.accesses
  | .isCmp l r => l.accesses ++ r.accesses
  | .cond c a b => c.accesses ++ (a.accesses ++ b.accesses)

/-- All accesses of a statement, as written. -/
def Stmt.accesses : Stmt → List Access
  | .skip => []
  | .expr e => e.accesses
  | .assign t v => t.accesses ++ v.accesses
  | .del t => t.accesses
  | .ite c a b => c.accesses ++ (a.accesses ++ b.accesses)
  | .seq a b => a.accesses ++ b.accesses

/-- The accesses of an expression except for operands of `is` and `is not`. -/
def Expr.outside : Expr → List Access
  | .isCmp _ _ => []
  | .lit => []
  | .attr a => [a]
  | .op l r => l.outside ++ r.outside
  | .cond c a b => c.outside ++ (a.outside ++ b.outside)

/-- The accesses of a statement except for operands of `is` and `is not` and targets of `del`; assigned
values come before the targets. -/
def Stmt.outside : Stmt → List Access
  | .skip => []
  | .expr e => e.outside
  | .assign t v => v.outside ++ t.outside
  | .del _ => []
  | .ite c a b => c.outside ++ (a.outside ++ b.outside)
  | .seq a b => a.outside ++ b.outside

/-- The access may be one to the field `a` of class `c`. -/
def Access.To (x : Access) (c a : Nat) : Prop :=
  x.attr = a ∧ (Alt (.cls c) x.recv ∨ ∃ t, Alt (.gen c t) x.recv)

/-- `x` is the first access to the field in the list. -/
def First (c a : Nat) (l : List Access) (x : Access) : Prop :=
  ∃ l1 l2, l = l1 ++ x :: l2 ∧ x.To c a ∧ ∀ y ∈ l1, ¬ y.To c a

/-- The well-typed programs: each access is.  The files are in the order in which they are read. -/
def WellTyped (D : Decls) (files : List Stmt) : Prop :=
  ∀ f ∈ files, ∀ x ∈ f.accesses, x.Ok D

/-- In the last file with an access to the field (outside of `is` and `del`), the first such access has
the declared type. -/
def FirstDeclared (D : Decls) (c a : Nat) (files : List Stmt) : Prop :=
  ∃ pre f post x, files = pre ++ f :: post ∧ (∀ g ∈ post, ∀ y ∈ g.outside, ¬ y.To c a) ∧
    First c a f.outside x ∧ x.ty = D.field c a

/-- The type of a variable that is an object of class `c` (or `None`) and has no type argument, as that of
`self`. -/
def Plain (c : Nat) (t : Ty) : Prop :=
  t = .cls c ∨ t = .union .none (.cls c) ∨ t = .union (.cls c) .none

/-- The first access to the field in the order in which the files are analyzed goes through a variable of
this class alone, without a type argument. -/
def FirstPlain (c a : Nat) (order : List Stmt) : Prop :=
  ∃ x, First c a (order.flatMap Stmt.accesses) x ∧ Plain c x.recv

end Nagini.FieldTypes
