/-!
Enumerations (subclasses of `IntEnum`): the functions `C__box__` and `C__int__` (translators/program.py:1196-1285), the
functions for their members (translators/program.py:120-170), constructor calls (translators/call.py:212-224) and
comparisons (translators/expression.py:1492-1497).

Simplified: names are numbers; values of members are given as numbers; references are the elements of any type.
-/
set_option linter.unusedVariables false
namespace Nagini.Enums

/-- An enumeration: the name of the class, its Silver name, and its members with their values.  Models `PythonClass`
with `enum` set, analyzer.py:672-674, and the static fields created in analyzer.py:1467-1482. -/
structure Enum where
  name : Nat
  sil : Nat
  members : List (Nat × Int)
deriving DecidableEq

/-- The values of the members.  Models the loops in translators/program.py:1229-1236 and
translators/program.py:1260-1266. -/
def values (c : Enum) : List Int := c.members.map (·.2)

/-- Types of references: integers, booleans, enumerations (by Silver name), others.  Models type literals,
translators/type_domain_factory.py:832-836. -/
inductive Ty where
  | int | bool
  | enum (sil : Nat)
  | other (n : Nat)
deriving DecidableEq

/-- Subtypes of `int`.  Models `issubtype(_, int())` with resources/builtins.json:1146-1148. -/
def isInt : Ty → Bool
  | .int | .bool | .enum _ => true
  | .other _ => false

/-- An interpretation of the Viper functions over the references `V`: `typeof`, `int___unbox__`, `__prim__int___box__`,
`__prim__bool___box__`, `object___eq__`, the functions `C__box__` and `C__int__` (named by the number before the suffix)
and the functions of members.  Models the signatures in resources/bool.sil:297-319 and translators/program.py:1222-1285. -/
structure Interp (V : Type) where
  typeof : V → Ty
  unbox : V → Int
  boxInt : Int → V
  boxBool : Bool → V
  eq : V → V → Prop
  box : Nat → Int → V
  toInt : Nat → V → Int
  field : Nat → Nat → Ty → V

/-- The contracts of the functions on integers and of `object___eq__`.  Models resources/bool.sil:297-314,
resources/bool.sil:321-327 and resources/bool.sil:470-488. -/
structure Background {V : Type} (I : Interp V) : Prop where
  boxInt : ∀ n, I.typeof (I.boxInt n) = .int ∧ I.unbox (I.boxInt n) = n
  unboxInt : ∀ r, I.typeof r = .int → I.boxInt (I.unbox r) = r
  unboxBool : ∀ r, I.typeof r = .bool → I.boxBool (decide (I.unbox r ≠ 0)) = r
  boxBool : ∀ b : Bool, I.typeof (I.boxBool b) = .bool ∧ I.unbox (I.boxBool b) = if b then 1 else 0
  eqInt : ∀ r s, isInt (I.typeof r) = true → isInt (I.typeof s) = true → (I.eq r s ↔ I.unbox r = I.unbox s)
  refl : ∀ r, I.eq r r
  symm : ∀ r s, I.eq r s → I.eq s r
  trans : ∀ r s t, I.eq r s → I.eq s t → I.eq r t

/-- The precondition of `C__box__`.  Models translators/program.py:1228-1236. -/
def boxPre (c : Enum) (v : Int) : Prop := v ∈ values c

/-- The postconditions of `C__box__`.  Models translators/program.py:1238-1245. -/
def BoxPost {V : Type} (I : Interp V) (c : Enum) : Prop :=
  ∀ v, boxPre c v →
    I.typeof (I.box c.sil v) = .enum c.sil ∧ I.toInt c.sil (I.box c.sil v) = v ∧ I.unbox (I.box c.sil v) = v

/-- The postconditions of `C__int__`.  Models translators/program.py:1257-1281. -/
def IntPost {V : Type} (I : Interp V) (c : Enum) : Prop :=
  ∀ r, I.typeof r = .enum c.sil → I.toInt c.sil r ∈ values c ∧
    ∀ i, I.eq r i → I.typeof i = .enum c.sil → I.toInt c.sil i = I.toInt c.sil r

/-- The postconditions of the function of a member: the result has the type of the enumeration, and for the
enumeration itself it is the boxed value; the box function is named by the name of the class.  Models
translators/program.py:142-166. -/
def FieldPost {V : Type} (I : Interp V) (c : Enum) (m : Nat) (v : Int) : Prop :=
  (∀ t, I.typeof (I.field c.sil m t) = .enum c.sil) ∧
  ∀ t, t = .enum c.sil → I.field c.sil m t = I.box c.name v

/-- All generated contracts of a program.  Models translators/program.py:1350-1361. -/
def Posts {V : Type} (I : Interp V) (P : List Enum) : Prop :=
  Background I ∧ ∀ c ∈ P, BoxPost I c ∧ IntPost I c ∧ ∀ q ∈ c.members, FieldPost I c q.1 q.2

/-- Reading a member.  Models translators/expression.py:1036-1065. -/
def member {V : Type} (I : Interp V) (c : Enum) (m : Nat) : V := I.field c.sil m (.enum c.sil)

/-- A constructor call: its value, if the precondition holds.  Models translators/call.py:212-224. -/
def construct {V : Type} (I : Interp V) (c : Enum) (v : Int) : V := I.box c.sil v

/-- The number of an operand of a comparison with the static type of an enumeration, or of `int`.  Models `to_int`,
translators/common.py:209-219, as called in translators/expression.py:1492-1497. -/
def operand {V : Type} (I : Interp V) (c : Option Enum) (r : V) : Int :=
  match c with
  | some c => I.toInt c.sil r
  | none => I.unbox r

end Nagini.Enums
