/-!
Model of the Viper domain emitted for Python types
(translators/type_domain_factory.py and resources/tuple.sil).

Axioms are predicates over an arbitrary interpretation of the domain: a set `T` of
types, a set `R` of references and functions for the function symbols.  Triggers only
guide instantiation and are not part of an axiom's meaning, so they are not modelled.
Enum and ADT axioms are not modelled.
-/
namespace Nagini.TypeDomain

/-- A type as it can be written as a superclass: a type variable of the class (by
index) or a class applied to arguments (unions and tuples are not modelled here).
Models the literals built by translators/type_domain_factory.py:838-890. -/
inductive TExp
  | var (i : Nat)
  | app (c : Nat) (args : List TExp)

/-- What is used of a class: whether it is an interface, its superclass (if given) and
the number of its type variables.  Models lib/program_nodes.py:387-419 as read by
translators/type_domain_factory.py:232-259. -/
structure ClassInfo where
  /-- `cls.interface` -/
  iface : Bool
  /-- `cls.superclass` with its type arguments -/
  sup : Option (Nat × List TExp)
  /-- `len(cls.type_vars)` -/
  nvars : Nat

/-- The classes of a program; class 0 is `object`, class 1 is `NoneType`.
Models the loop over `module.classes` in translators/program.py:1405-1417. -/
abbrev Table := Nat → ClassInfo

/-- An interpretation of the domain `PyType`.  Models the functions declared in
translators/type_domain_factory.py:63-94 and 217-342 and resources/tuple.sil:209-211. -/
structure Interp where
  /-- elements of PyType -/
  T : Type
  /-- references -/
  R : Type
  /-- null -/
  null : R
  /-- typeof -/
  typeof : R → T
  /-- extends_ -/
  ext : T → T → Prop
  /-- issubtype -/
  sub : T → T → Prop
  /-- isnotsubtype -/
  nsub : T → T → Prop
  /-- get_basic -/
  getBasic : T → T
  /-- union_basic() -/
  unionBasic : T
  /-- the type function of each class -/
  cls : Nat → List T → T
  /-- the constant `<class>_basic` of a generic class -/
  basicC : Nat → T
  /-- `<class>_arg` -/
  argOf : Nat → T → Nat → T
  /-- union_type_n -/
  union : List T → T
  /-- tuple -/
  tuple : List T → T
  /-- tuple_var -/
  tupleVar : T → T
  /-- tuple_args -/
  tupleArgs : T → List T

namespace Interp
variable (I : Interp)

mutual
/-- `translate_type_literal` for class types, type variables bound to `as`.
Models translators/type_domain_factory.py:838-890. -/
def eval (as : List I.T) : TExp → I.T
  | .var i => as[i]?.getD I.unionBasic
  | .app c es => I.cls c (evalList as es)
/-- Evaluates a list of arguments; models translators/type_domain_factory.py:859-861. -/
def evalList (as : List I.T) : List TExp → List I.T
  | [] => []
  | e :: es => eval as e :: evalList as es
end

/-- The type `object()`.  Models translators/type_domain_factory.py:721. -/
def object : I.T := I.cls 0 []

/-- The type `NoneType()`.  Models translators/type_domain_factory.py:612. -/
def noneType : I.T := I.cls 1 []

/-- Models translators/type_domain_factory.py:656-694. -/
def axTrans : Prop := ∀ a b c, I.sub a b → I.sub b c → I.sub a c

/-- Models translators/type_domain_factory.py:696-711. -/
def axRefl : Prop := ∀ a, I.sub a a

/-- Models translators/type_domain_factory.py:465-491. -/
def axExtSub : Prop := ∀ a b, I.ext a b → I.sub a b

/-- Models translators/type_domain_factory.py:602-624. -/
def axNull : Prop := ∀ r, I.sub (I.typeof r) I.noneType ↔ r = I.null

/-- Models translators/type_domain_factory.py:626-646. -/
def axNoUnionValue : Prop := ∀ r, I.getBasic (I.typeof r) ≠ I.unionBasic

/-- Models translators/type_domain_factory.py:713-731. -/
def axObject : Prop := ∀ a, I.sub a I.object

/-- Models translators/type_domain_factory.py:521-559. -/
def axExclusion : Prop := ∀ a b p, I.ext a p → I.ext b p → a ≠ b → I.nsub a b ∧ I.nsub b a

/-- Models translators/type_domain_factory.py:493-519. -/
def axExclusion2 : Prop := ∀ a b, I.sub a b → a ≠ b → ¬ I.sub b a

/-- Models translators/type_domain_factory.py:561-600. -/
def axPropagation : Prop := ∀ a m s, I.sub a m → I.nsub m s → ¬ I.sub a s

/-- `UNION_TYPE_SIZE`, models translators/type_domain_factory.py:29. -/
def unionTypeSize : Nat := 4

/-- The lengths of the declared union functions.  Models
translators/type_domain_factory.py:85-94. -/
def unionLen (as : List I.T) : Prop := 1 ≤ as.length ∧ as.length ≤ unionTypeSize

/-- Models translators/type_domain_factory.py:95-129. -/
def axUnionBasics : Prop := ∀ as, I.unionLen as → I.getBasic (I.union as) = I.unionBasic

/-- Models translators/type_domain_factory.py:131-175. -/
def axUnionSubtypes : Prop :=
  ∀ as x, I.unionLen as → I.getBasic x ≠ I.unionBasic → (I.sub x (I.union as) ↔ ∃ a ∈ as, I.sub x a)

/-- Models translators/type_domain_factory.py:177-215. -/
def axSubtypeUnions : Prop :=
  ∀ as x, I.unionLen as → (I.sub (I.union as) x ↔ ∀ a ∈ as, I.sub a x)

/-- The default axioms except `axUnionBasics`, the axioms describing the basic part of a union.
Models translators/type_domain_factory.py:46-61. -/
def defaultAxioms : Prop :=
  I.axTrans ∧ I.axRefl ∧ I.axExtSub ∧ I.axNull ∧ I.axNoUnionValue ∧ I.axObject ∧ I.axExclusion ∧
  I.axExclusion2 ∧ I.axPropagation ∧ I.axUnionSubtypes ∧ I.axSubtypeUnions

variable (tbl : Table)

/-- `get_basic` of the types of a class: `<class>_basic()`, or the class constant itself
if the class is not generic.  Models translators/type_domain_factory.py:446-451. -/
def basic (c : Nat) : I.T := if (tbl c).nvars = 0 then I.cls c [] else I.basicC c

/-- The supertype of `c` applied to `as`; `object` if none is given.
Models translators/type_domain_factory.py:238-241. -/
def supOf (c : Nat) (as : List I.T) : I.T :=
  match (tbl c).sup with
  | none => I.object
  | some (d, es) => I.eval as (.app d es)

/-- Whether a subtype axiom is emitted for the class.  Models
translators/type_domain_factory.py:247-251. -/
def emits (c : Nat) : Prop := ¬ ((tbl c).iface = true ∧ (tbl c).sup = none)

/-- The subtype axiom of each class.  Models translators/type_domain_factory.py:383-463. -/
def axSubtype : Prop :=
  ∀ c, emits tbl c → ∀ as : List I.T, as.length = (tbl c).nvars →
    I.ext (I.cls c as) (I.supOf tbl c as) ∧ I.getBasic (I.cls c as) = I.basic tbl c

/-- The type argument axioms of each class.  Models
translators/type_domain_factory.py:275-319. -/
def axArgs : Prop :=
  ∀ c z (as : List I.T), as.length = (tbl c).nvars → I.sub z (I.cls c as) →
    ∀ i (h : i < as.length), I.argOf c z i = as[i]

/-- The constants of the domain are declared unique: `<class>_basic`, the constants of
non-generic classes and `union_basic` are pairwise different.  Models
translators/type_domain_factory.py:225-230, 327-329 and 339-342. -/
def uniqueConstants : Prop :=
  (∀ c d, I.basic tbl c = I.basic tbl d → c = d) ∧ ∀ c, I.basic tbl c ≠ I.unionBasic

/-- All axioms emitted for the classes of a program.  Models
translators/type_domain_factory.py:232-259. -/
def classAxioms : Prop := I.axSubtype tbl ∧ I.axArgs tbl ∧ I.uniqueConstants tbl

/-! #### Tuples -/

/-- `tuple_args_def`.  Models resources/tuple.sil:225-229. -/
def axTupleArgsLen : Prop := ∀ s z, I.sub z (I.tuple s) → (I.tupleArgs z).length = s.length

/-- `subtype_tuple_var_tuple`.  Models resources/tuple.sil:260-265. -/
def axTupleVarTuple : Prop := ∀ v s, I.sub (I.tuple s) (I.tupleVar v) ↔ ∀ a ∈ s, I.sub a v

/-- `subtype_tuple_var_self`.  Models resources/tuple.sil:253-258. -/
def axTupleVarSelf : Prop := ∀ v w, I.sub (I.tupleVar v) (I.tupleVar w) ↔ I.sub v w

/-- `tuple_self_subtype`.  Models resources/tuple.sil:231-238. -/
def axTupleSelf : Prop :=
  ∀ s t, s ≠ t → s.length = t.length → (∀ i (h : i < s.length) (h' : i < t.length), I.sub s[i] t[i]) →
    I.sub (I.tuple s) (I.tuple t)

/-- `tuple_args_subtype_1`.  Models resources/tuple.sil:267-272. -/
def axTupleArgs1 : Prop := ∀ s z, I.sub z (I.tuple s) → I.sub z (I.tuple (I.tupleArgs z))

/-- `tuple_args_subtype_2`.  Models resources/tuple.sil:274-279. -/
def axTupleArgs2 : Prop := ∀ z v, I.sub z (I.tupleVar v) → I.sub z (I.tuple (I.tupleArgs z))

/-- The axioms of the domain `tuple_types` used here (the axioms on `tuple_arg` and
`get_basic` are left out).  Models resources/tuple.sil:208-293. -/
def tupleAxioms : Prop :=
  I.axTupleArgsLen ∧ I.axTupleVarTuple ∧ I.axTupleVarSelf ∧ I.axTupleSelf ∧ I.axTupleArgs1 ∧ I.axTupleArgs2

end Interp

/-! #### Nominal subtyping on closed types -/

mutual
/-- Instantiates type variables.  Models the substitution expressed by the quantified
subtype axiom, translators/type_domain_factory.py:383-463. -/
def TExp.subst (as : List TExp) : TExp → TExp
  | .var i => as[i]?.getD (.var i)
  | .app c es => .app c (TExp.substList as es)
/-- Instantiates a list of arguments; part of translators/type_domain_factory.py:859-861. -/
def TExp.substList (as : List TExp) : List TExp → List TExp
  | [] => []
  | e :: es => TExp.subst as e :: TExp.substList as es
end

/-! The builtin classes -/

/-- Builtin classes whose names exist in Python as well.  Models the keys of
resources/builtins.json:2-1147. -/
inductive Builtin
  | object | ellipsis | list | set | dict | int | float | bool | noneType | exception
  | connectionRefusedError | str | bytes | bytearray | tuple | slice | range | type | intEnum
  deriving DecidableEq, Repr

/-- The `extends` entries.  Models resources/builtins.json:35, 132, 182, 240, 369, 471,
501, 511, 514, 517, 574, 625, 711, 790, 1047, 1108, 1132 and 1147
(resources/builtins.json:35-1147). -/
def Builtin.extends : Builtin → Option Builtin
  | .object => none
  | .int => some .float
  | .bool => some .int
  | .intEnum => some .int
  | .connectionRefusedError => some .exception
  | _ => some .object

end Nagini.TypeDomain
