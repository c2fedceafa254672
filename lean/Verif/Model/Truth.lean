/-!
Conversions between references, integers and booleans, and the functions that give conditions their truth values:
`to_ref`, `to_bool` and `to_int` (translators/common.py:110-219), `get_function_call` (translators/common.py:679-772)
and the contracts of the `__bool__` functions in resources/bool.sil, float.sil, str.sil, bytes.sil, list.sil,
set_dict.sil and bytearray.sil.

Simplified: enumerations (the `python_type` argument of `to_int`) and the pure collections of the contract library are
left out; permissions required by the `__bool__` functions of mutable collections are not modelled.
-/
set_option linter.unusedVariables false
namespace Nagini.Truth

/-- What a user-defined class declares: `__bool__` (with the flag whether it is pure) and `__len__`.
Models the entries of `functions` and `methods`, lib/program_nodes.py:574-604. -/
structure Defs where
  boolDef : Option Bool
  lenDef : Bool
deriving DecidableEq

/-- Classes; a user-defined class carries its number, what it declares, and its superclass.  Models `PythonClass` with
the builtin classes of resources/builtins.json:1-1100 (a selection), lib/program_nodes.py:574-604. -/
inductive Cls where
  | object | noneType | float | int | bool | list | set | dict | bytearray | str | bytes | tuple | range
  | user (n : Nat) (d : Defs) (sup : Cls)
deriving DecidableEq

/-- A class and its superclasses, nearest first.  Models `superclass` chains, lib/program_nodes.py:595-604, with the
`extends` entries of resources/builtins.json:1-1100. -/
def mro : Cls → List Cls
  | .object => [.object]
  | .float => [.float, .object]
  | .int => [.int, .float, .object]
  | .bool => [.bool, .int, .float, .object]
  | .user n d s => .user n d s :: mro s
  | c => [c, .object]

/-- Models `issubtype` of classes, lib/program_nodes.py:718-726, and of the type domain, resources/bool.sil:13-17. -/
def sub (c d : Cls) : Bool := (mro c).contains d

/-- The class that declares the function `__bool__` found for a class.  Models `get_function`,
lib/program_nodes.py:595-604, with resources/builtins.json:1-1100 and resources/builtins.json:1088-1091 (tuples declare
none). -/
def definer : Cls → Cls
  | .user n d s => if d.boolDef = some true then .user n d s else definer s
  | .tuple => .object
  | c => c

/-- Whether a builtin superclass declares the pure function `__len__`.  Models the entries of
resources/builtins.json:1-1100. -/
def inheritsLen : Cls → Bool
  | .user _ _ s => inheritsLen s
  | .list | .set | .dict | .bytearray | .str | .bytes | .tuple | .range => true
  | _ => false

/-- Whether a class is accepted: `__bool__` has to be pure, since it overrides the pure function of `object`, and may
not override any other `__bool__`; the `__len__` of a builtin class may not be overridden.  Models
translators/program.py:415-437 and translators/program.py:1425-1431; simplified: conditions for overriding the
`__len__` of a user-defined class are left out. -/
def accepted : Cls → Bool
  | .user _ d s =>
    accepted s && (match d.boolDef with
      | none => true
      | some pure => pure && definer s == .object) && !(d.lenDef && inheritsLen s)
  | _ => true

/-- Models `get_common_superclass`, lib/program_nodes.py:718-732, along the superclasses of the first class. -/
def commonL : List Cls → Cls → Cls
  | [], b => b
  | a :: as, b => if sub a b then b else if sub b a then a else commonL as b

/-- The class of a union: the common superclass of all options.  Models `UnionType.cls`,
lib/program_nodes.py:939-953. -/
def unionCls (c : Cls) (l : List Cls) : Cls := (c :: l).foldl (fun a b => commonL (mro a) b) c

/-- Static types of conditions: a class, the optional type of a class, a union of two or more classes (in the order in
which they are tested) and an optional union.  Models `GenericType`, `UnionType` and `OptionalType` as created by
`_convert_union_type`, analyzer.py:1712-1727. -/
inductive STy where
  | cls (c : Cls)
  | opt (c : Cls)
  | union (c : Cls) (l : List Cls)
  | optUnion (c : Cls) (l : List Cls)

/-- Python objects: numbers and booleans by value, other objects with an identity, a class, and the number or the
length they have as an instance of a builtin class (of 0 and 1 for other classes no use is made).  Models references
with `typeof`, resources/bool.sil:8-28. -/
inductive Val where
  | none
  | int (i : Int)
  | bool (b : Bool)
  | obj (id : Nat) (c : Cls) (n : Int)
deriving DecidableEq

/-- The exact class of an object.  Models `typeof`, resources/bool.sil:13. -/
def typeOf : Val → Cls
  | .none => .noneType
  | .int _ => .int
  | .bool _ => .bool
  | .obj _ c _ => c

/-- Number or length.  Models `int___unbox__` and the lengths, resources/bool.sil:303-308. -/
def payload : Val → Int
  | .none => 0
  | .int i => i
  | .bool b => if b then 1 else 0
  | .obj _ _ n => n

/-- Results of the user-defined `__bool__` and `__len__` of a class on an object.  Models the values of pure functions,
translators/program.py:1419-1424. -/
structure World where
  ub : Nat → Val → Bool
  ul : Nat → Val → Int

/-- An interpretation of the Viper functions `C___bool__`.  Models the functions named by resources/builtins.json:4-7. -/
abbrev Interp := Cls → Val → Bool

/-- The classes for which `object___bool__` says nothing.  Models resources/bool.sil:13-17. -/
def excluded (c : Cls) : Bool :=
  sub c .float || sub c .list || sub c .set || sub c .dict || sub c .bytearray

/-- The contracts of the `__bool__` functions (for floats those of the default encoding).  Models
resources/bool.sil:8-28, resources/bool.sil:250-254, resources/float.sil:6-10, resources/list.sil:25-30,
resources/set_dict.sil:30-35, resources/set_dict.sil:118-123, resources/str.sil:21-25, resources/bytes.sil:25-29,
resources/bytearray.sil:66-71; user-defined functions have the values of their bodies. -/
structure Contracts (W : World) (I : Interp) : Prop where
  objectNone : I .object .none = false
  object : ∀ v, v ≠ .none → excluded (typeOf v) = false → I .object v = true
  noneType : I .noneType .none = false
  null : ∀ d, d ∈ [Cls.bool, .int, .float, .list, .set, .dict, .str, .bytes, .bytearray] → I d .none = false
  bool : ∀ v, sub (typeOf v) .bool = true → I .bool v = decide (payload v ≠ 0)
  int : ∀ v, sub (typeOf v) .int = true → I .int v = decide (payload v ≠ 0)
  float : ∀ v, sub (typeOf v) .int = true → I .float v = I .int v
  coll : ∀ d, d ∈ [Cls.list, .set, .dict, .str, .bytes, .bytearray] → ∀ v, sub (typeOf v) d = true →
    I d v = decide (payload v ≠ 0)
  user : ∀ n d s v, sub (typeOf v) (.user n d s) = true → I (.user n d s) v = W.ub n v

/-- Viper types.  Models translators/common.py:116-123. -/
inductive VT where
  | ref | int | bool
deriving DecidableEq

/-- Viper expressions: variables of the three types, the boxing and unboxing functions, applications of `__bool__`
functions, conditional expressions on the class of a reference, integer sums, conjunctions, disjunctions, and
accessibility predicates.  Models the nodes inspected in translators/common.py:110-219. -/
inductive E where
  | refV (x : Nat)
  | intV (x : Nat)
  | boolV (x : Nat)
  | boxI (e : E)
  | unboxI (e : E)
  | boxB (e : E)
  | unboxB (e : E)
  | callB (d : Cls) (e : E)
  | ite (c : Cls) (arg t f : E)
  | add (l r : E)
  | and (l r : E)
  | or (l r : E)
  | acc (x : Nat)
deriving DecidableEq

/-- Models `typ()`, translators/common.py:136. -/
def E.typ : E → VT
  | .refV _ => .ref
  | .intV _ => .int
  | .boolV _ => .bool
  | .boxI _ => .ref
  | .unboxI _ => .int
  | .boxB _ => .ref
  | .unboxB _ => .bool
  | .callB _ _ => .bool
  | .ite _ _ t _ => t.typ
  | .add _ _ => .int
  | .and _ _ => .bool
  | .or _ _ => .bool
  | .acc _ => .bool

/-- Models `isPure()`, used in translators/common.py:114. -/
def E.isPure : E → Bool
  | .refV _ | .intV _ | .boolV _ => true
  | .boxI e | .unboxI e | .boxB e | .unboxB e | .callB _ e => e.isPure
  | .ite _ a t f => a.isPure && t.isPure && f.isPure
  | .add l r | .and l r | .or l r => l.isPure && r.isPure
  | .acc _ => false

/-- Models `unwrap`, translators/common.py:221-226. -/
def unwrap : E → E
  | .boxI e | .unboxI e | .boxB e | .unboxB e => e
  | e => e

/-- Models `_is_pure`, translators/common.py:110-114, with the recursion bounded by the size of the expression. -/
def isPureN : Nat → E → Bool
  | 0, e => e.isPure
  | n + 1, e =>
    match unwrap e with
    | .and l r => isPureN n l && isPureN n r
    | .or l r => isPureN n l && isPureN n r
    | e => e.isPure

/-- The size of an expression, an upper bound of the recursion depth of `_is_pure`, translators/common.py:110-114. -/
def E.size : E → Nat
  | .refV _ | .intV _ | .boolV _ | .acc _ => 1
  | .boxI e | .unboxI e | .boxB e | .unboxB e | .callB _ e => e.size + 1
  | .ite _ a t f => a.size + t.size + f.size + 1
  | .add l r | .and l r | .or l r => l.size + r.size + 1

/-- Models `_is_pure`, translators/common.py:110-114. -/
def isPure' (e : E) : Bool := isPureN e.size e

/-- The part of `to_ref` for integers.  Models translators/common.py:136-145. -/
def intToRef : E → E
  | .unboxI r => r
  | e => .boxI e

/-- The part of `to_ref` for booleans.  Models translators/common.py:146-154. -/
def boolToRef : E → E
  | .unboxB r => r
  | e => .boxB e

/-- Models `to_ref`, translators/common.py:125-154. -/
def toRef (e : E) : E :=
  if isPure' e then
    match e.typ with
    | .ref => e
    | .int => intToRef e
    | .bool => boolToRef e
  else e

/-- The chain of conditional expressions for the options of a union.  Models `chain_cond_exp`,
lib/program_nodes.py:1969-1982. -/
def chain (arg : E) : Cls → List Cls → E
  | c, [] => .callB (definer c) arg
  | c, d :: l => .ite c arg (.callB (definer c) arg) (chain arg d l)

/-- Models `get_function_call` for `__bool__`, translators/common.py:679-772: only proper unions are split up; the
function of an optional union is that of its common superclass. -/
def callBool (t : STy) (arg : E) : E :=
  match t with
  | .cls c => .callB (definer c) arg
  | .opt c => .callB (definer c) arg
  | .union c l => chain arg c l
  | .optUnion c l => .callB (definer (unionCls c l)) arg

/-- Whether the name of the type is `bool`.  Models translators/common.py:176-178. -/
def isBool : STy → Bool
  | .cls .bool => true
  | _ => false

/-- The part of `to_bool` for references.  Models translators/common.py:170-188. -/
def refToBool (e : E) (node : Option STy) : E :=
  match e with
  | .boxB b => b
  | e =>
    match node with
    | some t => if isBool t then .unboxB e else callBool t e
    | none => .unboxB e

/-- Models `to_bool`, translators/common.py:156-188. -/
def toBool (e : E) (node : Option STy) : E :=
  if isPure' e then
    match e.typ with
    | .bool => e
    | .ref => refToBool e node
    | .int => refToBool (toRef e) node
  else e

/-- The part of `to_int` for references.  Models translators/common.py:205-219. -/
def refToInt (e : E) : E :=
  match e with
  | .boxI i => i
  | e => .unboxI e

/-- Models `to_int`, translators/common.py:190-219. -/
def toInt (e : E) : E :=
  if isPure' e then
    match e.typ with
    | .int => e
    | .ref => refToInt e
    | .bool => refToInt (toRef e)
  else e

end Nagini.Truth
