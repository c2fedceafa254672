/-!
Model of the static types of expressions, lib/resolver.py `_do_get_type`, for constants, variables,
displays, subscripts, slices, conditional and boolean expressions, comparisons, calls and iteration.
The types of binary operations are modelled in `Ops`, common supertypes in `Generics`.
-/
namespace Nagini.ExprTypes

/-- Collections with one type argument.  Models the names compared in lib/resolver.py:605-620. -/
inductive Kind
  | list | set | pseq | pset | pms
  deriving DecidableEq

/-- Types: a class, `Tuple[A, B]`, `Tuple[A, ...]`, a collection, a dictionary, `Optional[A]`; other
unions are not modelled.  Models `PythonClass`, `GenericType` and `OptionalType`,
lib/program_nodes.py:387-420, 781-794, 975-985. -/
inductive Ty
  | cls (c : Nat)
  | tup (args : List Ty)
  | vtup (arg : Ty)
  | coll (k : Kind) (arg : Ty)
  | dict (key val : Ty)
  | opt (arg : Ty)

/-- Number of the class `int`.  Models `INT_TYPE`, lib/constants.py:302-355. -/
abbrev intC : Nat := 1
/-- Number of the class `bool`.  Models `BOOL_TYPE`, lib/constants.py:302-355. -/
abbrev boolC : Nat := 2
/-- Number of the class `NoneType`.  Models lib/resolver.py:297. -/
abbrev noneC : Nat := 3
/-- Number of the class `str`.  Models `STRING_TYPE`, lib/constants.py:302-355. -/
abbrev strC : Nat := 4
/-- Number of the class `bytes`.  Models `BYTES_TYPE`, lib/constants.py:302-355. -/
abbrev bytesC : Nat := 5
/-- Number of the class `bytearray`.  Models `BYTEARRAY_TYPE`, lib/constants.py:302-355. -/
abbrev bytearrayC : Nat := 6
/-- Number of the class `range`.  Models `RANGE_TYPE`, lib/constants.py:302-355. -/
abbrev rangeC : Nat := 7
/-- Number of the class `PByteSeq`.  Models `PBYTESEQ_TYPE`, lib/constants.py:302-355. -/
abbrev pbytesC : Nat := 8
/-- Number of the class `object`.  Models `OBJECT_TYPE`, lib/constants.py:302-355. -/
abbrev objC : Nat := 0

/-- Constants.  Models the cases of lib/resolver.py:285-301. -/
inductive Const
  | int (n : Int) | bool (b : Bool) | none | str (s : Nat) | bytes (xs : List Int)

/-- Expressions.  `ann` is the type of the target if the expression is the value of an assignment
(`node._parent`).  A subscript has a literal index (also a negated one), the negation of another
expression, or any other expression.  Bounds of slices are natural numbers.
An empty `PSeq()` display is rejected unless assigned
(simplified).  Models the nodes of lib/resolver.py:285-391, 409-576. -/
inductive Exp
  | const (c : Const)
  | var (x : Nat)
  | tuple (es : List Exp)
  | disp (k : Kind) (ann : Option Ty) (es : List Exp)
  | dictDisp (ann : Option Ty) (ks vs : List Exp)
  | subLit (e : Exp) (i : Int)
  | subNeg (e i : Exp)
  | subDyn (e i : Exp)
  | slice (ann : Option Ty) (e : Exp) (lo : Nat) (hi : Option Nat)
  | ifExp (c a b : Exp)
  | boolOp (isAnd : Bool) (e : Exp) (es : List Exp)
  | compare (a b : Exp)
  | not (e : Exp)
  | len (e : Exp)
  | call (f : Nat) (es : List Exp)
  | dictGet (e k : Exp)
  | takeOrDrop (drop : Bool) (e : Exp) (n : Nat)
  | enumerate (e : Exp)
  | toSeq (e : Exp)
  | toMS (e : Exp)

/-- What is used of the program: `pairwise_supertype`, the result types of functions, and the result
type of `__getitem__` of a class.  Models lib/resolver.py:537-539, 621-622, 653-665. -/
structure Prog where
  lub : Ty → Ty → Option Ty
  ret : Nat → Option Ty
  getitem : Nat → Option Ty

variable (P : Prog)

/-- The loop of `common_supertype`.  Models lib/resolver.py:647-650. -/
def commonFrom (cur : Ty) : List Ty → Option Ty
  | [] => some cur
  | t :: ts =>
    match P.lub cur t with
    | some s => commonFrom s ts
    | none => none

/-- `common_supertype`; the assertion that the list is not empty may fail.
Models lib/resolver.py:639-650. -/
def common : List Ty → Option Ty
  | [] => none
  | t :: ts => commonFrom P t ts

/-- The argument `node` of `_get_subscript_type`: a subscript with a literal, a negation or another
expression, or no subscript.  Models lib/resolver.py:585-604. -/
inductive Index
  | lit (i : Int) | neg | dyn | iter

/-- Indexing a Python list; an `IndexError` is `none`.  Models lib/resolver.py:600. -/
def pyIndex {α : Type} (xs : List α) (i : Int) : Option α :=
  if 0 ≤ i then xs[i.toNat]?
  else if 0 ≤ xs.length + i then xs[(xs.length + i).toNat]?
  else none

/-- The type of an element of a tuple.  Models lib/resolver.py:584-604. -/
def tupleTy (args : List Ty) : Index → Option Ty
  | .iter => common P args
  | ix =>
    match args with
    | [a] => some a
    | _ =>
      match ix with
      | .lit i => pyIndex args i
      | .neg => none
      | _ => common P args

/-- `_get_subscript_type` after the case of optional types; exceptions are `none`.
Models lib/resolver.py:584-624. -/
def plainSubTy (t : Ty) (ix : Index) : Option Ty :=
  match t with
  | .tup args => tupleTy P args ix
  | .vtup a => tupleTy P [a] ix
  | .coll _ a => some a
  | .dict _ v => some v
  | .cls c => if c = rangeC ∨ c = bytesC ∨ c = bytearrayC ∨ c = pbytesC then some (.cls intC) else P.getitem c
  | .opt _ => none

/-- `_get_subscript_type`.  Models lib/resolver.py:580-624. -/
def subTy (t : Ty) (ix : Index) : Option Ty :=
  match t with
  | .opt a => plainSubTy P a ix
  | t => plainSubTy P t ix

/-- `_get_iteration_type`: the name of an optional type is `Union`.  Models lib/resolver.py:627-636. -/
def iterTy (t : Ty) : Option Ty :=
  match t with
  | .dict k _ => some k
  | t => subTy P t .iter

/-- Whether the class of a type is `tuple`.  Models lib/resolver.py:566. -/
def isTuple : Ty → Bool
  | .tup _ => true
  | .vtup _ => true
  | .opt (.tup _) => true
  | .opt (.vtup _) => true
  | _ => false

/-- The type of a slice.  Models lib/resolver.py:562-577. -/
def sliceTy (ann : Option Ty) (t : Ty) : Option Ty :=
  if isTuple t then
    match ann with
    | some (.tup as) => some (.tup as)
    | some (.vtup a) => some (.vtup a)
    | _ => none
  else subTy P t .dyn

/-- The type of a display of a list or set from the assigned variable.
Models lib/resolver.py:419-427. -/
def annColl (k : Kind) : Option Ty → Option Ty
  | some (.coll k' a) => if k' = k then some a else none
  | _ => none

/-- The type arguments of a display of a dictionary from the assigned variable.
Models lib/resolver.py:419-427. -/
def annDict : Option Ty → Option (Ty × Ty)
  | some (.dict k v) => some (k, v)
  | _ => none

/-- The types of constants.  Models lib/resolver.py:285-301. -/
def constTy : Const → Ty
  | .int _ => .cls intC
  | .bool _ => .cls boolC
  | .none => .cls noneC
  | .str _ => .cls strC
  | .bytes _ => .cls bytesC

/-- The type of a display of a list or set, given the types of the elements.
Models lib/resolver.py:409-437. -/
def dispTy (k : Kind) (ann : Option Ty) (ts : Option (List Ty)) : Option Ty :=
  match annColl k ann with
  | some a => some (.coll k a)
  | none =>
    match ts with
    | some [] => some (.coll k (.cls objC))
    | some ts => (common P ts).map (.coll k)
    | none => none

/-- The type of a display of a dictionary, given the types of keys and values.
Models lib/resolver.py:409-437. -/
def dictDispTy (ann : Option Ty) (ks vs : Option (List Ty)) : Option Ty :=
  match annDict ann with
  | some (k, v) => some (.dict k v)
  | none =>
    match ks, vs with
    | some [], some _ => some (.dict (.cls objC) (.cls objC))
    | some _, some [] => some (.dict (.cls objC) (.cls objC))
    | some ks, some vs =>
      match common P ks, common P vs with
      | some k, some v => some (.dict k v)
      | _, _ => none
    | _, _ => none

/-- The type of `d.get(k)`: `generic_type` is 1, so the second type argument.
Models lib/resolver.py:221-225 and `dict.get` in resources/builtins.json. -/
def getTy : Ty → Option Ty
  | .dict _ v => some v
  | _ => none

/-- The type of `s.take(n)` and `s.drop(n)`: `generic_type` is -2, so the type of the receiver.
Models lib/resolver.py:221-224 and `PSeq.take` in resources/builtins.json. -/
def takeTy : Ty → Option Ty
  | .coll .pseq a => some (.coll .pseq a)
  | _ => none

mutual
/-- `get_type` of an expression; exceptions are `none`.  Models lib/resolver.py:203-406, 439-560. -/
def typ (env : Nat → Option Ty) : Exp → Option Ty
  | .const c => some (constTy c)
  | .var x => env x
  | .tuple es => (typs env es).map .tup
  | .disp k ann es => dispTy P k ann (typs env es)
  | .dictDisp ann ks vs => dictDispTy P ann (typs env ks) (typs env vs)
  | .subLit e i => (typ env e).bind fun t => subTy P t (.lit i)
  | .subNeg e _ => (typ env e).bind fun t => subTy P t .neg
  | .subDyn e _ => (typ env e).bind fun t => subTy P t .dyn
  | .slice ann e _ _ => (typ env e).bind fun t => sliceTy P ann t
  | .ifExp _ a b => (typ env a).bind fun t => (typ env b).bind fun u => P.lub t u
  | .boolOp _ e es => (typ env e).bind fun t => (typs env es).bind fun ts => common P (t :: ts)
  | .compare _ _ => some (.cls boolC)
  | .not _ => some (.cls boolC)
  | .len _ => some (.cls intC)
  | .call f _ => P.ret f
  | .dictGet e _ => (typ env e).bind getTy
  | .takeOrDrop _ e _ => (typ env e).bind takeTy
  | .enumerate e => ((typ env e).bind (iterTy P)).map fun t => .coll .list (.tup [.cls intC, t])
  | .toSeq e => ((typ env e).bind (iterTy P)).map (.coll .pseq)
  | .toMS e => ((typ env e).bind (iterTy P)).map (.coll .pms)
/-- `get_type` of several expressions.  Models lib/resolver.py:310, 326-327, 431-433. -/
def typs (env : Nat → Option Ty) : List Exp → Option (List Ty)
  | [] => some []
  | e :: es => (typ env e).bind fun t => (typs env es).map fun ts => t :: ts
end

/-- The type that the translation of `enumerate(e)` assumes for the elements of `e`:
`result_type.type_args[0].type_args[1]`.  Models translators/call.py:542, 569-570. -/
def assumedTy (env : Nat → Option Ty) (e : Exp) : Option Ty :=
  match typ P env (.enumerate e) with
  | some (.coll _ (.tup [_, t])) => some t
  | _ => none

end Nagini.ExprTypes
