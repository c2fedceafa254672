import Verif.Model.ExprTypes

/-!
Python values, their types, and the values of expressions.
-/
namespace Nagini.ExprTypes

/-- Sequences of integers: bytes, bytearrays, ranges and `PByteSeq`s. -/
inductive IntsKind
  | bytes | bytearray | range | pbytes

/-- Values.  `ints` are the immutable and mutable sequences of integers, with their kind. -/
inductive Val
  | int (n : Int)
  | bool (b : Bool)
  | none
  | str (s : Nat)
  | ints (c : IntsKind) (xs : List Int)
  | tup (vs : List Val)
  | coll (k : Kind) (vs : List Val)
  | dict (ks vs : List Val)
  | obj (c : Nat) (id : Nat)

/-- Numbers of the classes of collections. -/
def kindC : Kind → Nat
  | .list => 10 | .set => 11 | .pseq => 12 | .pset => 13 | .pms => 14

/-- Numbers of the classes of sequences of integers. -/
def intsC : IntsKind → Nat
  | .bytes => 5 | .bytearray => 6 | .range => 7 | .pbytes => 8

/-- The class of a value; the classes of other objects have numbers from 20. -/
def clsOf : Val → Nat
  | .int _ => 1
  | .bool _ => 2
  | .none => 3
  | .str _ => 4
  | .ints c _ => intsC c
  | .tup _ => 15
  | .coll k _ => kindC k
  | .dict _ _ => 16
  | .obj c _ => 20 + c

/-- The value has the type; `sub c d` says that `c` is a subclass of `d`. -/
inductive Has (sub : Nat → Nat → Prop) : Val → Ty → Prop
  | cls {v : Val} {c : Nat} : sub (clsOf v) c → Has sub v (.cls c)
  | tup {vs : List Val} {ts : List Ty} : vs.length = ts.length →
      (∀ (i : Nat) v t, vs[i]? = some v → ts[i]? = some t → Has sub v t) → Has sub (.tup vs) (.tup ts)
  | vtup {vs : List Val} {t : Ty} : (∀ v ∈ vs, Has sub v t) → Has sub (.tup vs) (.vtup t)
  | coll {k : Kind} {vs : List Val} {t : Ty} : (∀ v ∈ vs, Has sub v t) → Has sub (.coll k vs) (.coll k t)
  | dict {ks vs : List Val} {k v : Ty} : (∀ x ∈ ks, Has sub x k) → (∀ x ∈ vs, Has sub x v) →
      Has sub (.dict ks vs) (.dict k v)
  | none {t : Ty} : Has sub .none (.opt t)
  | some {v : Val} {t : Ty} : Has sub v t → Has sub v (.opt t)

/-- What Python does outside of the modelled expressions. -/
structure World where
  truthy : Val → Bool
  same : Val → Val → Bool
  cmp : Val → Val → Option Val
  call : Nat → List Val → Option Val
  getitem : Nat → Nat → Val → Option Val

/-- Elements met when iterating over a value. -/
def elems : Val → Option (List Val)
  | .tup vs => some vs
  | .coll _ vs => some vs
  | .dict ks _ => some ks
  | .ints _ xs => some (xs.map .int)
  | _ => none

/-- `xs[i]` with Python's negative indices. -/
def nth (xs : List Val) (i : Int) : Option Val :=
  if i < 0 then (if xs.length < i.natAbs then none else xs[xs.length - i.natAbs]?) else xs[i.natAbs]?

/-- The value of a key in a dictionary. -/
def find (same : Val → Val → Bool) (k : Val) : List Val → List Val → Option Val
  | a :: ks, v :: vs => if same a k then some v else find same k ks vs
  | _, _ => none

/-- `v[i]`. -/
def index (W : World) (v i : Val) : Option Val :=
  match v, i with
  | .tup vs, .int n => nth vs n
  | .coll .list vs, .int n => nth vs n
  | .coll .pseq vs, .int n => nth vs n
  | .ints _ xs, .int n => nth (xs.map .int) n
  | .dict ks vs, k => find W.same k ks vs
  | .obj c id, k => W.getitem c id k
  | _, _ => none

/-- The part of a list between two bounds. -/
def part {α : Type} (xs : List α) (lo : Nat) (hi : Option Nat) : List α :=
  (match hi with | some h => xs.take h | none => xs).drop lo

/-- `v[lo:hi]`. -/
def slice (v : Val) (lo : Nat) (hi : Option Nat) : Option Val :=
  match v with
  | .tup vs => some (.tup (part vs lo hi))
  | .coll .list vs => some (.coll .list (part vs lo hi))
  | .ints c xs => some (.ints c (part xs lo hi))
  | _ => none

/-- The value of a constant. -/
def constVal : Const → Val
  | .int n => .int n
  | .bool b => .bool b
  | .none => .none
  | .str s => .str s
  | .bytes xs => .ints .bytes xs

/-- `v1 and v2 and ...`, `v1 or v2 or ...` (operands that are not evaluated do not matter for the
value). -/
def chain (W : World) (isAnd : Bool) (v : Val) : List Val → Val
  | [] => v
  | w :: ws => if W.truthy v = isAnd then chain W isAnd w ws else v

/-- `(0, v0), (1, v1), ...`. -/
def numbered (n : Int) : List Val → List Val
  | [] => []
  | v :: vs => .tup [.int n, v] :: numbered (n + 1) vs

/-- `d.get(k)`. -/
def getVal (W : World) (v k : Val) : Option Val :=
  match v with
  | .dict ks vs => some ((find W.same k ks vs).getD .none)
  | _ => none

/-- `s.take(n)` and `s.drop(n)`. -/
def takeDrop (drop : Bool) (v : Val) (n : Nat) : Option Val :=
  match v with
  | .coll .pseq vs => some (.coll .pseq (if drop then vs.drop n else vs.take n))
  | _ => none

mutual
/-- The value of an expression; `none` if an exception is raised. -/
def eval (W : World) (env : Nat → Option Val) : Exp → Option Val
  | .const c => some (constVal c)
  | .var x => env x
  | .tuple es => (evals W env es).map .tup
  | .disp k _ es => (evals W env es).map (.coll k)
  | .dictDisp _ ks vs => (evals W env ks).bind fun a => (evals W env vs).map fun b => .dict a b
  | .subLit e i => (eval W env e).bind fun v => index W v (.int i)
  | .subNeg e i => (eval W env e).bind fun v => (eval W env i).bind fun k => index W v k
  | .subDyn e i => (eval W env e).bind fun v => (eval W env i).bind fun k => index W v k
  | .slice _ e lo hi => (eval W env e).bind fun v => slice v lo hi
  | .ifExp c a b => (eval W env c).bind fun v => if W.truthy v then eval W env a else eval W env b
  | .boolOp isAnd e es => (eval W env e).bind fun v => (evals W env es).map fun vs => chain W isAnd v vs
  | .compare a b => (eval W env a).bind fun v => (eval W env b).bind fun w => W.cmp v w
  | .not e => (eval W env e).map fun v => .bool (!W.truthy v)
  | .len e => ((eval W env e).bind elems).map fun vs => .int vs.length
  | .call f es => (evals W env es).bind fun vs => W.call f vs
  | .dictGet e k => (eval W env e).bind fun v => (eval W env k).bind fun x => getVal W v x
  | .takeOrDrop d e n => (eval W env e).bind fun v => takeDrop d v n
  | .enumerate e => ((eval W env e).bind elems).map fun vs => .coll .list (numbered 0 vs)
  | .toSeq e => ((eval W env e).bind elems).map (.coll .pseq)
  | .toMS e => ((eval W env e).bind elems).map (.coll .pms)
/-- The values of several expressions. -/
def evals (W : World) (env : Nat → Option Val) : List Exp → Option (List Val)
  | [] => some []
  | e :: es => (eval W env e).bind fun v => (evals W env es).map fun vs => v :: vs
end

/-- The element types given by an assigned variable are types of the elements: what mypy accepts, and
what the translation of displays checks. -/
def AnnOk (sub : Nat → Nat → Prop) (W : World) (env : Nat → Option Val) : Exp → Prop
  | .disp k (.some (.coll k' t)) es => k' = k → ∀ vs, evals W env es = some vs → ∀ v ∈ vs, Has sub v t
  | .dictDisp (.some (.dict k v)) ks vs =>
      (∀ xs, evals W env ks = some xs → ∀ x ∈ xs, Has sub x k) ∧
      (∀ xs, evals W env vs = some xs → ∀ x ∈ xs, Has sub x v)
  | .slice (.some t) e lo hi => ∀ v, eval W env (.slice (.some t) e lo hi) = some v → isTuple t → Has sub v t
  | _ => True

mutual
/-- A property holds of an expression and of its parts. -/
def Everywhere (p : Exp → Prop) : Exp → Prop
  | .const c => p (.const c)
  | .var x => p (.var x)
  | .tuple es => p (.tuple es) ∧ EverywhereL p es
  | .disp k a es => p (.disp k a es) ∧ EverywhereL p es
  | .dictDisp a ks vs => p (.dictDisp a ks vs) ∧ EverywhereL p ks ∧ EverywhereL p vs
  | .subLit e i => p (.subLit e i) ∧ Everywhere p e
  | .subNeg e i => p (.subNeg e i) ∧ Everywhere p e ∧ Everywhere p i
  | .subDyn e i => p (.subDyn e i) ∧ Everywhere p e ∧ Everywhere p i
  | .slice a e lo hi => p (.slice a e lo hi) ∧ Everywhere p e
  | .ifExp c a b => p (.ifExp c a b) ∧ Everywhere p c ∧ Everywhere p a ∧ Everywhere p b
  | .boolOp i e es => p (.boolOp i e es) ∧ Everywhere p e ∧ EverywhereL p es
  | .compare a b => p (.compare a b) ∧ Everywhere p a ∧ Everywhere p b
  | .not e => p (.not e) ∧ Everywhere p e
  | .len e => p (.len e) ∧ Everywhere p e
  | .call f es => p (.call f es) ∧ EverywhereL p es
  | .dictGet e k => p (.dictGet e k) ∧ Everywhere p e ∧ Everywhere p k
  | .takeOrDrop d e n => p (.takeOrDrop d e n) ∧ Everywhere p e
  | .enumerate e => p (.enumerate e) ∧ Everywhere p e
  | .toSeq e => p (.toSeq e) ∧ Everywhere p e
  | .toMS e => p (.toMS e) ∧ Everywhere p e
/-- A property holds of several expressions and of their parts. -/
def EverywhereL (p : Exp → Prop) : List Exp → Prop
  | [] => True
  | e :: es => Everywhere p e ∧ EverywhereL p es
end

/-- Subclassing is reflexive, nothing inherits from builtin sequences, builtin classes do not inherit
from classes with a `__getitem__` of their own, supertypes contain the values of both types, and
functions return values of their result types. -/
structure Sound (sub : Nat → Nat → Prop) (P : Prog) (W : World) : Prop where
  refl : ∀ c, sub c c
  lub : ∀ a b s v, P.lub a b = some s → Has sub v a ∨ Has sub v b → Has sub v s
  ret : ∀ f t vs v, P.ret f = some t → W.call f vs = some v → Has sub v t
  getitem : ∀ c d t id k v, P.getitem d = some t → sub (20 + c) d → W.getitem c id k = some v → Has sub v t
  builtin : ∀ v d t, P.getitem d = some t → sub (clsOf v) d → ∃ c id, v = .obj c id
  ints : ∀ v d, (d = 5 ∨ d = 6 ∨ d = 7 ∨ d = 8) → sub (clsOf v) d → ∃ c xs, v = .ints c xs

/-- Variables hold values of their types. -/
def EnvOk (sub : Nat → Nat → Prop) (tenv : Nat → Option Ty) (venv : Nat → Option Val) : Prop :=
  ∀ x t v, tenv x = some t → venv x = some v → Has sub v t

end Nagini.ExprTypes
