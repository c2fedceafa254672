import Verif.Model.Truth

/-!
The values of Viper expressions, and truth values and numbers in Python.
-/
set_option linter.unusedVariables false
namespace Nagini.Truth

/-- Values of Viper expressions. -/
inductive VVal where
  | ref (v : Val)
  | int (i : Int)
  | bool (b : Bool)
deriving DecidableEq

/-- The Python object a Viper value stands for. -/
def VVal.obj : VVal → Val
  | .ref v => v
  | .int i => .int i
  | .bool b => .bool b

/-- Assignments of values to variables. -/
structure Env where
  ref : Nat → Val
  int : Nat → Int
  bool : Nat → Bool
  acc : Nat → Bool

/-- Preconditions of `C___bool__`: builtin functions admit `null`, user-defined ones do not; there is no
`range___bool__`, programs that use it are rejected by Viper. -/
def admits (d : Cls) (v : Val) : Bool :=
  match d with
  | .object => true
  | .noneType => true
  | .range => false
  | .user n e s => sub (typeOf v) (.user n e s)
  | d => (v == .none) || sub (typeOf v) d

/-- Evaluation of Viper expressions; `none` if a precondition is violated or the expression is ill-typed. -/
def eval (I : Interp) (ρ : Env) : E → Option VVal
  | .refV x => some (.ref (ρ.ref x))
  | .intV x => some (.int (ρ.int x))
  | .boolV x => some (.bool (ρ.bool x))
  | .acc x => some (.bool (ρ.acc x))
  | .boxI e =>
    match eval I ρ e with
    | some (.int i) => some (.ref (.int i))
    | _ => none
  | .unboxI e =>
    match eval I ρ e with
    | some (.ref v) => if sub (typeOf v) .int then some (.int (payload v)) else none
    | _ => none
  | .boxB e =>
    match eval I ρ e with
    | some (.bool b) => some (.ref (.bool b))
    | _ => none
  | .unboxB e =>
    match eval I ρ e with
    | some (.ref v) => if sub (typeOf v) .bool then some (.bool (decide (payload v ≠ 0))) else none
    | _ => none
  | .callB d e =>
    match eval I ρ e with
    | some (.ref v) => if admits d v then some (.bool (I d v)) else none
    | _ => none
  | .ite c a t f =>
    match eval I ρ a with
    | some (.ref v) => if sub (typeOf v) c then eval I ρ t else eval I ρ f
    | _ => none
  | .add l r =>
    match eval I ρ l, eval I ρ r with
    | some (.int i), some (.int j) => some (.int (i + j))
    | _, _ => none
  | .and l r =>
    match eval I ρ l with
    | some (.bool true) => eval I ρ r
    | some (.bool false) => some (.bool false)
    | _ => none
  | .or l r =>
    match eval I ρ l with
    | some (.bool true) => some (.bool true)
    | some (.bool false) => eval I ρ r
    | _ => none

/-- Classes whose instances have a `__bool__` of their own in Python. -/
def pyHasBool : Cls → Bool
  | .noneType | .float | .int | .bool => true
  | .user _ d _ => d.boolDef.isSome
  | _ => false

/-- Classes that declare `__len__` in Python. -/
def pyHasLen : Cls → Bool
  | .list | .set | .dict | .bytearray | .str | .bytes | .tuple | .range => true
  | .user _ d _ => d.lenDef
  | _ => false

/-- The truth value of an object in Python: the result of `__bool__`, looked up in the class of the object; without
such a method, whether `__len__` is not zero; without such a method, true. -/
def pyTruth (W : World) (v : Val) : Bool :=
  match (mro (typeOf v)).find? pyHasBool with
  | some (.user n _ _) => W.ub n v
  | some .noneType => false
  | some _ => decide (payload v ≠ 0)
  | none =>
    match (mro (typeOf v)).find? pyHasLen with
    | some (.user n _ _) => decide (W.ul n v ≠ 0)
    | some _ => decide (payload v ≠ 0)
    | none => true

/-- Numbers and mutable builtin collections. -/
def NumOrMutable (c : Cls) : Prop := ∃ d ∈ [Cls.float, .list, .set, .dict, .bytearray], d ∈ mro c

/-- The objects of a static type. -/
def HasType (v : Val) : STy → Prop
  | .cls c => sub (typeOf v) c = true
  | .opt c => v = .none ∨ sub (typeOf v) c = true
  | .union c l => ∃ d ∈ c :: l, sub (typeOf v) d = true
  | .optUnion c l => v = .none ∨ ∃ d ∈ c :: l, sub (typeOf v) d = true

/-- Objects that exist: numbers, booleans and `None` have no other representation, and their classes except `int`
cannot be extended. -/
def Val.ok : Val → Prop
  | .obj _ c _ => c ≠ .int ∧ sub c .bool = false ∧ sub c .noneType = false ∧ accepted c = true
  | _ => True

/-- Classes of static types are accepted; unions are tested in an order in which subclasses come first, as
`toposort_classes` orders them. -/
def STy.ok : STy → Prop
  | .cls c => accepted c = true
  | .opt c => accepted c = true
  | .union c l => (∀ d ∈ c :: l, accepted d = true) ∧ (c :: l).Pairwise (fun a b => sub b a = true → b = a)
  | .optUnion c l => ∀ d ∈ c :: l, accepted d = true

/-- The class whose `__bool__` is used for an object of a static type: the first matching option of a union (the last
one if none matches), or the class itself. -/
def pickL (v : Val) : Cls → List Cls → Cls
  | c, [] => c
  | c, d :: l => if sub (typeOf v) c then c else pickL v d l

/-- The same for all static types; for optional unions it is the common superclass. -/
def pick (v : Val) : STy → Cls
  | .cls c => c
  | .opt c => c
  | .union c l => pickL v c l
  | .optUnion c l => unionCls c l

/-- Well-typed expressions. -/
def E.wt : E → Prop
  | .refV _ | .intV _ | .boolV _ | .acc _ => True
  | .boxI e => e.typ = .int ∧ e.wt
  | .unboxI e => e.typ = .ref ∧ e.wt
  | .boxB e => e.typ = .bool ∧ e.wt
  | .unboxB e => e.typ = .ref ∧ e.wt
  | .callB _ e => e.typ = .ref ∧ e.wt
  | .ite _ a t f => a.typ = .ref ∧ t.typ = f.typ ∧ a.wt ∧ t.wt ∧ f.wt
  | .add l r => l.typ = .int ∧ r.typ = .int ∧ l.wt ∧ r.wt
  | .and l r | .or l r => l.typ = .bool ∧ r.typ = .bool ∧ l.wt ∧ r.wt

/-- Equality of objects in Python, for numbers and booleans; other objects are compared by identity. -/
def PyEq (a b : Val) : Prop :=
  a = b ∨ (sub (typeOf a) .int = true ∧ sub (typeOf b) .int = true ∧ payload a = payload b)

end Nagini.Truth
