/-!
Model of the translation of bodies of pure functions, translators/pure.py.

Names of variables are numbers.  Expressions are literals, variables and operators (calls of other
pure functions included); everything the translation of expressions does apart from renaming variables
and checking that they are defined is left to other modules.  Boxing is not modelled.
-/
namespace Nagini.Pure

/-- Values: `None`, truth values, integers, other objects.  Models the Viper types of dummies and
values, translators/pure.py:374-386. -/
inductive Val
  | none
  | bool (b : Bool)
  | int (i : Int)
  | obj (n : Nat)
deriving DecidableEq, Inhabited

/-- Expressions of a body.  Models the nodes handed to `translate_expr`, translators/pure.py:504. -/
inductive Expr
  | lit (v : Val)
  | var (x : Nat)
  | op (f : Nat) (args : List Expr)

/-- Operators of augmented assignments.  Models translators/pure.py:472-480. -/
inductive AugOp
  | add | sub | mul

/-- Patterns: a value, singleton or class pattern (by number), `_`, a name, `p as x`, `p | q`.
Models the patterns of translators/statement.py:1190-1280 (class patterns with arguments are rejected
in pure functions, translators/pure.py:281-284; an or-pattern with more alternatives is nested). -/
inductive Pat
  | leaf (k : Nat)
  | wild
  | capture (x : Nat)
  | as (p : Pat) (x : Nat)
  | or (p q : Pat)

mutual
/-- Statements of a body.  Models the methods `translate_pure_*`, translators/pure.py:148-271 (`pure`
bodies contain no other statements; annotated assignments are assignments). -/
inductive Stmt
  | assign (x : Nat) (e : Expr)
  | aug (x : Nat) (o : AugOp) (e : Expr)
  | ite (t : Expr) (th el : Block)
  | ret (e : Expr)
  | assert (e : Expr)
  | unfold (p : Expr)
  | mtch (e : Expr) (cs : Cases)
  | doc
/-- Lists of statements.  Models translators/pure.py:180-185. -/
inductive Block
  | nil
  | cons (s : Stmt) (b : Block)
/-- Cases: pattern, guard, body.  Models translators/pure.py:245-269. -/
inductive Cases
  | nil
  | cons (p : Pat) (g : Option Expr) (b : Block) (cs : Cases)
end

/-- Keys of the dictionaries of names: Python names, and Viper names of temporary variables (which
differ from all Python names, see module Names).  Models `AssignWrapper.name`,
translators/pure.py:31-45, 176, 240, 254. -/
inductive Key
  | user (x : Nat)
  | tmp (t : Nat)
deriving DecidableEq

/-- A condition of a wrapper: a temporary variable or its negation.  Models `CondWrapper`,
`NotWrapper`, translators/pure.py:86-101. -/
inductive Cond
  | pos (t : Nat)
  | neg (t : Nat)

/-- The right-hand side of an assignment.  Models `AssignWrapper.expr` with `BinOpWrapper`,
`MatchPatternExpr`, `SubjectVarRef`, translators/pure.py:104-136. -/
inductive Rhs
  | expr (e : Expr)
  | bin (o : AugOp) (e : Expr)
  | pat (subj : Nat) (p : Pat) (g : Option Expr) (aliases : List Nat)
  | subj (t : Nat)

/-- Wrappers.  `isBool` is set for variables of the Viper type Bool.  Models `AssignWrapper`,
`ReturnWrapper`, `UnfoldWrapper`, `AssertWrapper`, translators/pure.py:31-83. -/
inductive Wrapper
  | assign (k : Key) (isBool : Bool) (conds : List Cond) (rhs : Rhs)
  | ret (conds : List Cond) (e : Expr)
  | unfold (conds : List Cond) (p : Expr)
  | assert (conds : List Cond) (e : Expr)

/-- The names a pattern binds, as far as they are found: or-patterns are not searched.
Models `_collect_pure_match_captures` and `_collect_match_guard_capture_names`,
translators/pure.py:273-297. -/
def captures : Pat → List Nat
  | .capture x => [x]
  | .as p x => x :: captures p
  | _ => []

mutual
/-- Wrappers of a statement; the number is that of the next temporary variable.
Models `translate_pure_*`, translators/pure.py:148-271. -/
def wrapStmt (n : Nat) (conds : List Cond) : Stmt → List Wrapper × Nat
  | .assign x e => ([.assign (.user x) false conds (.expr e)], n)
  | .aug x o e => ([.assign (.user x) false conds (.bin o e)], n)
  | .ite t th el =>
    let a := wrapBlock (n + 1) (conds ++ [.pos n]) th
    let b := wrapBlock a.2 (conds ++ [.neg n]) el
    (.assign (.tmp n) true conds (.expr t) :: (a.1 ++ b.1), b.2)
  | .ret e => ([.ret conds e], n)
  | .assert e => ([.assert conds e], n)
  | .unfold p => ([.unfold conds p], n)
  | .mtch e cs =>
    let a := wrapCases (n + 1) n conds cs
    (.assign (.tmp n) false conds (.expr e) :: a.1, a.2)
  | .doc => ([], n)
/-- Wrappers of a list of statements.  Models `flatten` of the results, translators/pure.py:180-185,
526-528. -/
def wrapBlock (n : Nat) (conds : List Cond) : Block → List Wrapper × Nat
  | .nil => ([], n)
  | .cons s b =>
    let a := wrapStmt n conds s
    let c := wrapBlock a.2 conds b
    (a.1 ++ c.1, c.2)
/-- Wrappers of the cases of a match statement with the given subject.  Models
translators/pure.py:245-271. -/
def wrapCases (n : Nat) (subj : Nat) (conds : List Cond) : Cases → List Wrapper × Nat
  | .nil => ([], n)
  | .cons p g b cs =>
    let caps := captures p
    let aliases := if g.isSome then caps else []
    let body := wrapBlock (n + 1) (conds ++ [.pos n]) b
    let rest := wrapCases body.2 subj (conds ++ [.neg n]) cs
    (.assign (.tmp n) true conds (.pat subj p g aliases) ::
      (caps.map (fun x => .assign (.user x) false (conds ++ [.pos n]) (.subj subj)) ++ (body.1 ++ rest.1)), rest.2)
end

/-- A Viper variable standing for a Python name: its number and the name it was created for.
Models the entries of `names`, translators/pure.py:42, 544-547. -/
structure Var where
  idx : Nat
  name : Key
deriving DecidableEq

/-- The dictionary of names of a wrapper.  Models `names`, translators/pure.py:42, 537-547. -/
abbrev Names := Key → Option Var

/-- A changed entry.  Models `update`, translators/pure.py:540-542. -/
def Names.set (names : Names) (k : Key) (v : Var) : Names := fun k' => if k' = k then some v else names k'

/-- Viper expressions.  Models the nodes built in translators/pure.py:299-512, 583-612. -/
inductive VExpr
  | lit (v : Val)
  | param (x : Nat)
  | ssa (i : Nat)
  | undeclared
  | op (f : Nat) (args : List VExpr)
  | checkDefined (e : VExpr) (x : Nat)
  | assuming (e : VExpr) (x : Nat)
  | unbox (e : VExpr)
  | truth (e : VExpr)
  | leaf (k : Nat) (e : VExpr)
  | arith (o : AugOp) (a b : VExpr)
  | and (a b : VExpr)
  | or (a b : VExpr)
  | not (a : VExpr)
  | cond (c a b : VExpr)
  | letE (i : Nat) (e b : VExpr)
  | asserting (a b : VExpr)
  | unfolding (p b : VExpr)

/-- Exceptions of the translation.  Models translators/pure.py:331-333, 356-359, 468. -/
inductive Err
  | deadCode | returnMissing | keyError
deriving DecidableEq

/-- The translation of a variable: the current Viper variable, checked to be defined if the name is
that of a local variable.  A local variable without assignment before is not declared in Viper.
Models `translate_Name`, translators/expression.py:969-997, and `is_local_variable`,
translators/common.py:266-276. -/
def trVar (isLocal : Nat → Bool) (names : Names) (x : Nat) : VExpr :=
  match names (.user x) with
  | some v => if isLocal x && v.name = .user x then .checkDefined (.ssa v.idx) x else .ssa v.idx
  | none => if isLocal x then .undeclared else .param x

mutual
/-- The translation of an expression.  Models `translate_expr` (see the head of the file),
translators/pure.py:504. -/
def trExpr (isLocal : Nat → Bool) (names : Names) : Expr → VExpr
  | .lit v => .lit v
  | .var x => trVar isLocal names x
  | .op f args => .op f (trExprs isLocal names args)
/-- The translation of arguments.  Models translators/pure.py:504. -/
def trExprs (isLocal : Nat → Bool) (names : Names) : List Expr → List VExpr
  | [] => []
  | e :: es => trExpr isLocal names e :: trExprs isLocal names es
end

/-- The reference to a temporary variable (there always is one).
Models translators/pure.py:482, 485, 593, 599. -/
def trTmp (names : Names) (t : Nat) : VExpr :=
  match names (.tmp t) with
  | some v => .ssa v.idx
  | none => .undeclared

/-- The condition for a pattern.  Models `_translate_match_pattern_cond`,
translators/statement.py:1190-1280. -/
def trPat (subj : VExpr) : Pat → VExpr
  | .leaf k => .leaf k subj
  | .wild => .lit (.bool true)
  | .capture _ => .lit (.bool true)
  | .as p _ => trPat subj p
  | .or p q => .or (trPat subj p) (trPat subj q)

/-- Names in the guard: captured names stand for the subject.  Models translators/pure.py:492-495. -/
def guardNames (names : Names) (subj : Nat) : List Nat → Names
  | [] => names
  | x :: xs =>
    match names (.tmp subj) with
    | some v => (guardNames names subj xs).set (.user x) v
    | none => guardNames names subj xs

/-- The value of an assignment.  Models `_translate_wrapper_expr`, translators/pure.py:461-508. -/
def trRhs (isLocal : Nat → Bool) (names : Names) (k : Key) : Rhs → Except Err VExpr
  | .expr e => .ok (trExpr isLocal names e)
  | .bin o e =>
    match names k with
    | some v => .ok (.arith o (.ssa v.idx) (trExpr isLocal names e))
    | none => .error .keyError
  | .subj t => .ok (trTmp names t)
  | .pat subj p g aliases =>
    let c := trPat (trTmp names subj) p
    match g with
    | none => .ok c
    | some g => .ok (.and c (.truth (trExpr isLocal (guardNames names subj aliases) g)))

/-- The conjunction of conditions.  Models `_translate_condition`, translators/pure.py:583-612. -/
def trConds (names : Names) (conds : List Cond) : VExpr :=
  conds.foldl (fun prev c =>
    match c with
    | .pos t => .and prev (trTmp names t)
    | .neg t => .and prev (.not (trTmp names t))) (.lit (.bool true))

/-- Conversion to the type of the variable: without the node, a reference is converted to Bool by
unboxing it; patterns are Bool already.  Models `to_type`, translators/common.py:117-124, 155-190, and
translators/pure.py:354. -/
def convert (isBool : Bool) (rhs : Rhs) (v : VExpr) : VExpr :=
  match isBool, rhs with
  | true, .expr _ => .unbox v
  | _, _ => v

/-- The fact that a variable is defined, for variables of the program.
Models translators/pure.py:336-346, 355-356. -/
def assumeDefined (k : Key) (v : VExpr) : VExpr :=
  match k with
  | .user x => .assuming v x
  | .tmp _ => v

/-- The value of a variable that is assigned to conditionally if the condition is false.
Models translators/pure.py:363-387. -/
def oldValue (names : Names) (k : Key) (isBool : Bool) : VExpr :=
  match names k with
  | some v => .ssa v.idx
  | none => .lit (if isBool then .bool false else .none)

/-- One wrapper in front of the expression for the later ones.  Models `_translate_wrapper`,
translators/pure.py:299-334, 348-393, 395-459, 510-524. -/
def trWrapper (isLocal : Nat → Bool) (names : Names) (i : Nat) (prev : Option VExpr) :
    Wrapper → Except Err VExpr
  | .ret conds e =>
    let val := trExpr isLocal names e
    if conds.isEmpty then
      match prev with
      | some _ => .error .deadCode
      | none => .ok val
    else
      match prev with
      | some p => .ok (.cond (trConds names conds) val p)
      | none => .ok (.cond (trConds names conds) val (.asserting (.lit (.bool false)) (.lit .none)))
  | .assign k isBool conds rhs =>
    match trRhs isLocal names k rhs with
    | .error e => .error e
    | .ok v =>
      let val := assumeDefined k (convert isBool rhs v)
      match prev with
      | none => .error .returnMissing
      | some p =>
        if conds.isEmpty then .ok (.letE i val p)
        else .ok (.letE i (.cond (trConds names conds) val (oldValue names k isBool)) p)
  | .unfold conds q =>
    match prev with
    | none => .error .returnMissing
    | some p =>
      let u := VExpr.unfolding (trExpr isLocal names q) p
      if conds.isEmpty then .ok u else .ok (.cond (trConds names conds) u p)
  | .assert conds a =>
    match prev with
    | none => .error .returnMissing
    | some p =>
      let u := VExpr.asserting (.truth (trExpr isLocal names a)) p
      if conds.isEmpty then .ok u else .ok (.cond (trConds names conds) u p)

/-- The names after a wrapper with number `i`.  Models `_collect_names`, translators/pure.py:530-550. -/
def nextNames (names : Names) (i : Nat) : Wrapper → Names
  | .assign k _ _ _ => names.set k ⟨i, k⟩
  | _ => names

/-- All wrappers, from the last one to the first.  The number of a wrapper serves as the name of its
new variable.  Models `translate_exprs`, translators/pure.py:558-581, 530-550. -/
def trWrappers (isLocal : Nat → Bool) : Nat → Names → List Wrapper → Except Err (Option VExpr)
  | _, _, [] => .ok none
  | i, names, w :: ws =>
    match trWrappers isLocal (i + 1) (nextNames names i w) ws with
    | .error e => .error e
    | .ok prev =>
      match trWrapper isLocal names i prev w with
      | .error e => .error e
      | .ok v => .ok (some v)

/-- The body of the Viper function; `none` is an abstract function.  Models `translate_exprs`,
translators/pure.py:558-581. -/
def translate (isLocal : Nat → Bool) (b : Block) : Except Err (Option VExpr) :=
  trWrappers isLocal 0 (fun _ => none) (wrapBlock 0 [] b).1

/-! Values of Viper expressions -/

/-- What the operators, truth values, patterns and predicates mean in Viper.  An operator may fail, may
depend on the unfolded predicates and may establish facts about defined names (the bodies of pure
functions do).  Models the interface to the other functions, translators/pure.py:336-346. -/
structure Interp where
  op : Nat → List Val → List Val → Option (Val × List Nat)
  truth : Val → Option Bool
  leaf : Nat → Val → Bool
  held : Val → Bool

/-- The integer of a value.  Models `int___unbox__`, resources/bool.sil:303-308. -/
def toInt : Val → Option Int
  | .int i => some i
  | .bool b => some (if b then 1 else 0)
  | _ => none

/-- Arithmetic.  Models translators/pure.py:472-480. -/
def arith (o : AugOp) (a b : Val) : Option Val :=
  match toInt a, toInt b with
  | some i, some j =>
    some (.int (match o with
      | .add => i + j
      | .sub => i - j
      | .mul => i * j))
  | _, _ => none

/-- The truth value of a boolean.  Models `bool___unbox__`, resources/bool.sil:316-319. -/
def unbox : Val → Option Bool
  | .bool b => some b
  | _ => none

mutual
/-- Value of an expression for arguments `args`, let-bound variables `ρ`, unfolded predicates `U` and
facts `D` about defined names; `none` if it is not well-defined, that is, rejected by the verifier.
Facts found out on the way are available later.  Models the meaning of Viper expressions, of
`_checkDefined` (translators/program.py:621-638), `_assuming` (translators/program.py:656-669) and
`asserting`, which are the functions used in translators/pure.py. -/
def eval (I : Interp) (args : Nat → Val) (U : List Val) (ρ : Nat → Option Val) (D : List Nat) :
    VExpr → Option (Val × List Nat)
  | .lit v => some (v, D)
  | .param x => some (args x, D)
  | .ssa i => (ρ i).map (·, D)
  | .undeclared => none
  | .op f es =>
    (evalList I args U ρ D es).bind fun r =>
      (I.op f r.1 U).map fun s => (s.1, r.2 ++ s.2)
  | .checkDefined e x => (eval I args U ρ D e).bind fun r => if x ∈ r.2 then some r else none
  | .assuming e x => (eval I args U ρ D e).map fun r => (r.1, r.2 ++ [x])
  | .unbox e => (eval I args U ρ D e).bind fun r => (unbox r.1).map fun b => (.bool b, r.2)
  | .truth e => (eval I args U ρ D e).bind fun r => (I.truth r.1).map fun b => (.bool b, r.2)
  | .leaf k e => (eval I args U ρ D e).map fun r => (.bool (I.leaf k r.1), r.2)
  | .arith o a b =>
    (eval I args U ρ D a).bind fun r => (eval I args U ρ r.2 b).bind fun s => (arith o r.1 s.1).map (·, s.2)
  | .and a b =>
    (eval I args U ρ D a).bind fun r =>
      match r.1 with
      | .bool true => (eval I args U ρ r.2 b).bind fun s => (unbox s.1).map fun c => (.bool c, s.2)
      | .bool false => some (.bool false, r.2)
      | _ => none
  | .or a b =>
    (eval I args U ρ D a).bind fun r =>
      match r.1 with
      | .bool false => (eval I args U ρ r.2 b).bind fun s => (unbox s.1).map fun c => (.bool c, s.2)
      | .bool true => some (.bool true, r.2)
      | _ => none
  | .not a => (eval I args U ρ D a).bind fun r => (unbox r.1).map fun b => (.bool (!b), r.2)
  | .cond c a b =>
    (eval I args U ρ D c).bind fun r =>
      match r.1 with
      | .bool true => eval I args U ρ r.2 a
      | .bool false => eval I args U ρ r.2 b
      | _ => none
  | .letE i e b =>
    (eval I args U ρ D e).bind fun r => eval I args U (fun j => if j = i then some r.1 else ρ j) r.2 b
  | .asserting a b =>
    (eval I args U ρ D a).bind fun r => if r.1 = .bool true then eval I args U ρ r.2 b else none
  | .unfolding p b =>
    (eval I args U ρ D p).bind fun r => if I.held r.1 then eval I args (r.1 :: U) ρ r.2 b else none
/-- Values of arguments, from left to right.  Models the meaning of Viper expressions,
translators/pure.py:504. -/
def evalList (I : Interp) (args : Nat → Val) (U : List Val) (ρ : Nat → Option Val) (D : List Nat) :
    List VExpr → Option (List Val × List Nat)
  | [] => some ([], D)
  | e :: es =>
    (eval I args U ρ D e).bind fun r => (evalList I args U ρ r.2 es).map fun s => (r.1 :: s.1, s.2)
end

/-- The value of a call of the function.  Models the definition of a Viper function by its body,
translators/method.py:345-360. -/
def call (I : Interp) (args : Nat → Val) (body : VExpr) : Option (Val × List Nat) :=
  eval I args [] (fun _ => none) [] body

end Nagini.Pure
