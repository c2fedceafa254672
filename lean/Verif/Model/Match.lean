/-!
Model of the translation of match statements, translators/statement.py:1088-1345.

Names, attributes, classes, types, constants and operators are numbers.  The body of a case is a mark:
`run` ends when it reaches one, `runAll` executes it.  All names are local variables or ones that
are defined from the start (parameters cannot be captured).
-/
namespace Nagini.Match

/-- Values: `None`, truth values, other objects.  Models the references tested in
translators/statement.py:1199-1217. -/
inductive Val
  | none
  | bool (b : Bool)
  | obj (n : Nat)
deriving DecidableEq, Inhabited

/-- Expressions of guards.  Models the nodes handed to `translate_expr`,
translators/statement.py:1117-1118. -/
inductive Expr
  | lit (v : Val)
  | var (x : Nat)
  | op (f : Nat) (args : List Expr)

/-- The constants of singleton patterns.  Models translators/statement.py:1200, 1204. -/
inductive Single
  | none
  | bool (b : Bool)

mutual
/-- Patterns: `x`, `_` and `p as x`; constants; `None`, `True`, `False`; `C(a=p, …)`; `p | q | …`.
Models translators/statement.py:1194-1274 (the other patterns are rejected). -/
inductive Pat
  | any (x : Option Nat)
  | as (p : Pat) (x : Nat)
  | single (s : Single)
  | value (c : Nat)
  | cls (c : Nat) (ks : Kws)
  | or (p : Pat) (ps : Pats)
/-- Further alternatives.  Models translators/statement.py:1251-1263. -/
inductive Pats
  | nil
  | cons (p : Pat) (ps : Pats)
/-- Attributes with patterns.  Models translators/statement.py:1238-1248. -/
inductive Kws
  | nil
  | cons (a : Nat) (p : Pat) (ks : Kws)
end

/-- A case: pattern and guard.  Models translators/statement.py:1103-1131. -/
structure Case where
  pat : Pat
  guard : Option Expr

/-- Viper expressions.  Models the nodes built in translators/statement.py:1103-1265. -/
inductive VExpr
  | lit (v : Val)
  | subj
  | var (x : Nat)
  | field (e : VExpr) (f : Nat)
  | isNull (e : VExpr)
  | isInst (e : VExpr) (c : Nat)
  | isBool (e : VExpr)
  | unbox (e : VExpr)
  | eq (ty : Nat) (e : VExpr) (c : Nat)
  | not (e : VExpr)
  | and (a b : VExpr)
  | or (a b : VExpr)
  | op (f : Nat) (args : List VExpr)
  | truth (e : VExpr)

mutual
/-- Viper statements.  Models the nodes built in translators/statement.py:1098-1133. -/
inductive VStmt
  | assign (x : Nat) (e : VExpr)
  | define (x : Nat)
  | body (k : Nat)
  | ite (c : VExpr) (th el : VBlock)
/-- Blocks.  Models translators/statement.py:1101, 1129-1130. -/
inductive VBlock
  | nil
  | cons (s : VStmt) (b : VBlock)
end

/-- What the translation knows about the program: the local variables of the function, and for a class
and an attribute the field and its type.  Models `locals` and `get_field`,
translators/statement.py:1238-1244, 1276-1283. -/
structure Info where
  isLocal : Nat → Bool
  field : Nat → Nat → Option (Nat × Nat)

/-- Rejected programs.  Models translators/statement.py:1240-1241, 1281-1282. -/
inductive Err
  | badField | badVar
deriving DecidableEq

mutual
/-- The condition for a pattern; `ty` is the static type of the expression.
Models `_translate_match_pattern_cond`, translators/statement.py:1190-1274. -/
def cond (Γ : Info) (e : VExpr) (ty : Nat) : Pat → Except Err VExpr
  | .any _ => .ok (.lit (.bool true))
  | .as p _ => cond Γ e ty p
  | .single .none => .ok (.isNull e)
  | .single (.bool true) => .ok (.and (.isBool e) (.unbox e))
  | .single (.bool false) => .ok (.and (.isBool e) (.not (.unbox e)))
  | .value c => .ok (.eq ty e c)
  | .cls c ks => condKws Γ e c (.isInst e c) ks
  | .or p ps =>
    match cond Γ e ty p with
    | .error err => .error err
    | .ok r => condOr Γ e ty r ps
/-- Further alternatives.  Models translators/statement.py:1251-1265. -/
def condOr (Γ : Info) (e : VExpr) (ty : Nat) (acc : VExpr) : Pats → Except Err VExpr
  | .nil => .ok acc
  | .cons p ps =>
    match cond Γ e ty p with
    | .error err => .error err
    | .ok r => condOr Γ e ty (.or acc r) ps
/-- Attributes.  Models translators/statement.py:1236-1249. -/
def condKws (Γ : Info) (e : VExpr) (c : Nat) (acc : VExpr) : Kws → Except Err VExpr
  | .nil => .ok acc
  | .cons a p ks =>
    match Γ.field c a with
    | none => .error .badField
    | some (f, fty) =>
      match cond Γ (.field e f) fty p with
      | .error err => .error err
      | .ok r => condKws Γ e c (.and acc r) ks
end

/-- Names that stand for the subject in the guard.  Models `_collect_guard_aliases`,
translators/statement.py:1135-1143. -/
def aliases : Pat → List Nat
  | .any x => x.toList
  | .as p x => x :: aliases p
  | _ => []

mutual
/-- Translation of guards: captured names stand for the subject, other variables are checked to be
defined.  Models translators/statement.py:1110-1122. -/
def trExpr (al : List Nat) : Expr → VExpr
  | .lit v => .lit v
  | .var x => if x ∈ al then .subj else .var x
  | .op f args => .op f (trExprs al args)
/-- Arguments.  Models translators/statement.py:1117. -/
def trExprs (al : List Nat) : List Expr → List VExpr
  | [] => []
  | e :: es => trExpr al e :: trExprs al es
end

mutual
/-- Assignments of the captured names.  Models `_translate_match_pattern_assignments`,
translators/statement.py:1285-1320, and `_get_match_bound_var`, translators/statement.py:1276-1283. -/
def assigns (Γ : Info) (e : VExpr) : Pat → Except Err (List VStmt)
  | .any none => .ok []
  | .any (some x) => if Γ.isLocal x then .ok [.assign x e] else .error .badVar
  | .as p x =>
    if Γ.isLocal x then
      match assigns Γ e p with
      | .error err => .error err
      | .ok r => .ok (.assign x e :: r)
    else .error .badVar
  | .cls c ks => assignsKws Γ e c ks
  | .single _ => .ok []
  | .value _ => .ok []
  | .or _ _ => .ok []
/-- Names captured in attributes.  Models translators/statement.py:1306-1318. -/
def assignsKws (Γ : Info) (e : VExpr) (c : Nat) : Kws → Except Err (List VStmt)
  | .nil => .ok []
  | .cons a p ks =>
    match Γ.field c a with
    | none => .error .badField
    | some (f, _) =>
      match assigns Γ (.field e f) p with
      | .error err => .error err
      | .ok r =>
        match assignsKws Γ e c ks with
        | .error err => .error err
        | .ok rs => .ok (r ++ rs)
end

mutual
/-- The names marked as defined.  Models `_translate_match_pattern_defines`,
translators/statement.py:1322-1345. -/
def defines : Pat → List Nat
  | .any x => x.toList
  | .as p x => x :: defines p
  | .cls _ ks => definesKws ks
  | .single _ => []
  | .value _ => []
  | .or _ _ => []
/-- Names captured in attributes.  Models translators/statement.py:1340-1343. -/
def definesKws : Kws → List Nat
  | .nil => []
  | .cons _ p ks => defines p ++ definesKws ks
end

/-- A block from a list.  Models translators/statement.py:1129-1130. -/
def toBlock : List VStmt → VBlock
  | [] => .nil
  | s :: ss => .cons s (toBlock ss)

/-- The condition of a case.  Models translators/statement.py:1104-1122. -/
def caseCond (Γ : Info) (ty : Nat) (cs : Case) : Except Err VExpr :=
  match cond Γ .subj ty cs.pat with
  | .error err => .error err
  | .ok c =>
    match cs.guard with
    | none => .ok c
    | some g => .ok (.and c (.truth (trExpr (aliases cs.pat) g)))

/-- The nested conditional for the cases, the first of which has number `k`.
Models translators/statement.py:1100-1133. -/
def nested (Γ : Info) (ty : Nat) : Nat → List Case → Except Err VBlock
  | _, [] => .ok .nil
  | k, cs :: rest =>
    match nested Γ ty (k + 1) rest with
    | .error err => .error err
    | .ok el =>
      match caseCond Γ ty cs with
      | .error err => .error err
      | .ok c =>
        match assigns Γ .subj cs.pat with
        | .error err => .error err
        | .ok as => .ok (.cons (.ite c (toBlock (as ++ (defines cs.pat).map .define ++ [.body k])) el) .nil)

/-! Execution of the Viper code -/

/-- Heap, permissions and the functions the conditions call; `none` is a failing precondition.
Models the Viper state and `type_check`, `__eq__`, `__unbox__` as used in
translators/statement.py:1199-1248. -/
structure World where
  heap : Val → Nat → Val
  perm : Val → Nat → Bool
  inst : Val → Nat → Bool
  eq : Nat → Val → Nat → Option Bool
  op : Nat → List Val → Option Val
  truth : Val → Option Bool

/-- Viper variables, those marked as defined, and the variable of the subject.
Models translators/statement.py:1094-1098. -/
structure St where
  vars : Nat → Val
  defd : Nat → Bool
  subj : Val

/-- The truth value of a boolean.  Models `bool___unbox__`, resources/bool.sil:316-319. -/
def unbox : Val → Option Bool
  | .bool b => some b
  | _ => none

mutual
/-- The value of an expression; `none` if the verifier rejects it.  Models the meaning of Viper
expressions built in translators/statement.py:1103-1265. -/
def eval (W : World) (s : St) : VExpr → Option Val
  | .lit v => some v
  | .subj => some s.subj
  | .var x => if s.defd x then some (s.vars x) else none
  | .field e f => (eval W s e).bind fun v => if W.perm v f then some (W.heap v f) else none
  | .isNull e => (eval W s e).map fun v => .bool (v = .none)
  | .isInst e c => (eval W s e).map fun v => .bool (W.inst v c)
  | .isBool e => (eval W s e).map fun v => .bool (match v with | .bool _ => true | _ => false)
  | .unbox e => (eval W s e).bind fun v => (unbox v).map .bool
  | .eq ty e c => (eval W s e).bind fun v => (W.eq ty v c).map .bool
  | .not e => (eval W s e).bind fun v => (unbox v).map fun b => .bool (!b)
  | .and a b =>
    (eval W s a).bind fun v => (unbox v).bind fun c =>
      if c then (eval W s b).bind fun w => (unbox w).map .bool else some (.bool false)
  | .or a b =>
    (eval W s a).bind fun v => (unbox v).bind fun c =>
      if c then some (.bool true) else (eval W s b).bind fun w => (unbox w).map .bool
  | .op f es => (evals W s es).bind (W.op f)
  | .truth e => (eval W s e).bind fun v => (W.truth v).map .bool
/-- Values of arguments.  Models the meaning of Viper expressions, translators/statement.py:1117. -/
def evals (W : World) (s : St) : List VExpr → Option (List Val)
  | [] => some []
  | e :: es => (eval W s e).bind fun v => (evals W s es).map (v :: ·)
end

/-- How running a block ends: rejected, at the body of a case, or at its end.
Models the meaning of the statements of translators/statement.py:1098-1133. -/
inductive Out
  | err
  | body (k : Nat) (s : St)
  | done (s : St)

mutual
/-- Runs a statement.  Models the meaning of Viper statements, translators/statement.py:1129-1131. -/
def run (W : World) (s : St) : VStmt → Out
  | .assign x e =>
    match eval W s e with
    | some v => .done { s with vars := fun y => if y = x then v else s.vars y }
    | none => .err
  | .define x => .done { s with defd := fun y => if y = x then true else s.defd y }
  | .body k => .body k s
  | .ite c th el =>
    match (eval W s c).bind unbox with
    | some true => runBlock W s th
    | some false => runBlock W s el
    | none => .err
/-- Runs a block.  Models the meaning of Viper statements, translators/statement.py:1129-1131. -/
def runBlock (W : World) (s : St) : VBlock → Out
  | .nil => .done s
  | .cons t b =>
    match run W s t with
    | .done s' => runBlock W s' b
    | r => r
end

/-- Runs a match statement on a subject: the subject is stored first.
Models `translate_stmt_Match`, translators/statement.py:1088-1133. -/
def runMatch (W : World) (vars : Nat → Val) (defd : Nat → Bool) (v : Val) (b : VBlock) : Out :=
  runBlock W { vars := vars, defd := defd, subj := v } b

mutual
/-- Runs a statement together with the bodies of the cases, `B` being what they do.
Models the meaning of Viper statements, translators/statement.py:1129-1131. -/
def runAll (B : Nat → World → St → Option (World × St)) (W : World) (s : St) : VStmt → Option (World × St)
  | .assign x e =>
    match eval W s e with
    | some v => some (W, { s with vars := fun y => if y = x then v else s.vars y })
    | none => none
  | .define x => some (W, { s with defd := fun y => if y = x then true else s.defd y })
  | .body k => B k W s
  | .ite c th el =>
    match (eval W s c).bind unbox with
    | some true => runAllBlock B W s th
    | some false => runAllBlock B W s el
    | none => none
/-- Runs a block together with the bodies.  Models the meaning of Viper statements,
translators/statement.py:1129-1131. -/
def runAllBlock (B : Nat → World → St → Option (World × St)) (W : World) (s : St) : VBlock → Option (World × St)
  | .nil => some (W, s)
  | .cons t b => (runAll B W s t).bind fun r => runAllBlock B r.1 r.2 b
end

end Nagini.Match
