/-!
Model of the ghost checker, ghost/ghost_checker.py, and of the extraction of the regular program,
ghost/extraction.py.

The flags `is_ghost`, `contains_ghost` and `is_pure` which the checker stores in the nodes of the AST are
part of the annotated expressions and statements `AExpr` and `AStmt`.  `none` stands for an exception:
in the checker the program is rejected, in the extraction an assertion fails.

Left out: ghost classes and ghost fields, receivers of calls, keyword and starred arguments, `Unfolding`
and `Reveal`, IO operations, comprehensions, threads, `with`, `try`, `raise`, `assert` and `del`,
annotated assignments (like an assignment with one target), list patterns and nested tuples as targets.
-/
namespace Nagini.Ghost

/-- What a node of an expression is.  `op` are the strict operators and displays, `cond` the conditional
expression, `attr` reads a regular field.  `builtin` are the calls which the checker cannot resolve and
`len`, `isinstance`, `cast`; `prim` are impure library functions with regular arguments and result, like
`print`; `call` are the functions of the program.  Models the cases of
`_is_expr_ghost`, ghost/ghost_checker.py:1213-1333, and of `check_call`, ghost/ghost_checker.py:826-1042. -/
inductive Head
  | const (n : Int)
  | none
  | var (x : Nat)
  | op (k : Nat)
  | cond
  | tuple
  | attr (k : Nat)
  | builtin (k : Nat)
  | prim (k : Nat)
  | call (f : Nat)

/-- The node is an `ast.Call`.  Models the tests in ghost/ghost_checker.py:404, 436, 492, 1142. -/
def Head.isCall : Head → Bool
  | .builtin _ => true
  | .prim _ => true
  | .call _ => true
  | _ => false

/-- Expressions; models the nodes of ghost/ghost_checker.py:1213-1333. -/
inductive Expr
  | node (h : Head) (es : List Expr)

/-- What the expression is; for ghost/ghost_checker.py:404, 436, 492. -/
def Expr.head : Expr → Head
  | .node h _ => h

/-- Targets of assignments: a variable or a tuple of variables, ghost/ghost_checker.py:411-417. -/
inductive Target
  | var (x : Nat)
  | tup (xs : List Nat)

/-- The variables of a target.  Models `get_all_targets`, ghost/ghost_checker.py:424-432. -/
def Target.vars : Target → List Nat
  | .var x => [x]
  | .tup xs => xs

/-- Statements; `whil` and `forr` have an `else` block.  Models the visitors of
ghost/ghost_checker.py:340-700. -/
inductive Stmt
  | assign (ts : List Target) (e : Expr)
  | aug (x k : Nat) (e : Expr)
  | expr (e : Expr)
  | ite (e : Expr) (a b : List Stmt)
  | whil (e : Expr) (a b : List Stmt)
  | forr (x : Nat) (e : Expr) (a b : List Stmt)
  | ret (e : Option Expr)
  | brk
  | cont
  | pass

/-- Ghost information of a result, `return_info_t`, ghost/ghost_checker.py:67-75. -/
inductive Ret
  | reg | ghost | mixed
  deriving DecidableEq

/-- A function: whether it is declared ghost, whether it is pure, its parameters, which of its parameters
and variables are ghost, what it returns, and its body.  Models the attributes of `PythonMethod` used in
ghost/ghost_checker.py:249-338 and 798-824. -/
structure Fn where
  ghost : Bool
  pure : Bool
  params : List Nat
  gvar : Nat → Bool
  ret : Ret
  body : List Stmt

/-- The functions of a program by number; models what `get_target` finds, ghost/ghost_checker.py:1365-1377. -/
abbrev Prog := Nat → Option Fn

/-- The flags of an expression; `pure` matters for calls only.  Models the attributes `is_ghost`,
`contains_ghost` and `is_pure`, ghost/ghost_checker.py:828-829. -/
structure Fl where
  ghost : Bool
  contains : Bool
  pure : Bool

/-- Expressions with flags; `raw` is a call used as ghost, ghost/ghost_checker.py:1116-1126 (the flags of its
arguments are never read). -/
inductive AExpr
  | node (h : Head) (es : List AExpr) (fl : Fl)
  | raw (e : Expr)

/-- The flags of an expression, as set in ghost/ghost_checker.py:1124-1125 and 1331-1332. -/
def AExpr.fl : AExpr → Fl
  | .node _ _ fl => fl
  | .raw _ => ⟨true, true, true⟩

/-- The expression is a call with `is_pure` not set, ghost/ghost_checker.py:1142. -/
def AExpr.impureCall : AExpr → Bool
  | .node h _ fl => h.isCall && !fl.pure
  | .raw _ => false

/-- Sets `is_ghost` and `contains_ghost`, ghost/ghost_checker.py:1144-1145. -/
def AExpr.setGhost : AExpr → AExpr
  | .node h es fl => .node h es { fl with ghost := true, contains := true }
  | .raw e => .raw e

/-- The effect of `is_assignable` on the flags of its first argument, when `is_ghost` says `g` for it and
the second argument is ghost iff `p`.  Models ghost/ghost_checker.py:1141-1145. -/
def convert (a : AExpr) (g p : Bool) : AExpr :=
  if !g && p && !a.impureCall then a.setGhost else a

/-- The result of `is_assignable`, ghost/ghost_checker.py:1147-1149. -/
def assignable (ctx g p conv : Bool) : Bool :=
  ((conv && (!g && p)) || g == p) && (!ctx || p)

mutual
/-- Checking an expression again in a ghost context, when it already has flags: the arguments of
unresolved calls are not looked at again, since `is_ghost` returns the stored flag.  Models `check_for_call`,
ghost/ghost_checker.py:671-683, with `check_call`, 920-938, 1075-1089, and `is_ghost`, 1187-1188. -/
def recheck (P : Prog) : Expr → Bool
  | .node h es =>
    match h with
    | .builtin _ => true
    | .prim _ => false
    | .call f =>
      match P f with
      | some fn => (fn.ghost || fn.pure) && recheckAll P es
      | none => false
    | _ => recheckAll P es

/-- `recheck` for lists, ghost/ghost_checker.py:674-679. -/
def recheckAll (P : Prog) : List Expr → Bool
  | [] => true
  | e :: es => recheck P e && recheckAll P es
end

/-- `check_for_call` of an expression which has flags: only what is below the expression is looked at,
ghost/ghost_checker.py:671-683. -/
def rescan (P : Prog) : Expr → Bool
  | .node _ es => recheckAll P es

mutual
/-- Models `is_ghost` of an expression without flags, ghost/ghost_checker.py:1189-1190, 1213-1333, with
`check_call`, 826-1042, `_check_unresolved_call`, 1075-1089, and `_check_ghost_func`, 1116-1126.  `Γ` are the
ghost variables, `ctx` is `in_ghost_ctx`.  The second result is what `is_ghost` returns, which for calls
differs from the stored flag.  `check_for_call` for expressions without flags makes the same calls of
`check_call`, so it is modelled by `isGhostAll`.  Constants and variables have no parts, so `es` is empty for them.  A call with too many arguments is rejected, as by mypy. -/
def isGhost (P : Prog) (Γ : Nat → Bool) (ctx : Bool) : Expr → Option (AExpr × Bool)
  | .node h es =>
    match h with
    | .var x =>
      match isGhostAll P Γ ctx es with
      | none => none
      | some as =>
        let g := Γ x || as.any (·.2)
        some (.node h (as.map (·.1)) ⟨g, g || as.any (·.1.fl.contains), true⟩, g)
    | .attr _ => some (.node h (es.map .raw) ⟨false, false, true⟩, false)
    | .builtin _ =>
      match isGhostAll P Γ ctx es with
      | none => none
      | some as =>
        let g := ctx || as.any (·.2)
        some (.node h (as.map (·.1)) ⟨g, g, true⟩, g)
    | .prim _ =>
      if ctx then none
      else match isGhostAll P Γ ctx es with
        | none => none
        | some as => if as.any (·.2) then none else some (.node h (as.map (·.1)) ⟨false, false, false⟩, false)
    | .call f =>
      match P f with
      | none => none
      | some fn =>
        if ctx && !fn.ghost && !fn.pure then none
        else if ctx || fn.ghost then
          match isGhostAll P Γ true es with
          | none => none
          | some _ => some (.raw (.node h es), true)
        else match checkArgs P Γ fn.pure (fn.params.map fn.gvar) es with
          | none => none
          | some none => some (.raw (.node h es), true)
          | some (some as) =>
            some (.node h as ⟨false, ((fn.params.map fn.gvar).take es.length).any id, fn.pure⟩, fn.ret != .reg)
    | _ =>
      match isGhostAll P Γ ctx es with
      | none => none
      | some as =>
        let g := as.any (·.2)
        some (.node h (as.map (·.1)) ⟨g, g || as.any (·.1.fl.contains), true⟩, g)

/-- `is_ghost` of all parts of an expression, as in ghost/ghost_checker.py:1216. -/
def isGhostAll (P : Prog) (Γ : Nat → Bool) (ctx : Bool) : List Expr → Option (List (AExpr × Bool))
  | [] => some []
  | e :: es =>
    match isGhost P Γ ctx e with
    | none => none
    | some a =>
      match isGhostAll P Γ ctx es with
      | none => none
      | some as => some (a :: as)

/-- The arguments of a call of a regular function in a regular context; `ps` tells which parameters are
ghost.  The result `some none` means that the call becomes ghost, because a pure function gets a ghost argument
for a regular parameter.  Models ghost/ghost_checker.py:977-1011; a call with the wrong number of arguments is
rejected here, because mypy rejects it (default arguments are left out). -/
def checkArgs (P : Prog) (Γ : Nat → Bool) (pure : Bool) : List Bool → List Expr → Option (Option (List AExpr))
  | [], [] => some (some [])
  | [], _ :: _ => none
  | _ :: _, [] => none
  | p :: ps, e :: es =>
    match isGhost P Γ p e with
    | none => none
    | some (a, g) =>
      if !assignable p g p true then
        if pure && recheck P e then
          match isGhostAll P Γ true es with
          | none => none
          | some _ => some none
        else none
      else
        match checkArgs P Γ pure ps es with
        | none => none
        | some none => if recheck P e then some none else none
        | some (some as) => some (some (convert a g p :: as))
end

/-- Targets with the flags of the variables, ghost/ghost_checker.py:524-526. -/
inductive ATarget
  | var (x : Nat) (g : Bool)
  | tup (xs : List (Nat × Bool))

/-- The flags of a statement, ghost/ghost_checker.py:421-422. -/
structure SFl where
  ghost : Bool
  contains : Bool

/-- Statements with flags; models the nodes visited in ghost/ghost_checker.py:340-700. -/
inductive AStmt
  | assign (ts : List ATarget) (a : AExpr) (fl : SFl)
  | aug (x k : Nat) (a : AExpr) (fl : SFl)
  | expr (a : AExpr) (fl : SFl)
  | ite (a : AExpr) (b c : List AStmt) (fl : SFl)
  | whil (a : AExpr) (b c : List AStmt) (fl : SFl)
  | forr (x : Nat) (a : AExpr) (b c : List AStmt) (fl : SFl)
  | ret (a : Option AExpr) (fl : SFl)
  | brk (fl : SFl)
  | cont (fl : SFl)
  | pass (fl : SFl)

/-- The flags of a statement, ghost/ghost_checker.py:421-422. -/
def AStmt.fl : AStmt → SFl
  | .assign _ _ fl => fl
  | .aug _ _ _ fl => fl
  | .expr _ fl => fl
  | .ite _ _ _ fl => fl
  | .whil _ _ _ fl => fl
  | .forr _ _ _ _ fl => fl
  | .ret _ fl => fl
  | .brk fl => fl
  | .cont fl => fl
  | .pass fl => fl

/-- Some but not all variables are ghost.  Models `has_mixed_elems`, ghost/ghost_checker.py:1352-1360. -/
def mixedElems : List Bool → Bool
  | [] => false
  | g :: gs => gs.any (· != g)

/-- What the elements of an unpacked value are: for a call what `check_call` returns, else the ghost
information `cur` of the whole value.  `a` has the flags `check_call` sets.  Models
ghost/ghost_checker.py:492-506. -/
def unpacked (P : Prog) (e : Expr) (a : AExpr) (cur : Bool) (n : Nat) : List Bool :=
  if e.head.isCall then
    if a.fl.ghost then List.replicate n true
    else match e.head with
      | .call f =>
        match P f with
        | some fn =>
          match fn.ret with
          | .mixed => [false, true]
          | .ghost => List.replicate n true
          | .reg => List.replicate n false
        | none => List.replicate n false
      | _ => List.replicate n false
  else List.replicate n cur

/-- The elements of a tuple can be assigned.  Models ghost/ghost_checker.py:516-525, without nested targets. -/
def checkUnpack (ctx : Bool) (gs vs : List Bool) : Bool :=
  (vs.zip gs).all fun (v, g) => assignable ctx v g (!mixedElems gs)

/-- The loop over the targets of an assignment: `a0` is the value with the flags it gets first, `a` with its
current flags, `cur` is what `is_ghost` returns for it now.  Checking a tuple target calls `check_call` again,
which resets the flags of the value.  Models ghost/ghost_checker.py:410-416, 474-479, 488-529. -/
def checkTargets (P : Prog) (Γ : Nat → Bool) (ctx : Bool) (e : Expr) (a0 : AExpr) :
    AExpr → Bool → List Target → Option AExpr
  | a, _, [] => some a
  | a, cur, .var x :: ts =>
    if assignable ctx cur (Γ x) true then
      checkTargets P Γ ctx e a0 (convert a cur (Γ x)) (convert a cur (Γ x)).fl.ghost ts
    else none
  | a, cur, .tup xs :: ts =>
    let a' := if e.head.isCall then a0 else a
    if checkUnpack ctx (xs.map Γ) (unpacked P e a0 cur xs.length) then checkTargets P Γ ctx e a0 a' a'.fl.ghost ts
    else none

/-- The flags of a target, ghost/ghost_checker.py:403, 527-528. -/
def markTarget (Γ : Nat → Bool) : Target → ATarget
  | .var x => .var x (Γ x)
  | .tup xs => .tup (xs.map fun x => (x, Γ x))

/-- A target contains something ghost, ghost/ghost_checker.py:422, 528. -/
def ATarget.contains : ATarget → Bool
  | .var _ g => g
  | .tup xs => xs.all (·.2) || xs.any (·.2)

/-- Models `visit_Assign`, ghost/ghost_checker.py:402-422. -/
def visitAssign (P : Prog) (Γ : Nat → Bool) (ctx : Bool) (ts : List Target) (e : Expr) : Option AStmt :=
  let tg := (ts.flatMap Target.vars).all Γ
  let definite := tg && !e.head.isCall
  let ctx' := ctx || definite
  match isGhost P Γ ctx' e with
  | none => none
  | some (a0, g0) =>
    match checkTargets P Γ ctx' e a0 a0 g0 ts with
    | none => none
    | some a =>
      let g := definite || (tg && a.fl.ghost)
      let ts' := ts.map (markTarget Γ)
      some (.assign ts' a ⟨g, g || a.fl.contains || ts'.any ATarget.contains⟩)

/-- Models `visit_AugAssign`, ghost/ghost_checker.py:434-449. -/
def visitAug (P : Prog) (Γ : Nat → Bool) (ctx : Bool) (x k : Nat) (e : Expr) : Option AStmt :=
  let definite := Γ x && !e.head.isCall
  let ctx' := ctx || definite
  match isGhost P Γ ctx' e with
  | none => none
  | some (a, g0) =>
    if assignable ctx' g0 (Γ x) true then
      let g := definite || (Γ x && a.fl.ghost)
      some (.aug x k a ⟨g, g || a.fl.contains || Γ x⟩)
    else none

/-- Models `visit_Expr`, ghost/ghost_checker.py:659-669. -/
def visitExpr (P : Prog) (Γ : Nat → Bool) (ctx : Bool) (e : Expr) : Option AStmt :=
  match isGhost P Γ ctx e with
  | none => none
  | some (a, g) => if g && !rescan P e then none else some (.expr a ⟨g, a.fl.contains⟩)

/-- The returned value of a function with a mixed result: a tuple of a regular and a ghost element, or a
call of another such function.  Models ghost/ghost_checker.py:360-379. -/
def visitMixed (P : Prog) (Γ : Nat → Bool) (e : Expr) : Option AExpr :=
  match e with
  | .node .tuple [e1, e2] =>
    match isGhost P Γ false e1, isGhost P Γ false e2 with
    | some (a1, g1), some (a2, g2) =>
      if assignable false g1 false true && assignable false g2 true true then
        some (.node .tuple [convert a1 g1 false, convert a2 g2 true] ⟨false, true, true⟩)
      else none
    | _, _ => none
  | .node (.call f) _ =>
    match isGhost P Γ false e, P f with
    | some (a, _), some fn => if !a.fl.ghost && fn.ret == .mixed then some a else none
    | _, _ => none
  | _ => none

/-- Models `visit_Return`, ghost/ghost_checker.py:340-388. -/
def visitReturn (P : Prog) (fn : Fn) (Γ : Nat → Bool) (ctx : Bool) (e : Option Expr) : Option AStmt :=
  if fn.ghost then
    match e with
    | none => some (.ret none ⟨true, true⟩)
    | some e =>
      match isGhost P Γ true e with
      | none => none
      | some (a, _) => some (.ret (some a) ⟨true, true⟩)
  else if ctx then none
  else match e with
    | none => some (.ret none ⟨false, false⟩)
    | some e =>
      match fn.ret with
      | .mixed =>
        match visitMixed P Γ e with
        | none => none
        | some a => some (.ret (some a) ⟨false, true⟩)
      | r =>
        match isGhost P Γ false e with
        | none => none
        | some (a, g) =>
          let p := r == .ghost
          if assignable false g p true then
            some (.ret (some (convert a g p)) ⟨false, p || (convert a g p).fl.contains⟩)
          else none

/-- Makes a variable ghost, ghost/ghost_checker.py:535-536. -/
def mark (Γ : Nat → Bool) (x : Nat) : Nat → Bool := fun y => if y = x then true else Γ y

mutual
/-- The visitors of statements; the second result are the ghost variables behind the statement, because a
`for` loop over a ghost value makes its variable ghost.  Models ghost/ghost_checker.py:531-550, 571-597,
685-699 and, for `pass`, 205-217. -/
def visit (P : Prog) (fn : Fn) (Γ : Nat → Bool) (ctx : Bool) : Stmt → Option (AStmt × (Nat → Bool))
  | .assign ts e => (visitAssign P Γ ctx ts e).map (·, Γ)
  | .aug x k e => (visitAug P Γ ctx x k e).map (·, Γ)
  | .expr e => (visitExpr P Γ ctx e).map (·, Γ)
  | .ret e => (visitReturn P fn Γ ctx e).map (·, Γ)
  | .brk => if ctx then none else some (.brk ⟨false, false⟩, Γ)
  | .cont => if ctx then none else some (.cont ⟨false, false⟩, Γ)
  | .pass => some (.pass ⟨ctx, ctx⟩, Γ)
  | .ite e b c =>
    match isGhost P Γ ctx e with
    | none => none
    | some (a, g) =>
      if g && !rescan P e then none
      else match visitAll P fn Γ (ctx || g) b with
        | none => none
        | some (b', Γ1) =>
          match visitAll P fn Γ1 (ctx || g) c with
          | none => none
          | some (c', Γ2) =>
            some (.ite a b' c' ⟨g, g || a.fl.contains || b'.any (·.fl.contains) || c'.any (·.fl.contains)⟩, Γ2)
  | .whil e b c =>
    match isGhost P Γ ctx e with
    | none => none
    | some (a, g) =>
      if g && !rescan P e then none
      else match visitAll P fn Γ (ctx || g) b with
        | none => none
        | some (b', Γ1) =>
          match visitAll P fn Γ1 (ctx || g) c with
          | none => none
          | some (c', Γ2) =>
            some (.whil a b' c' ⟨g, g || a.fl.contains || b'.any (·.fl.contains) || c'.any (·.fl.contains)⟩, Γ2)
  | .forr x e b c =>
    match isGhost P Γ ctx e with
    | none => none
    | some (a, g) =>
      if (g && !rescan P e) || (!g && Γ x) then none
      else match visitAll P fn (if g then mark Γ x else Γ) (ctx || g) b with
        | none => none
        | some (b', Γ1) =>
          match visitAll P fn Γ1 (ctx || g) c with
          | none => none
          | some (c', Γ2) =>
            some (.forr x a b' c' ⟨g, g || a.fl.contains || b'.any (·.fl.contains) || c'.any (·.fl.contains)⟩, Γ2)

/-- The visitors of the statements of a block, ghost/ghost_checker.py:591-594. -/
def visitAll (P : Prog) (fn : Fn) (Γ : Nat → Bool) (ctx : Bool) : List Stmt → Option (List AStmt × (Nat → Bool))
  | [] => some ([], Γ)
  | s :: ss =>
    match visit P fn Γ ctx s with
    | none => none
    | some (s', Γ1) =>
      match visitAll P fn Γ1 ctx ss with
      | none => none
      | some (ss', Γ2) => some (s' :: ss', Γ2)
end

/-- Models `visit_FunctionDef`, ghost/ghost_checker.py:277-278, 329-333. -/
def checkFn (P : Prog) (fn : Fn) : Option (List AStmt) :=
  (visitAll P fn fn.gvar fn.ghost fn.body).map (·.1)

/-- All functions of the program are accepted, ghost/ghost_checker.py:98-127. -/
def Accepted (P : Prog) : Prop := ∀ f fn, P f = some fn → (checkFn P fn).isSome = true

mutual
/-- The expression without flags: what `extract` returns for a node which it keeps as it is,
ghost/extraction.py:134-135. -/
def AExpr.plain : AExpr → Expr
  | .raw e => e
  | .node h es _ => .node h (AExpr.plainAll es)

/-- `AExpr.plain` for lists, ghost/extraction.py:134-135. -/
def AExpr.plainAll : List AExpr → List Expr
  | [] => []
  | a :: as => a.plain :: AExpr.plainAll as
end

mutual
/-- Models `extract` of an expression, ghost/extraction.py:125-139, with `generic_extract`, 141-163, and
`extract_Call`, 318-338. -/
def extractE : AExpr → Option Expr
  | .raw _ => none
  | .node h es fl =>
    if fl.ghost then none
    else if !fl.contains then some (AExpr.plain (.node h es fl))
    else some (.node h (extractEs es))

/-- The parts of an expression that are kept, ghost/extraction.py:150-157, 325-329. -/
def extractEs : List AExpr → List Expr
  | [] => []
  | a :: as =>
    match extractE a with
    | none => extractEs as
    | some e => e :: extractEs as
end

/-- A target without flags, for ghost/extraction.py:134-135. -/
def ATarget.plain : ATarget → Target
  | .var x _ => .var x
  | .tup xs => .tup (xs.map (·.1))

/-- What remains of a target.  Models ghost/extraction.py:216-233. -/
def extractTarget : ATarget → Option Target
  | .var x g => if g then none else some (.var x)
  | .tup xs =>
    match (xs.filter (!·.2)).map (·.1) with
    | [] => none
    | [x] => some (.var x)
    | xs => some (.tup xs)

mutual
/-- The statement without flags, for ghost/extraction.py:134-135. -/
def AStmt.plain : AStmt → Stmt
  | .assign ts a _ => .assign (ts.map ATarget.plain) a.plain
  | .aug x k a _ => .aug x k a.plain
  | .expr a _ => .expr a.plain
  | .ite a b c _ => .ite a.plain (AStmt.plainAll b) (AStmt.plainAll c)
  | .whil a b c _ => .whil a.plain (AStmt.plainAll b) (AStmt.plainAll c)
  | .forr x a b c _ => .forr x a.plain (AStmt.plainAll b) (AStmt.plainAll c)
  | .ret a _ => .ret (a.map AExpr.plain)
  | .brk _ => .brk
  | .cont _ => .cont
  | .pass _ => .pass

/-- `AStmt.plain` for blocks, for ghost/extraction.py:134-135. -/
def AStmt.plainAll : List AStmt → List Stmt
  | [] => []
  | s :: ss => s.plain :: AStmt.plainAll ss
end

/-- The returned value that remains.  Models `extract_Return`, ghost/extraction.py:255-273. -/
def extractRet : Option AExpr → Option Expr
  | none => none
  | some (.node .tuple [a, b] _) =>
    match extractEs [a, b] with
    | [] => none
    | [e] => some e
    | es => some (.node .tuple es)
  | some a => extractE a

mutual
/-- What remains of a statement: nothing or one statement; `none` if the extraction fails.  Models `extract`,
ghost/extraction.py:125-139, with 213-242, 255-291, 308-316. -/
def extractS : AStmt → Option (List Stmt)
  | .assign ts a fl =>
    if fl.ghost then some []
    else if !fl.contains then some [(AStmt.assign ts a fl).plain]
    else match extractE a with
      | none => none
      | some e =>
        match ts.filterMap extractTarget with
        | [] => some [.expr e]
        | ts' => some [.assign ts' e]
  | .aug x k a fl =>
    if fl.ghost then some []
    else if !fl.contains then some [(AStmt.aug x k a fl).plain]
    else match extractE a with
      | none => none
      | some e => some [.aug x k e]
  | .expr a fl =>
    if fl.ghost then some []
    else if !fl.contains then some [(AStmt.expr a fl).plain]
    else match extractE a with
      | none => none
      | some e => some [.expr e]
  | .ite a b c fl =>
    if fl.ghost then some []
    else if !fl.contains then some [(AStmt.ite a b c fl).plain]
    else match extractE a, extractAll b, extractAll c with
      | some e, some b', some c' => some [.ite e b' c']
      | _, _, _ => none
  | .whil a b c fl =>
    if fl.ghost then some []
    else if !fl.contains then some [(AStmt.whil a b c fl).plain]
    else match extractE a, extractAll b, extractAll c with
      | some e, some b', some c' => some [.whil e b' c']
      | _, _, _ => none
  | .forr x a b c fl =>
    if fl.ghost then some []
    else if !fl.contains then some [(AStmt.forr x a b c fl).plain]
    else match extractE a, extractAll b, extractAll c with
      | some e, some b', some c' => some [.forr x e b' c']
      | _, _, _ => none
  | .ret a fl =>
    if fl.ghost then some []
    else if !fl.contains then some [(AStmt.ret a fl).plain]
    else some [.ret (extractRet a)]
  | .brk fl => if fl.ghost then some [] else some [.brk]
  | .cont fl => if fl.ghost then some [] else some [.cont]
  | .pass fl => if fl.ghost then some [] else some [.pass]

/-- What remains of a block.  Models `_extract_body`, ghost/extraction.py:340-350, without the `pass`
that is put into empty blocks. -/
def extractAll : List AStmt → Option (List Stmt)
  | [] => some []
  | s :: ss =>
    match extractS s, extractAll ss with
    | some s', some ss' => some (s' ++ ss')
    | _, _ => none
end

/-- Models `extract_FunctionDef`, ghost/extraction.py:177-211. -/
def extractFn (P : Prog) (fn : Fn) : Option Fn :=
  if fn.ghost then none
  else match checkFn P fn with
    | none => none
    | some as =>
      match extractAll as with
      | none => none
      | some ss => some { fn with params := fn.params.filter (!fn.gvar ·), body := ss }

/-- The extracted program, ghost/extraction.py:26-40. -/
def extract (P : Prog) : Prog := fun f =>
  match P f with
  | none => none
  | some fn => extractFn P fn

end Nagini.Ghost
