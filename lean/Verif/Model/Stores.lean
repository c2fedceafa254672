import Verif.Model.Hoist

set_option linter.unusedVariables false

/-!
Model of assignment statements with any number of targets (names, attributes, properties,
subscripts), expression statements and `if`, on top of the model of expressions (`Hoist`): the
right-hand side becomes statements and an expression; the expression is inserted into the store of
every target.

Not modelled: tuple and starred targets (see `Unpack`), receivers of union type (see `Unions`),
permissions and definedness flags, exceptions, final global variables (see `Globals`).
-/
namespace Nagini.Stores

open Nagini.Hoist

/-- A language with stores: what a field write, the setter of a property and `__setitem__` do to the
heap.  Stands for the statements built in translators/statement.py:1404-1411, 1447-1457 and
1511-1514, and the methods called there. -/
structure Lang extends Hoist.Lang where
  write : Heap → Val → Nat → Val → Heap
  setter : Heap → Val → Nat → Val → Heap
  setitem : Heap → Val → Val → Val → Heap

/-- Targets: a name, `e.f`, `e.p` for a property, `e[i]`.
Models the cases of translators/statement.py:1381-1457. -/
inductive Target (V : Type)
  | name (x : Nat)
  | attr (e : Expr V) (f : Nat)
  | prop (e : Expr V) (p : Nat)
  | item (e i : Expr V)

mutual
/-- Statements: `t1 = ... = tk = e`, `e`, `if c: ... else: ...`.
Models `ast.Assign`, `ast.AnnAssign`, `ast.Expr` and `ast.If` as in translators/statement.py:1627-1661,
1046-1064 and 1066-1086. -/
inductive Stmt (V : Type)
  | assign (ts : List (Target V)) (e : Expr V)
  | expr (e : Expr V)
  | ite (c : Expr V) (a b : Stmts V)

/-- Statement lists.  Models `node.body`, translators/statement.py:1069-1075. -/
inductive Stmts (V : Type)
  | nil
  | cons (s : Stmt V) (ss : Stmts V)
end

mutual
/-- Viper statements: those that expressions become, an assignment to a local variable, to a field, a
call of a setter, a call of `__setitem__`, a conditional.
Models the statements built in translators/statement.py:1057, 1085, 1404-1411, 1447-1457, 1511-1514. -/
inductive AStmt (V : Type)
  | hoisted (s : TStmt V)
  | setVar (x : Nat) (e : TExpr V)
  | setField (r : TExpr V) (f : Nat) (e : TExpr V)
  | setProp (r : TExpr V) (p : Nat) (e : TExpr V)
  | setItem (r i e : TExpr V)
  | ite (c : TExpr V) (a b : AStmts V)

/-- Lists of Viper statements, translators/statement.py:1071-1078. -/
inductive AStmts (V : Type)
  | nil
  | cons (s : AStmt V) (ss : AStmts V)
end

variable {V : Type}

/-- Concatenation.  Models `flatten` and `+`, translators/statement.py:1069-1085. -/
def AStmts.append : AStmts V → AStmts V → AStmts V
  | .nil, b => b
  | .cons s a, b => .cons s (a.append b)

/-- The statements of an expression.  Models `rhs_stmt`, translators/statement.py:1655. -/
def hoist : List (TStmt V) → AStmts V
  | [] => .nil
  | s :: ss => .cons (.hoisted s) (hoist ss)

/-- `_assign_single_value` and `_assign_with_subscript`: the statements of the target's parts, then
the store of `rhs`.  Models translators/statement.py:1372-1457 and 1497-1528.  Simplified: the code
looks for a slice in the *first* target of the statement (1502), so that a subscript target after a
target of another kind makes it raise an `AttributeError`; the model translates such a statement. -/
def assignTo (n : Nat) (rhs : TExpr V) : Target V → AStmts V × Nat
  | .name x => (.cons (.setVar x rhs) .nil, n)
  | .attr e f =>
    let r := trans n e
    ((hoist r.1).append (.cons (.setField r.2.1 f rhs) .nil), r.2.2)
  | .prop e p =>
    let r := trans n e
    ((hoist r.1).append (.cons (.setProp r.2.1 p rhs) .nil), r.2.2)
  | .item e i =>
    let r := trans n e
    let j := trans r.2.2 i
    (((hoist r.1).append (hoist j.1)).append (.cons (.setItem r.2.1 j.2.1 rhs) .nil), j.2.2)

/-- The loop over the targets; every store contains the expression `rhs`.
Models translators/statement.py:1656-1660. -/
def assignAll (n : Nat) (rhs : TExpr V) : List (Target V) → AStmts V × Nat
  | [] => (.nil, n)
  | t :: ts =>
    let a := assignTo n rhs t
    let b := assignAll a.2 rhs ts
    (a.1.append b.1, b.2)

mutual
/-- The translation of a statement.
Models translators/statement.py:1654-1661, 1046-1059 (the variable `expr_res` is never read and left
out) and 1066-1086. -/
def transStmt (n : Nat) : Stmt V → AStmts V × Nat
  | .assign ts e =>
    let r := trans n e
    let a := assignAll r.2.2 r.2.1 ts
    ((hoist r.1).append a.1, a.2)
  | .expr e =>
    let r := trans n e
    (hoist r.1, r.2.2)
  | .ite c a b =>
    let r := trans n c
    let x := transStmts r.2.2 a
    let y := transStmts x.2 b
    ((hoist r.1).append (.cons (.ite (.toBool r.2.1) x.1 y.1) .nil), y.2)

/-- Statement lists.  Models translators/statement.py:1069-1075. -/
def transStmts (n : Nat) : Stmts V → AStmts V × Nat
  | .nil => (.nil, n)
  | .cons s ss =>
    let a := transStmt n s
    let b := transStmts a.2 ss
    (a.1.append b.1, b.2)
end

section
variable (L : Lang)

/-- A state of the generated method: local variables, heap, and auxiliary variables (target language,
for the statements of translators/statement.py:1372-1457). -/
structure St where
  env : Nat → L.Val
  heap : L.Heap
  tmp : Nat → L.Val

/-- The value of an expression in a state (target language, translators/statement.py:1456). -/
def St.eval (s : St L) (e : TExpr L.Val) : L.Val := evalT L.toLang s.env s.heap s.tmp e

mutual
/-- Execution of one Viper statement (target language; the statements of
translators/statement.py:1057, 1085, 1404-1411, 1447-1457, 1511-1514). -/
def run (s : St L) : AStmt L.Val → St L
  | .hoisted q =>
    let r := execS L.toLang s.env q (s.heap, s.tmp)
    { s with heap := r.1, tmp := r.2 }
  | .setVar x e => { s with env := fun y => if y = x then s.eval L e else s.env y }
  | .setField r f e => { s with heap := L.write s.heap (s.eval L r) f (s.eval L e) }
  | .setProp r p e => { s with heap := L.setter s.heap (s.eval L r) p (s.eval L e) }
  | .setItem r i e => { s with heap := L.setitem s.heap (s.eval L r) (s.eval L i) (s.eval L e) }
  | .ite c a b => if L.truthy (s.eval L c) then runs s a else runs s b

/-- Execution of a list of Viper statements (target language, translators/statement.py:1661). -/
def runs (s : St L) : AStmts L.Val → St L
  | .nil => s
  | .cons q qs => runs (run s q) qs
end

end

end Nagini.Stores
