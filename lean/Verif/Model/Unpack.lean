/-
Model of assignment to (nested, starred) targets.
-/
namespace Nagini.Unpack

/-- Python values: opaque atoms and sequences (tuples/lists) that
translators/statement.py:1544-1625 can unpack. -/
inductive Val where
  | atom (i : Int)
  | seq (vs : List Val)

/-- Translated right-hand sides: side-effect free Viper expressions.  `tup` is the
application of `tuple___createN__`, `item` of `__getitem__` with a literal index.
Models the results of /repo/src/nagini_translation/translators/expression.py:713-747
(`translate_Tuple`) and translators/statement.py:1370-1376. -/
inductive RExpr where
  | const (v : Val)
  | var (x : Nat)
  | pair (a b : RExpr)
  | item (e : RExpr) (i : Nat)

/-- Assignment targets: a local variable, a starred local variable, a tuple
(the cases of translators/statement.py:1349-1383). -/
inductive Target where
  | name (x : Nat)
  | star (x : Nat)
  | tuple (ts : List Target)

/-- Emitted statements (translators/statement.py:1563-1573, 1370-1383, 1579-1625). -/
inductive TStmt where
  /-- `assert len(e) == n` / `assert n <= len(e)` -/
  | assertLen (e : RExpr) (exact : Bool) (n : Nat)
  | assign (x : Nat) (e : RExpr)
  /-- `x := new list with contents e[..len(e) - after][from..]` -/
  | assignSeg (x : Nat) (e : RExpr) (from' after : Nat)
  /-- internal assertion error in the translator -/
  | crash

/-- Local variables of the emitted method (`LocalVarAssign`,
translators/statement.py:1377-1383). -/
abbrev Store := Nat → Val

/-- `LocalVarAssign` (translators/statement.py:1377-1383). -/
def Store.set (σ : Store) (x : Nat) (v : Val) : Store := fun y => if y = x then v else σ y

/-- Evaluation of right-hand sides; `none` when a precondition (`__getitem__` in
range, sequence type) fails.  Target semantics of the expressions of
translators/statement.py:1370-1376 and translators/expression.py:713-747. -/
def RExpr.eval (σ : Store) : RExpr → Option Val
  | .const v => some v
  | .var x => some (σ x)
  | .pair a b =>
    match a.eval σ, b.eval σ with
    | some va, some vb => some (.seq [va, vb])
    | _, _ => none
  | .item e i =>
    match e.eval σ with
    | some (.seq vs) => vs[i]?
    | _ => none

/-- Local variables read by a right-hand side (of translators/statement.py:1643). -/
def RExpr.vars : RExpr → List Nat
  | .const _ => []
  | .var x => [x]
  | .pair a b => a.vars ++ b.vars
  | .item e _ => e.vars

/-- `isinstance(target, ast.Starred)` (translators/statement.py:1546, 1563). -/
def isStar : Target → Bool
  | .star _ => true
  | _ => false

mutual
/-- `assign_to` without index.  Models translators/statement.py:1349-1383; a
starred target outside a tuple violates the assertion in line 1579.
Only local-variable leaves are modelled (attributes and subscripts are not). -/
def assignTo : Target → RExpr → List TStmt
  | .name x, e => [.assign x e]
  | .star _, _ => [.crash]
  | .tuple ts, e =>
    -- `_assign_to_tuple`, lines 1563-1573: the length assertion comes first
    .assertLen e (!ts.any isStar) (if ts.any isStar then ts.length - 1 else ts.length) ::
      assignElems ts e 0

/-- The loop of `_assign_to_tuple` from target number `index` on.  A starred
target gets the segment from its own index to `len - (number of targets after
it)`; every other target gets the element at its *own index in the target list*.
Models translators/statement.py:1544-1562, 1575-1625. -/
def assignElems : List Target → RExpr → (index : Nat) → List TStmt
  | [], _, _ => []
  | .star x :: ts, e, index => .assignSeg x e index ts.length :: assignElems ts e (index + 1)
  | .name x :: ts, e, index => .assign x (.item e index) :: assignElems ts e (index + 1)
  | .tuple us :: ts, e, index => assignTo (.tuple us) (.item e index) ++ assignElems ts e (index + 1)
end

/-- `translate_stmt_Assign`: the *expression* `rhs` is used for every target.
Models translators/statement.py:1643-1664. -/
def transAssign (targets : List Target) (rhs : RExpr) : List TStmt :=
  targets.flatMap (assignTo · rhs)

/-- Semantics of one emitted statement; `none` is a verification failure.
Target semantics of what translators/statement.py:1563-1625 emits. -/
def TStmt.exec (σ : Store) : TStmt → Option Store
  | .assertLen e exact n =>
    match e.eval σ with
    | some (.seq vs) => if (if exact then vs.length = n else n ≤ vs.length) then some σ else none
    | _ => none
  | .assign x e => (e.eval σ).map (σ.set x)
  | .assignSeg x e f a =>
    match e.eval σ with
    | some (.seq vs) => some (σ.set x (.seq ((vs.take (vs.length - a)).drop f)))
    | _ => none
  | .crash => none

/-- The emitted list in order (translators/statement.py:1643-1664). -/
def execAll (σ : Store) : List TStmt → Option Store
  | [] => some σ
  | s :: ss => (s.exec σ).bind fun σ' => execAll σ' ss

end Nagini.Unpack
