import Verif.Model.Stores
import Verif.Spec.Hoist

/-!
Python's assignment statements (Python Language Reference 7.2): the right-hand side is evaluated
once; then its value is assigned to the targets from left to right, the parts of each target being
evaluated from left to right just before the store.
-/
namespace Nagini.Stores

open Nagini.Hoist

section
variable (L : Lang)

/-- Assigning the value `v` to one target. -/
def pyStore (env : Nat → L.Val) (h : L.Heap) (v : L.Val) : Target L.Val → (Nat → L.Val) × L.Heap
  | .name x => (fun y => if y = x then v else env y, h)
  | .attr e f => let r := pyEval L.toLang env e h; (env, L.write r.2 r.1 f v)
  | .prop e p => let r := pyEval L.toLang env e h; (env, L.setter r.2 r.1 p v)
  | .item e i =>
    let r := pyEval L.toLang env e h
    let j := pyEval L.toLang env i r.2
    (env, L.setitem j.2 r.1 j.1 v)

/-- Assigning the value `v` to all targets. -/
def pyStores (env : Nat → L.Val) (h : L.Heap) (v : L.Val) :
    List (Target L.Val) → (Nat → L.Val) × L.Heap
  | [] => (env, h)
  | t :: ts => let r := pyStore L env h v t; pyStores r.1 r.2 v ts

mutual
/-- Executing one statement. -/
def pyStmt (env : Nat → L.Val) (h : L.Heap) : Stmt L.Val → (Nat → L.Val) × L.Heap
  | .assign ts e => let r := pyEval L.toLang env e h; pyStores L env r.2 r.1 ts
  | .expr e => (env, (pyEval L.toLang env e h).2)
  | .ite c a b =>
    let r := pyEval L.toLang env c h
    if L.truthy r.1 then pyStmts env r.2 a else pyStmts env r.2 b

/-- Executing a list of statements. -/
def pyStmts (env : Nat → L.Val) (h : L.Heap) : Stmts L.Val → (Nat → L.Val) × L.Heap
  | .nil => (env, h)
  | .cons s ss => let r := pyStmt env h s; pyStmts r.1 r.2 ss
end

end

variable {V : Type}

mutual
/-- Does the *value* of the expression depend on variable `x`, other than through the result of a
call? -/
def uses (x : Nat) : Expr V → Bool
  | .const _ => false
  | .var y => y == x
  | .field e _ => uses x e
  | .app _ args => usesAny x args
  | .unop _ e => uses x e
  | .not e => uses x e
  | .ife c a b => uses x c || uses x a || uses x b
  | .boolop _ _ first rest => uses x first || usesAny x rest
  | .cmp first _ second rest => uses x first || uses x second || usesLinks x rest
  | .call _ _ => false

def usesAny (x : Nat) : Exprs V → Bool
  | .nil => false
  | .cons e es => uses x e || usesAny x es

def usesLinks (x : Nat) : Links V → Bool
  | .nil => false
  | .cons _ e ls => uses x e || usesLinks x ls
end

/-- Evaluating the parts of the target calls a method. -/
def Target.calls : Target V → Bool
  | .name _ => false
  | .attr e _ => e.calls
  | .prop e _ => e.calls
  | .item e i => e.calls || i.calls

/-- The parts of the target are in the order that the translation of expressions preserves. -/
def Target.Ordered : Target V → Prop
  | .name _ => True
  | .attr e _ => e.Ordered
  | .prop e _ => e.Ordered
  | .item e i => e.Ordered ∧ i.Ordered ∧ (e.reads = true → i.calls = false)

/-- The condition under which the value of the right-hand side may be computed at each store: an
expression that reads the heap is stored before anything changes the heap, and no variable it uses is
a target to the left of another one. -/
def Stable (e : Expr V) : List (Target V) → Prop
  | [] => True
  | [t] => e.reads = true → t.calls = false
  | .name x :: ts => uses x e = false ∧ Stable e ts
  | _ :: ts => e.reads = false ∧ Stable e ts

mutual
/-- All assignments of a statement satisfy these conditions. -/
def Stmt.Ok : Stmt V → Prop
  | .assign ts e => e.Ordered ∧ (∀ t ∈ ts, t.Ordered) ∧ Stable e ts
  | .expr e => e.Ordered
  | .ite c a b => c.Ordered ∧ a.Ok ∧ b.Ok

def Stmts.Ok : Stmts V → Prop
  | .nil => True
  | .cons s ss => s.Ok ∧ ss.Ok
end

section
variable (L : Lang)

/-- Static types of the target's parts are right. -/
def Target.WellTyped : Target L.Val → Prop
  | .name _ => True
  | .attr e _ => Expr.WellTyped L.toLang e
  | .prop e _ => Expr.WellTyped L.toLang e
  | .item e i => Expr.WellTyped L.toLang e ∧ Expr.WellTyped L.toLang i

mutual
/-- Static types are right. -/
def Stmt.WellTyped : Stmt L.Val → Prop
  | .assign ts e => Expr.WellTyped L.toLang e ∧ ∀ t ∈ ts, Target.WellTyped L t
  | .expr e => Expr.WellTyped L.toLang e
  | .ite c a b => Expr.WellTyped L.toLang c ∧ a.WellTyped ∧ b.WellTyped

def Stmts.WellTyped : Stmts L.Val → Prop
  | .nil => True
  | .cons s ss => s.WellTyped ∧ ss.WellTyped
end
end

end Nagini.Stores
