import Verif.Model.Hoist

/-!
Specification: Python's evaluation of expressions (Python Language Reference
6.16 "Evaluation order", 6.10 comparisons, 6.11 Boolean operations, 6.13
conditional expressions), independent of the translation.
-/
namespace Nagini.Hoist
open Nagini.Hoist

section
variable (L : Lang)

mutual
/-- Python evaluates operands left to right, threading the heap. -/
def pyEval (env : Nat → L.Val) : Expr L.Val → L.Heap → L.Val × L.Heap
  | .const v, h => (v, h)
  | .var x, h => (env x, h)
  | .field e f, h => let (v, h1) := pyEval env e h; (L.read h1 v f, h1)
  | .app f args, h => let (vs, h1) := pyArgs env args h; (L.app f vs, h1)
  | .unop f e, h => let (v, h1) := pyEval env e h; (L.app f [v], h1)
  | .not e, h => let (v, h1) := pyEval env e h; (L.ofBool (!L.truthy v), h1)
  | .ife c a b, h =>
    let (v, h1) := pyEval env c h
    if L.truthy v then pyEval env a h1 else pyEval env b h1
  | .boolop isAnd _ first rest, h =>
    let (v, h1) := pyEval env first h
    pyBool env isAnd v rest h1
  | .cmp first op second rest, h =>
    let (v, h1) := pyEval env first h
    let (v1, h2) := pyEval env second h1
    pyCmp env v1 (L.cmp op v v1) rest h2
  | .call m args, h => let (vs, h1) := pyArgs env args h; L.call m vs h1

/-- Operands evaluated left to right. -/
def pyArgs (env : Nat → L.Val) : Exprs L.Val → L.Heap → List L.Val × L.Heap
  | .nil, h => ([], h)
  | .cons e es, h =>
    let (v, h1) := pyEval env e h
    let (vs, h2) := pyArgs env es h1
    (v :: vs, h2)

/-- `v and rest...` / `v or rest...`: stop as soon as the result is decided. -/
def pyBool (env : Nat → L.Val) (isAnd : Bool) (v : L.Val) : Exprs L.Val → L.Heap → L.Val × L.Heap
  | .nil, h => (v, h)
  | .cons e es, h =>
    if L.truthy v = isAnd then
      let (v1, h1) := pyEval env e h
      pyBool env isAnd v1 es h1
    else (v, h)

/-- The rest of a comparison chain whose last operand had value `v` and whose
links so far had result `b`: stop at the first false link. -/
def pyCmp (env : Nat → L.Val) (v : L.Val) (b : Bool) : Links L.Val → L.Heap → L.Val × L.Heap
  | .nil, h => (L.ofBool b, h)
  | .cons op e ls, h =>
    if b then
      let (v1, h1) := pyEval env e h
      pyCmp env v1 (L.cmp op v v1) ls h1
    else (L.ofBool false, h)
end

end

variable {V : Type}

mutual
/-- Does evaluating the expression call a method (and so possibly write the heap)? -/
def Expr.calls : Expr V → Bool
  | .const _ | .var _ => false
  | .field e _ => e.calls
  | .app _ args => args.calls
  | .unop _ e => e.calls
  | .not e => e.calls
  | .ife c a b => c.calls || a.calls || b.calls
  | .boolop _ _ first rest => first.calls || rest.calls
  | .cmp first _ second rest => first.calls || second.calls || rest.calls
  | .call _ _ => true

def Exprs.calls : Exprs V → Bool
  | .nil => false
  | .cons e es => e.calls || es.calls

def Links.calls : Links V → Bool
  | .nil => false
  | .cons _ e ls => e.calls || ls.calls
end

mutual
/-- Does the *value* of the expression depend on a field read that is not already
captured in the result of a call? -/
def Expr.reads : Expr V → Bool
  | .const _ | .var _ => false
  | .field _ _ => true
  | .app _ args => args.reads
  | .unop _ e => e.reads
  | .not e => e.reads
  | .ife c a b => c.reads || a.reads || b.reads
  | .boolop _ _ first rest => first.reads || rest.reads
  | .cmp first _ second rest => first.reads || second.reads || rest.reads
  | .call _ _ => false

def Exprs.reads : Exprs V → Bool
  | .nil => false
  | .cons e es => e.reads || es.reads

def Links.reads : Links V → Bool
  | .nil => false
  | .cons _ e ls => e.reads || ls.reads
end

mutual
/-- The guard under which hoisting is faithful: an operand whose value reads the
heap is never followed by a sibling operand that calls a method; the operand of a
unary operator does not call methods; in a comparison chain only the first two
operands call methods. -/
def Expr.Ordered : Expr V → Prop
  | .const _ | .var _ => True
  | .field e _ => e.Ordered
  | .app _ args => args.Ordered
  | .unop _ e => e.Ordered ∧ e.calls = false
  | .not e => e.Ordered
  | .ife c a b => c.Ordered ∧ a.Ordered ∧ b.Ordered ∧
      (c.reads = true → a.calls = false ∧ b.calls = false)
  | .boolop _ _ first rest => first.Ordered ∧ rest.Ordered ∧ (first.reads = true → rest.calls = false)
  | .cmp first _ second rest => first.Ordered ∧ second.Ordered ∧ rest.Ordered ∧
      (first.reads = true → second.calls = false) ∧ rest.calls = false
  | .call _ args => args.Ordered

def Exprs.Ordered : Exprs V → Prop
  | .nil => True
  | .cons e es => e.Ordered ∧ es.Ordered ∧ (e.reads = true → es.calls = false)

def Links.Ordered : Links V → Prop
  | .nil => True
  | .cons _ e ls => e.Ordered ∧ ls.Ordered
end

section
variable (L : Lang)
mutual
/-- Static types are right: operands of a Boolean operation marked `allBool`
evaluate to booleans. -/
def Expr.WellTyped : Expr L.Val → Prop
  | .const _ | .var _ => True
  | .field e _ => e.WellTyped
  | .app _ args => args.WellTyped
  | .unop _ e => e.WellTyped
  | .not e => e.WellTyped
  | .ife c a b => c.WellTyped ∧ a.WellTyped ∧ b.WellTyped
  | .boolop _ allBool first rest => first.WellTyped ∧ rest.WellTyped ∧
      (allBool = true → (∀ env h, ∃ b, (pyEval L env first h).1 = L.ofBool b) ∧ rest.BoolTyped)
  | .cmp first _ second rest => first.WellTyped ∧ second.WellTyped ∧ rest.WellTyped
  | .call _ args => args.WellTyped

def Exprs.WellTyped : Exprs L.Val → Prop
  | .nil => True
  | .cons e es => e.WellTyped ∧ es.WellTyped

def Links.WellTyped : Links L.Val → Prop
  | .nil => True
  | .cons _ e ls => e.WellTyped ∧ ls.WellTyped

def Exprs.BoolTyped : Exprs L.Val → Prop
  | .nil => True
  | .cons e es => (∀ env h, ∃ b, (pyEval L env e h).1 = L.ofBool b) ∧ es.BoolTyped
end
end

end Nagini.Hoist
