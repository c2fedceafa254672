/-
Model of the expression translation: Python expressions (with calls that change
the heap) become a list of statements plus one side-effect free expression that
is evaluated after the statements.
-/
namespace Nagini.Hoist

/-- The uninterpreted parts of the language: what pure operations, field reads
and method calls do.  Theorems quantify over every `Lang`, i.e. over every
behaviour of callees.  Stands for what the callees of translators/call.py:860-987,
the field reads of translators/expression.py:1171-1189 and the operator functions
of translators/expression.py:1243-1251 do; not itself code of nagini. -/
structure Lang where
  Val : Type
  Heap : Type
  truthy : Val → Bool
  ofBool : Bool → Val
  truthy_ofBool : ∀ b, truthy (ofBool b) = b
  /-- heap read `recv.f` -/
  read : Heap → Val → Nat → Val
  /-- side-effect free n-ary operation: operator, tuple display, `@Pure` call -/
  app : Nat → List Val → Val
  /-- pairwise comparison -/
  cmp : Nat → Val → Val → Bool
  /-- a method call: result value and new heap -/
  call : Nat → List Val → Heap → Val × Heap

mutual
/-- Python expressions (the fragment of `ast.expr` handled by the translation
functions cited at `trans`, translators/expression.py:948-1676). -/
inductive Expr (V : Type) where
  | const (v : V)
  | var (x : Nat)
  /-- `e.f` -/
  | field (e : Expr V) (f : Nat)
  /-- binary operation, tuple display, call of a pure function -/
  | app (f : Nat) (args : Exprs V)
  /-- unary `+`, `-`, `~` -/
  | unop (f : Nat) (e : Expr V)
  /-- `not e` -/
  | not (e : Expr V)
  /-- `a if c else b` -/
  | ife (c a b : Expr V)
  /-- `e1 and e2 ...` / `e1 or e2 ...`; `allBool` records whether all operands
  have static type `bool` -/
  | boolop (isAnd allBool : Bool) (first : Expr V) (rest : Exprs V)
  /-- `e0 op1 e1 op2 e2 ...` (at least one operator) -/
  | cmp (first : Expr V) (op : Nat) (second : Expr V) (rest : Links V)
  /-- call of a (possibly impure) method -/
  | call (m : Nat) (args : Exprs V)

/-- Operand lists (`node.args`, `node.values`, `node.elts`; translators/call.py:860,
translators/expression.py:1593 and 719). -/
inductive Exprs (V : Type) where
  | nil
  | cons (e : Expr V) (es : Exprs V)

/-- `zip(node.ops, node.comparators)` (translators/expression.py:1434). -/
inductive Links (V : Type) where
  | nil
  | cons (op : Nat) (e : Expr V) (ls : Links V)
end

/-- Viper expressions produced by the translation; `tmp` are the fresh result
variables created for method calls.  The constructors used by
translators/expression.py:1171-1676 (`CondExp`, `And`, `Or`, `Not`, `FieldAccess`,
`FuncApp`, `LocalVar`). -/
inductive TExpr (V : Type) where
  | const (v : V)
  | var (x : Nat)
  | tmp (n : Nat)
  | read (e : TExpr V) (f : Nat)
  | app (f : Nat) (args : List (TExpr V))
  | not (e : TExpr V)
  | cond (c a b : TExpr V)
  | and (a b : TExpr V)
  | or (a b : TExpr V)
  | cmp (op : Nat) (a b : TExpr V)
  /-- `to_bool` -/
  | toBool (e : TExpr V)

/-- Viper statements produced by the translation (`MethodCall` with one target,
`If`; translators/expression.py:1225-1231 and 1659-1671). -/
inductive TStmt (V : Type) where
  | call (target m : Nat) (args : List (TExpr V))
  | ite (c : TExpr V) (thn els : List (TStmt V))

variable {V : Type}

/-- `join_expressions`: the parts are joined backwards, the last two being most
nested.  Models /repo/src/nagini_translation/lib/util.py:287-312 (the loop over
`reversed(...)` written as a right fold; the empty list, on which Python raises
IndexError, cannot occur because the first part is separate). -/
def joinE (op : TExpr V → TExpr V → TExpr V) (x : TExpr V) : List (TExpr V) → TExpr V
  | [] => x
  | y :: ys => op x (joinE op y ys)

/-- `join_three_expressions` with the operators of `translate_BoolOp` for
non-boolean operands: `CondExp(bool(l), r, l)` for `and`, `CondExp(bool(l), l, r)`
for `or`.  Models lib/util.py:303-312 and translators/expression.py:1640-1657. -/
def joinVal (isAnd : Bool) (x : TExpr V) : List (TExpr V) → TExpr V
  | [] => x
  | y :: ys =>
    if isAnd then .cond (.toBool x) (joinVal isAnd y ys) x
    else .cond (.toBool x) x (joinVal isAnd y ys)

/-- `joined_bool_parts[i]` for the parts `x :: xs`.
Models translators/expression.py:1626-1638. -/
def joinBool (isAnd : Bool) (x : TExpr V) (xs : List (TExpr V)) : TExpr V :=
  joinE (if isAnd then .and else .or) (.toBool x) (xs.map .toBool)

/-- The loop that guards the statements of part `i+1` by the joined condition of
the parts `0..i` (negated for `or`); parts without statements emit nothing.
Models translators/expression.py:1659-1671. -/
def guardStmts (isAnd : Bool) (x : TExpr V) (pre : List (TExpr V)) :
    List (List (TStmt V) × TExpr V) → List (TStmt V)
  | [] => []
  | (ss, te) :: rest =>
    (if ss.isEmpty then []
     else [.ite (if isAnd then joinBool isAnd x pre else .not (joinBool isAnd x pre)) ss []]) ++
      guardStmts isAnd x (pre ++ [te]) rest

/-- The conjunction over all links of a comparison chain: `acc` is the comparison
built so far, `l` the last operand.
Models translators/expression.py:1443-1459. -/
def joinCmp (acc l : TExpr V) : List (Nat × TExpr V) → TExpr V
  | [] => acc
  | (op, r) :: rest => joinCmp (.and acc (.cmp op l r)) r rest

mutual
/-- The expression translation: statements, expression, next fresh variable.
* constants and names: `translate_Name` (translators/expression.py:948-1013)
* `field`: `translate_Attribute` (1171-1173, 1188-1189), instance field
* `app`: `translate_BinOp` (1243-1251) with an operator that is a function,
  `translate_Tuple` (713-747), pure calls
* `unop`: `translate_UnaryOp` (1191-1211), operators other than `not`; the
  statements of the operand are *not* returned by the code
* `not`: 1193-1197;  `ife`: `translate_IfExp` (1213-1241)
* `boolop`: `translate_BoolOp` (1581-1676);  `cmp`: `translate_Compare` (1418-1459)
* `call`: arguments left to right (translators/call.py:860-987), result stored
  in a fresh variable (`_only_translate_method_call`).
Simplified: no exceptions (no exception catchers after calls), operators that are
methods are represented by `call`, SIF-only assertions are left out. -/
def trans (n : Nat) : Expr V → List (TStmt V) × TExpr V × Nat
  | .const v => ([], .const v, n)
  | .var x => ([], .var x, n)
  | .field e f => let (ss, te, n1) := trans n e; (ss, .read te f, n1)
  | .app f args => let (ps, n1) := transArgs n args; (ps.flatMap (·.1), .app f (ps.map (·.2)), n1)
  | .unop f e => let (_, te, n1) := trans n e; ([], .app f [te], n1)
  | .not e => let (ss, te, n1) := trans n e; (ss, .not (.toBool te), n1)
  | .ife c a b =>
    let (cs, tc, n1) := trans n c
    let (as, ta, n2) := trans n1 a
    let (bs, tb, n3) := trans n2 b
    (cs ++ (if as.isEmpty && bs.isEmpty then [] else [.ite (.toBool tc) as bs]),
      .cond (.toBool tc) ta tb, n3)
  | .boolop isAnd allBool first rest =>
    let (ss, te, n1) := trans n first
    let (ps, n2) := transArgs n1 rest
    (ss ++ guardStmts isAnd te [] ps,
      if allBool then joinBool isAnd te (ps.map (·.2)) else joinVal isAnd te (ps.map (·.2)), n2)
  | .cmp first op second rest =>
    let (ss, te, n1) := trans n first
    let (ss', te', n2) := trans n1 second
    let (ps, n3) := transLinks n2 rest
    (ss ++ ss' ++ ps.flatMap (·.2.1),
      joinCmp (.cmp op te te') te' (ps.map fun p => (p.1, p.2.2)), n3)
  | .call m args =>
    let (ps, n1) := transArgs n args
    (ps.flatMap (·.1) ++ [.call n1 m (ps.map (·.2))], .tmp n1, n1 + 1)

/-- Operands translated left to right (translators/call.py:870-880,
translators/expression.py:1600-1618, 713-720). -/
def transArgs (n : Nat) : Exprs V → List (List (TStmt V) × TExpr V) × Nat
  | .nil => ([], n)
  | .cons e es =>
    let (ss, te, n1) := trans n e
    let (ps, n2) := transArgs n1 es
    ((ss, te) :: ps, n2)

/-- Operands of a comparison chain, translated left to right
(translators/expression.py:1434-1442). -/
def transLinks (n : Nat) : Links V → List (Nat × List (TStmt V) × TExpr V) × Nat
  | .nil => ([], n)
  | .cons op e ls =>
    let (ss, te, n1) := trans n e
    let (ps, n2) := transLinks n1 ls
    ((op, ss, te) :: ps, n2)
end

section Target
variable (L : Lang)

mutual
/-- Semantics of Viper expressions (specification of the target language: pure
evaluation in the current state) for the nodes built in
translators/expression.py:1174-1674. -/
def evalT (env : Nat → L.Val) (h : L.Heap) (t : Nat → L.Val) : TExpr L.Val → L.Val
  | .const v => v
  | .var x => env x
  | .tmp n => t n
  | .read e f => L.read h (evalT env h t e) f
  | .app f args => L.app f (evalTs env h t args)
  | .not e => L.ofBool (!L.truthy (evalT env h t e))
  | .cond c a b => if L.truthy (evalT env h t c) then evalT env h t a else evalT env h t b
  | .and a b => L.ofBool (L.truthy (evalT env h t a) && L.truthy (evalT env h t b))
  | .or a b => L.ofBool (L.truthy (evalT env h t a) || L.truthy (evalT env h t b))
  | .cmp op a b => L.ofBool (L.cmp op (evalT env h t a) (evalT env h t b))
  | .toBool e => L.ofBool (L.truthy (evalT env h t e))

/-- Argument lists of the nodes built in translators/expression.py:713-747. -/
def evalTs (env : Nat → L.Val) (h : L.Heap) (t : Nat → L.Val) : List (TExpr L.Val) → List L.Val
  | [] => []
  | e :: es => evalT env h t e :: evalTs env h t es
end

mutual
/-- Semantics of one Viper statement (target language; the statements are those of
translators/expression.py:1224-1252, 1657-1669). -/
def execS (env : Nat → L.Val) : TStmt L.Val → L.Heap × (Nat → L.Val) → L.Heap × (Nat → L.Val)
  | .call x m args, (h, t) =>
    let (v, h') := L.call m (evalTs L env h t args) h
    (h', fun y => if y = x then v else t y)
  | .ite c a b, (h, t) =>
    if L.truthy (evalT L env h t c) then exec env a (h, t) else exec env b (h, t)

/-- Semantics of a statement list (the lists concatenated in
translators/expression.py:1174-1674). -/
def exec (env : Nat → L.Val) : List (TStmt L.Val) → L.Heap × (Nat → L.Val) → L.Heap × (Nat → L.Val)
  | [], s => s
  | st :: ss, s => exec env ss (execS env st s)
end

end Target

end Nagini.Hoist
