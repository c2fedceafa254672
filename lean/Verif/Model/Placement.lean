import Verif.Model.Body
/-!
Model of where contract statements may stand: the analyzer collects every call of a contract
function that it visits, and the translator rejects those that it meets in code.
-/
namespace Nagini.Placement

open Nagini.Body (Fn Nm)

/-- Expressions: a leaf, a call, any other expression with its parts.  Models the nodes that
analyzer.py:459-467 walks through; the arguments of the inner call of `f(..)(..)` are left out,
and so are `Thread` and `getOld`, whose arguments are not visited (analyzer.py:1257-1260). -/
inductive E
  | atom (n : Nat)
  | call (f : Fn) (args : List E)
  | op (n : Nat) (args : List E)

/-- Statements: a string, a global declaration, a call, a statement without blocks, a statement
with blocks (`if`, `try`, `with`, `match`; with two blocks, more can be nested), loops with their
identity.  Models the statements distinguished in analyzer.py:913-937 and lib/util.py:176-214. -/
inductive S
  | str
  | glob
  | call (f : Fn) (args : List E)
  | simple (n : Nat) (es : List E)
  | block (es : List E) (a b : List S)
  | whileLoop (n : Nat) (cond : E) (body orelse : List S)
  | forLoop (n : Nat) (target iter : E) (body orelse : List S)

/-- The contract functions.  Models `CONTRACT_WRAPPER_FUNCS` as used in analyzer.py:1210-1211. -/
inductive Kind
  | requires | ensures | exsures | decreases | invariant
deriving DecidableEq

/-- The contract function with a name.  Models analyzer.py:1215-1246. -/
def kindOf : Nm → Option Kind
  | .requires => some .requires
  | .ensures => some .ensures
  | .exsures => some .exsures
  | .decreases => some .decreases
  | .invariant => some .invariant
  | _ => none

/-- The function part of a call is the name of a contract function.  Models analyzer.py:1210-1211
and translators/call.py:1391-1396. -/
def contractOf : Fn → Option Kind
  | .name n => kindOf n
  | _ => none

/-- What is analysed: a method or the statements of a module.  Models the attributes `pure`,
`inline`, `contract_only` (analyzer.py:856-882) and the class of `stmt_container`
(analyzer.py:116-121). -/
structure U where
  pure : Bool
  inlined : Bool
  contractOnly : Bool
  isModule : Bool

/-- A collected contract: the entry of `precondition`, `postcondition`, `declared_exceptions`,
`decreases_clauses` or `loop_invariants[loop]`.  Models analyzer.py:1215-1250. -/
structure Rec where
  kind : Kind
  loop : Option Nat
  args : List E

/-- The checks of `visit_Call` succeed: inlined methods have no contract but invariants, measures
belong to pure methods, `Exsures` needs a function (there is no `current_function` in a module),
invariants need a loop.  Models analyzer.py:1200-1203, analyzer.py:1212-1213,
analyzer.py:1235-1237, analyzer.py:1242, analyzer.py:1247-1248. -/
def allowed (u : U) (cur : Option Nat) : Kind → Bool
  | .invariant => cur.isSome
  | .requires => !u.inlined
  | .ensures => !u.inlined
  | .decreases => !u.inlined && (!u.isModule && u.pure)
  | .exsures => !u.inlined && !u.isModule

/-- The entry for a call of a contract function; only invariants are entered for a loop.  Models
analyzer.py:1215-1250. -/
def entry (cur : Option Nat) (k : Kind) (args : List E) : Rec :=
  match k with
  | .invariant => ⟨.invariant, cur, args⟩
  | k => ⟨k, none, args⟩

/-- Two visits one after the other; `none` is an exception.  Models analyzer.py:459-467. -/
def seqv (a b : Option (List Rec)) : Option (List Rec) :=
  match a, b with
  | some x, some y => some (x ++ y)
  | _, _ => none

mutual
/-- `visit` of an expression: a call of a contract function is entered, then its arguments are
visited.  Models analyzer.py:1205-1270 and `visit_default` (analyzer.py:459-467). -/
def visitE (u : U) (cur : Option Nat) : E → Option (List Rec)
  | .atom _ => some []
  | .call f args =>
    match contractOf f with
    | some k =>
      if allowed u cur k then seqv (some [entry cur k args]) (visitEs u cur args) else none
    | none => visitEs u cur args
  | .op _ args => visitEs u cur args
/-- The expressions of a list in order.  Models analyzer.py:459-467. -/
def visitEs (u : U) (cur : Option Nat) : List E → Option (List Rec)
  | [] => some []
  | e :: es => seqv (visitE u cur e) (visitEs u cur es)
end

mutual
/-- `visit` of a statement.  A loop replaces the current loop for its condition or target, its
body and its `else` block; the iterated expression of a `for` loop is not visited.  Models
analyzer.py:913-937 and `visit_default` (analyzer.py:459-467). -/
def visitS (u : U) (cur : Option Nat) : S → Option (List Rec)
  | .str => some []
  | .glob => some []
  | .call f args => visitE u cur (.call f args)
  | .simple _ es => visitEs u cur es
  | .block es a b => seqv (visitEs u cur es) (seqv (visitSs u cur a) (visitSs u cur b))
  | .whileLoop n c body orelse =>
    seqv (visitE u (some n) c) (seqv (visitSs u (some n) body) (visitSs u (some n) orelse))
  | .forLoop n t _ body orelse =>
    seqv (visitE u (some n) t) (seqv (visitSs u (some n) body) (visitSs u (some n) orelse))
/-- The statements of a list in order.  Models analyzer.py:905-910, analyzer.py:922-930. -/
def visitSs (u : U) (cur : Option Nat) : List S → Option (List Rec)
  | [] => some []
  | s :: ss => seqv (visitS u cur s) (visitSs u cur ss)
end

/-- The statement as `get_body_indices` sees it.  Models lib/util.py:112-214. -/
def toBody : S → Body.Stmt
  | .str => .str
  | .glob => .glob
  | .call f _ => .call f
  | .simple n _ => .other n
  | .block _ _ _ => .other 0
  | .whileLoop n _ _ _ => .other n
  | .forLoop n _ _ _ _ => .other n

mutual
/-- Translating an expression succeeds: no call of a contract function is met.  Models
translators/call.py:1391-1397; other reasons to reject an expression are left out. -/
def plainE : E → Bool
  | .atom _ => true
  | .call f args => (contractOf f).isNone && plainEs args
  | .op _ args => plainEs args
/-- The same for lists.  Models translators/call.py:1391-1397. -/
def plainEs : List E → Bool
  | [] => true
  | e :: es => plainE e && plainEs es
end

/-- The results for the statements of the window that `get_body_indices` computes.  Models
translators/statement.py:1688-1691, translators/method.py:519-526, translators/method.py:341-349. -/
def window (ss : List S) (rs : List Bool) : Bool :=
  match Body.bodyIndices (ss.map toBody) with
  | none => false
  | some (a, b) => ((rs.take b).drop a).all id

mutual
/-- Translating a statement succeeds, as far as contract functions are concerned.  The statements
of a loop are those of the window, the `else` block and all other blocks are translated
completely.  Models translators/statement.py:1046-1078, translators/statement.py:765-767,
translators/statement.py:834, translators/statement.py:1688-1743. -/
def codeS : S → Bool
  | .str => true
  | .glob => true
  | .call f args => plainE (.call f args)
  | .simple _ es => plainEs es
  | .block es a b => plainEs es && ((codeSs a).all id && (codeSs b).all id)
  | .whileLoop _ c body orelse => plainE c && (window body (codeSs body) && (codeSs orelse).all id)
  | .forLoop _ t i body orelse =>
    plainE t && (plainE i && (window body (codeSs body) && (codeSs orelse).all id))
/-- The results for a list of statements.  Models translators/statement.py:1690-1691. -/
def codeSs : List S → List Bool
  | [] => []
  | s :: ss => codeS s :: codeSs ss
end

/-- The check of the statements of a module before they are visited: no expression statement
whose function name is the one of a contract function.  Models analyzer.py:443-456. -/
def topOk (s : S) : Bool :=
  match Body.funcName (toBody s) with
  | none => false
  | some none => true
  | some (some n) => (kindOf n).isNone

/-- The contracts that are translated into conditions that Viper checks: all for a method; the
main method is created without pre- and postconditions, so only the invariants for a module; a
method without body has no loops.  Models translators/method.py:75, translators/method.py:147,
translators/method.py:196, translators/method.py:314, translators/method.py:1032-1034,
translators/method.py:337-338. -/
def checked (u : U) (r : Rec) : Bool :=
  match r.kind with
  | .invariant => !u.contractOnly
  | _ => !u.isModule

/-- The body is translated: not at all, completely for a module, the window for a method.  Models
translators/method.py:337-349, translators/method.py:519-526, translators/method.py:1019-1020. -/
def bodyOk (u : U) (ss : List S) : Bool :=
  if u.contractOnly then true
  else if u.isModule then ss.all topOk && (codeSs ss).all id
  else window ss (codeSs ss)

/-- The collected contracts, if the analyzer and the translator accept the unit: the body and the
arguments of all contracts that are used are translated.  Models analyzer.py:905-911,
translators/contract.py:76-82, translators/method.py:516-528. -/
def run (u : U) (ss : List S) : Option (List Rec) :=
  match visitSs u none ss with
  | none => none
  | some rs =>
    if bodyOk u ss && rs.all (fun r => !checked u r || plainEs r.args) then some rs else none

end Nagini.Placement
