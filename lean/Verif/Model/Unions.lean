import Verif.Model.Args

/-!
Calls of methods on receivers whose static type is a union: `translate_call_in_union` (translators/call.py:1163-1225),
the parts of `translate_normal_call`, `_translate_function_call` and `_translate_method_call` that matter for it
(translators/call.py:663-702, translators/call.py:756-771, translators/call.py:1262-1366), `chain_if_stmts` and
`chain_cond_exp` (lib/program_nodes.py:1955-1982) and `get_method_call` (translators/common.py:807-844).

Python lists have an identity: the list `arg_stmts` is passed to every `translate_normal_call`, and some of them return
and extend this very list.

Simplified: the receiver is a local variable, so that its evaluation needs no statements; exceptions, predicates, inlined
methods and the special treatment of locks are left out; the order of the options is any order in which subclasses come
first (`toposort_classes`, lib/program_nodes.py:1943-1953).
-/
set_option linter.unusedVariables false
namespace Nagini.Unions

/-- What matters about a method: whether it is static, whether it is pure, and whether it has a result.  Models
`method_type`, `pure` and `type` of `PythonMethod`, lib/program_nodes.py:1077-1095. -/
structure Meth where
  id : Nat
  static : Bool
  pure : Bool
  returns : Bool
deriving DecidableEq

/-- An option of the union and the method found in it.  Models translators/call.py:1179-1187. -/
abbrev Opt := Nat × Meth

/-- Expressions for results: function applications, and variables for the results of calls (one for every option).  Models
translators/call.py:762-763 and translators/call.py:713-715. -/
inductive Ex where
  | app (m : Meth)
  | res (i : Nat)
deriving DecidableEq

/-- Generated statements: those for the arguments, calls of methods, and assignments to `return_var`.  Models
translators/call.py:728-730 and translators/call.py:1210-1211. -/
inductive Stmt where
  | arg (k : Nat)
  | call (m : Meth) (i : Nat)
  | ret (e : Ex)
deriving DecidableEq

/-- `translate_normal_call` for the `i`-th option, with the contents of `arg_stmts`: the contents of `arg_stmts`
afterwards; the list that is returned, `none` if it is `arg_stmts` itself; and the result.  For methods that are not static,
a new list is made of the statements for receiver and arguments.  Models translators/call.py:1316-1328,
translators/call.py:756-771, translators/call.py:672-702 and translators/call.py:734-735. -/
def normalCall (L : List Stmt) (i : Nat) (m : Meth) : List Stmt × Option (List Stmt) × Option Ex :=
  if m.pure then (L, if m.static then none else some L, some (.app m))
  else (if m.static then L ++ [.call m i] else L, if m.static then none else some (L ++ [.call m i]),
    if m.returns then some (.res i) else none)

/-- An entry of `guard_stmts_expr`.  Models translators/call.py:1190. -/
structure Branch where
  cls : Nat
  body : Option (List Stmt)
  value : Option Ex

/-- The loop over the options: the contents of `arg_stmts` afterwards, `guard_stmts_expr`, and `pure`.  Models
translators/call.py:1179-1194. -/
def loop : List Stmt → Nat → List Opt → List Stmt × List Branch × Bool
  | L, _, [] => (L, [], true)
  | L, i, (c, m) :: os =>
    let r := normalCall L i m
    let s := loop r.1 (i + 1) os
    (s.1, ⟨c, r.2.1, r.2.2⟩ :: s.2.1, (r.2.1.getD r.1).isEmpty && s.2.2)

/-- The assignments to `return_var` that are added to `arg_stmts` itself.  Models translators/call.py:1206-1211. -/
def sharedRets (bs : List Branch) : List Stmt :=
  bs.flatMap fun b => if b.body.isNone then (b.value.map Stmt.ret).toList else []

/-- The contents of the list of an entry, after assignments to `return_var` have been added.  Models
translators/call.py:1199-1211. -/
def contents (shared : List Stmt) (b : Branch) : List Stmt :=
  match b.body with
  | none => shared
  | some l => l ++ (b.value.map Stmt.ret).toList

/-- The generated code: an expression, or a chain of conditional statements.  Models translators/call.py:1213-1225. -/
inductive Out where
  | expr (l : List (Nat × Ex))
  | stmts (l : List (Nat × List Stmt))

/-- `translate_call_in_union`.  Models translators/call.py:1163-1225. -/
def callInUnion (args : List Nat) (os : List Opt) : Out :=
  let s := loop (args.map Stmt.arg) 0 os
  if s.2.2 then .expr (s.2.1.filterMap fun b => b.value.map fun e => (b.cls, e))
  else .stmts (s.2.1.map fun b => (b.cls, contents (s.1 ++ sharedRets s.2.1) b))

/-- `get_method_call` for a union: every option gets a block with its own call.  Models
translators/common.py:821-840. -/
def methodCall (os : List Opt) : List (Nat × List Stmt) := os.map fun o => (o.1, [.call o.2 0])

/-- `chain_if_stmts`: the block that is executed if the guards are evaluated by `g`; nothing if no guard holds.  Models
lib/program_nodes.py:1955-1967. -/
def chainIf {α : Type} (g : Nat → Bool) : List (Nat × List α) → List α
  | [] => []
  | (c, b) :: l => if g c then b else chainIf g l

/-- `chain_cond_exp`: the expression that is evaluated; the last one needs no guard.  Models
lib/program_nodes.py:1969-1982. -/
def chainExp {α : Type} (g : Nat → Bool) : List (Nat × α) → Option α
  | [] => none
  | [(_, e)] => some e
  | (c, e) :: l => if g c then some e else chainExp g l

/-- The arguments of the generated call: positional arguments only, since `translate_args` does not know the target;
converted for the parameters, of which surplus arguments are dropped.  The call is only well-formed if there is an argument
for every parameter.  Models translators/call.py:908-909 and translators/call.py:1333-1342. -/
def unionBind {E : Type} (s : Args.Sig E) (static : Bool) (r : Args.Val E) (ps : List (Args.Pos E))
    (ks : List (Args.Kw E)) : Option (List (Args.Val E)) :=
  match Args.unpackPos ps with
  | .error _ => none
  | .ok (_, vs) =>
    let n := s.args.length + (if s.vararg then 1 else 0) + (if s.kwarg then 1 else 0)
    let actual := ((if static then [] else [r]) ++ vs).take n
    if actual.length = n then some actual else none

end Nagini.Unions
