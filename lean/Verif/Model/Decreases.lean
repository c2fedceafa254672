/-!
Model of the translation of pure functions and their `Decreases` clauses (translators/method.py).
`A` is the type of states in which a function is evaluated (arguments and heap), `V` that of values.
The translation of expressions is modelled elsewhere: here preconditions, postconditions, measures and
conditions are given by their meanings, and a body by its interaction with other functions.
-/
set_option linter.unusedVariables false
namespace Nagini.Decreases

variable {A V : Type}

/-- The evaluation of a body: a value, or a call of the function with number `g` in state `b` and the
rest of the evaluation, which depends on the value of the call.  Models the result of
`translate_exprs`, translators/method.py:354 (expressions of conditionals that are not evaluated do not
occur). -/
inductive Tree (A V : Type)
  | ret (v : V)
  | call (g : Nat) (b : A) (k : V → Tree A V)

/-- The first argument of `Decreases`: `None`, a call of a predicate (the instance it denotes), or
another expression.  Models the cases in translators/method.py:111-123. -/
inductive Measure (A : Type)
  | constNone
  | predicate (p : A → Nat)
  | int (e : A → Int)

/-- A `Decreases` clause: measure and optional condition.
Models `decreases_clauses`, analyzer.py:1235-1239. -/
structure Clause (A : Type) where
  measure : Measure A
  cond : Option (A → Prop)

/-- The value of a measure in Viper.  Models the results of translators/method.py:115-123. -/
inductive VVal
  /-- an integer (translators/method.py:122-123) -/
  | int (i : Int)
  /-- a predicate instance (translators/method.py:118-121) -/
  | inst (p : Nat)

/-- Viper's `decreases` clauses.  Models `DecreasesWildcard` and `DecreasesTuple`,
lib/viper_ast.py:280-287. -/
inductive VClause (A : Type)
  | wildcard (cond : Option (A → Prop))
  | tuple (m : A → VVal) (cond : Option (A → Prop))

/-- The translation of one clause.  Models translators/method.py:103-127. -/
def translateClause (c : Clause A) : VClause A :=
  match c.measure with
  | .constNone => .wildcard c.cond
  | .predicate p => .tuple (fun a => .inst (p a)) c.cond
  | .int e => .tuple (fun a => .int (e a)) c.cond

/-- `_translate_decreases`.  Models translators/method.py:95-129. -/
def translateDecreases (cs : List (Clause A)) : List (VClause A) := cs.map translateClause

/-- The body of a pure function: an ellipsis, or statements.
Models translators/method.py:344-354. -/
inductive Body (A V : Type)
  | ellipsis
  | stmts (t : A → Tree A V)

/-- A pure function.  Models the attributes of `PythonMethod` used by `translate_function`,
translators/method.py:290-359. -/
structure Fun (A V : Type) where
  pre : A → Prop
  post : A → V → Prop
  clauses : List (Clause A)
  contractOnly : Bool
  body : Body A V

/-- A Viper function.  Models the arguments of `Function`, translators/method.py:358-359. -/
structure VFun (A V : Type) where
  pre : A → Prop
  post : A → V → Prop
  decreases : List (VClause A)
  body : Option (A → Tree A V)

/-- `translate_function`.  Models translators/method.py:290-359. -/
def translateFunction (f : Fun A V) : VFun A V where
  pre := f.pre
  post := f.post
  decreases := translateDecreases f.clauses
  body := if f.contractOnly then none else
    match f.body with
    | .ellipsis => none
    | .stmts t => some t

end Nagini.Decreases
