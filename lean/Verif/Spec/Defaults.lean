/-!
Python's semantics of default values of parameters, for straight-line modules: a default value is computed when
the `def` statement is executed and stored in the function; a call without that argument passes the stored value.

Values are integers.  The observable behaviour of a module is the list of the calls it makes, with the values of
all parameters; function bodies are left out.
-/
namespace Nagini.Defaults

/-- Expressions over global variables. -/
inductive Exp
  | lit (n : Int)
  | glob (x : Nat)
  | add (a b : Exp)
  deriving Repr, DecidableEq

/-- The global variables an expression reads. -/
def Exp.reads : Exp → List Nat
  | .lit _ => []
  | .glob x => [x]
  | .add a b => a.reads ++ b.reads

/-- Statements of a module: assignments to global variables, definitions of functions (one entry for each
parameter, with its default value if it has one) and calls with positional arguments. -/
inductive Stmt
  | assign (x : Nat) (e : Exp)
  | define (f : Nat) (ps : List (Option Exp))
  | call (f : Nat) (args : List Exp)
  deriving Repr

/-- A call that happened. -/
abbrev Event := Nat × List Int

/-- The value of an expression; `none` is a NameError. -/
def pyEval (σ : Nat → Option Int) : Exp → Option Int
  | .lit n => some n
  | .glob x => σ x
  | .add a b =>
    match pyEval σ a, pyEval σ b with
    | some u, some v => some (u + v)
    | _, _ => none

/-- The values of a list of expressions, evaluated from left to right. -/
def pyEvals (σ : Nat → Option Int) : List Exp → Option (List Int)
  | [] => some []
  | e :: es =>
    match pyEval σ e, pyEvals σ es with
    | some v, some vs => some (v :: vs)
    | _, _ => none

/-- Executing a `def` computes the default values. -/
def pyDefaults (σ : Nat → Option Int) : List (Option Exp) → Option (List (Option Int))
  | [] => some []
  | none :: ps => (pyDefaults σ ps).map (none :: ·)
  | some e :: ps =>
    match pyEval σ e, pyDefaults σ ps with
    | some v, some vs => some (some v :: vs)
    | _, _ => none

/-- Binding positional arguments: missing ones take the stored default values; `none` is a TypeError. -/
def pyBind : List (Option Int) → List Int → Option (List Int)
  | [], [] => some []
  | [], _ :: _ => none
  | _ :: ds, v :: vs => (pyBind ds vs).map (v :: ·)
  | some d :: ds, [] => (pyBind ds []).map (d :: ·)
  | none :: _, [] => none

/-- The state of a module: values of variables, and the function objects with their stored default values. -/
structure PyState where
  vars : Nat → Option Int
  funs : Nat → Option (List (Option Int))

/-- One statement; `none` is an exception. -/
def pyStep (s : PyState) : Stmt → Option (PyState × List Event)
  | .assign x e => (pyEval s.vars e).map fun v => (⟨fun y => if y = x then some v else s.vars y, s.funs⟩, [])
  | .define f ps => (pyDefaults s.vars ps).map fun ds => (⟨s.vars, fun g => if g = f then some ds else s.funs g⟩, [])
  | .call f args =>
    match s.funs f with
    | none => none
    | some ds =>
      match pyEvals s.vars args with
      | none => none
      | some vs => (pyBind ds vs).map fun ws => (s, [(f, ws)])

/-- Running statements. -/
def pyRun (s : PyState) : List Stmt → Option (PyState × List Event)
  | [] => some (s, [])
  | c :: cs =>
    match pyStep s c with
    | none => none
    | some (s', ev) => (pyRun s' cs).map fun r => (r.1, ev ++ r.2)

/-- The calls a module makes when it is executed; `none` if an exception is raised. -/
def pyTrace (p : List Stmt) : Option (List Event) := (pyRun ⟨fun _ => none, fun _ => none⟩ p).map Prod.snd

/-- Every function is defined once. -/
def DefinedOnce : List Stmt → Prop
  | [] => True
  | .define f _ :: cs => (∀ qs, Stmt.define f qs ∉ cs) ∧ DefinedOnce cs
  | _ :: cs => DefinedOnce cs

/-- The default values read only variables that are assigned before the definition (`before` has the variables
assigned so far) and not after it; every function is defined once. -/
def DefaultsStable (before : List Nat) : List Stmt → Prop
  | [] => True
  | .assign x _ :: cs => DefaultsStable (x :: before) cs
  | .define f ps :: cs =>
    (∀ e, some e ∈ ps → ∀ x ∈ e.reads, x ∈ before ∧ ∀ e', Stmt.assign x e' ∉ cs) ∧
      (∀ qs, Stmt.define f qs ∉ cs) ∧ DefaultsStable before cs
  | .call _ _ :: cs => DefaultsStable before cs

end Nagini.Defaults
