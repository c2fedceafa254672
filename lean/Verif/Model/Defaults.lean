import Verif.Spec.Defaults

/-!
Model of default values of parameters: their translation before the bodies of any functions
(translators/program.py), their insertion at calls (translators/call.py), and the reads of global variables they
contain (translators/expression.py).

Simplified: values are integers; one module; straight-line module code; calls with positional arguments at module
level only (C14 and C55 are about binding arguments to parameters); bodies and contracts of functions are left
out, so a function has no dependencies.
-/
set_option linter.unusedVariables false
namespace Nagini.Defaults

/-- The variables the statements assign to (`var.writes`).  Models analyzer.py:1370-1392. -/
def writes : List Stmt → List Nat
  | [] => []
  | .assign x _ :: cs => x :: writes cs
  | _ :: cs => writes cs

/-- `PythonGlobalVar.is_final`.  Models lib/program_nodes.py:1681-1686. -/
def isFinal (p : List Stmt) (x : Nat) : Bool := (writes p).count x ≤ 1

/-- The parameters of a function as the analyzer collects them before anything is executed, with the default
expressions that `translate_default_args` translates once (`arg.default_expr`).
Models translators/program.py:439-454 and translators/program.py:1363-1379. -/
def paramsOf : List Stmt → Nat → Option (List (Option Exp))
  | [], _ => none
  | .define g ps :: cs, f => if g = f then some ps else paramsOf cs f
  | _ :: cs, f => paramsOf cs f

/-- A read of a global variable: the field of its object for variables that are written more than once, the
constant function of the variable for final ones.  Models translators/expression.py:927-936. -/
def read (fin : Nat → Bool) (ι h : Nat → Int) (x : Nat) : Int := if fin x then ι x else h x

/-- The value of an expression translated while `ctx.current_function` is unset, as default values are: reads are
not checked and not recorded as dependencies.  Models translators/program.py:450-453 with
translators/expression.py:937-944. -/
def evalDefault (fin : Nat → Bool) (ι h : Nat → Int) : Exp → Int
  | .lit n => n
  | .glob x => read fin ι h x
  | .add a b => evalDefault fin ι h a + evalDefault fin ι h b

/-- The value of an expression translated in the main method: every read asserts that the name is defined;
`none` is a failed assertion.  Models translators/expression.py:937-940 with translators/common.py:480-509. -/
def evalMain (fin : Nat → Bool) (ι h : Nat → Int) (names : List Nat) : Exp → Option Int
  | .lit n => some n
  | .glob x => if x ∈ names then some (read fin ι h x) else none
  | .add a b =>
    match evalMain fin ι h names a, evalMain fin ι h names b with
    | some u, some v => some (u + v)
    | _, _ => none

/-- Several expressions translated in the main method.  Models translators/call.py:875-910. -/
def evalMains (fin : Nat → Bool) (ι h : Nat → Int) (names : List Nat) : List Exp → Option (List Int)
  | [] => some []
  | e :: es =>
    match evalMain fin ι h names e, evalMains fin ι h names es with
    | some v, some vs => some (v :: vs)
    | _, _ => none

/-- Completing the arguments of a call: for missing arguments the default *expression* is inserted at the call, so
that it is evaluated in the state of the call.  `none`: rejected (by mypy or the assertion).
Models translators/call.py:960-973. -/
def bind (fin : Nat → Bool) (ι h : Nat → Int) : List (Option Exp) → List Int → Option (List Int)
  | [], [] => some []
  | [], _ :: _ => none
  | _ :: ps, v :: vs => (bind fin ι h ps vs).map (v :: ·)
  | some e :: ps, [] => (bind fin ι h ps []).map (evalDefault fin ι h e :: ·)
  | none :: _, [] => none

/-- The state of the main method: the fields of the variables that are not final, the names of variables and of
functions that are defined.  Models translators/method.py:934-977. -/
structure VState where
  heap : Nat → Int
  names : List Nat
  fnames : List Nat

/-- Results of executing generated statements: a failed check, an assumption that does not hold, or a state with
the calls made.  Describes the outcomes of the statements built in translators/statement.py:1433-1467. -/
inductive Out
  | failed
  | infeasible
  | done (s : VState) (ev : List Event)

/-- The generated code for one statement.  Assignments to final variables assume the equation with the variable's
function, others write the field, both set the name as defined; `def` checks `definition_deps` (annotations
only, left out here) and sets the name as defined; calls check the name of the function, then evaluate the
arguments.  Models translators/statement.py:1433-1456, translators/statement.py:336-356 and
translators/call.py:725-735. -/
def encStep (p : List Stmt) (ι : Nat → Int) (s : VState) : Stmt → Out
  | .assign x e =>
    match evalMain (isFinal p) ι s.heap s.names e with
    | none => .failed
    | some v =>
      if isFinal p x then
        if ι x = v then .done ⟨s.heap, x :: s.names, s.fnames⟩ [] else .infeasible
      else .done ⟨fun y => if y = x then v else s.heap y, x :: s.names, s.fnames⟩ []
  | .define f _ => .done ⟨s.heap, s.names, f :: s.fnames⟩ []
  | .call f args =>
    if f ∈ s.fnames then
      match evalMains (isFinal p) ι s.heap s.names args, paramsOf p f with
      | some vs, some ps =>
        match bind (isFinal p) ι s.heap ps vs with
        | some ws => .done s [(f, ws)]
        | none => .failed
      | _, _ => .failed
    else .failed

/-- The generated code for a list of statements of the module `p`.
Models translators/method.py:1016-1018. -/
def encRun (p : List Stmt) (ι : Nat → Int) (s : VState) : List Stmt → Out
  | [] => .done s []
  | c :: cs =>
    match encStep p ι s c with
    | .failed => .failed
    | .infeasible => .infeasible
    | .done s' ev =>
      match encRun p ι s' cs with
      | .failed => .failed
      | .infeasible => .infeasible
      | .done s'' ev' => .done s'' (ev ++ ev')

/-- The main method: the fields have arbitrary values at first and no name is defined.
Models translators/method.py:923-977 and translators/method.py:1000-1018. -/
def encMain (p : List Stmt) (ι h : Nat → Int) : Out := encRun p ι ⟨h, [], []⟩ p

/-- The main method verifies.  Simplified: the functions of final variables may have any interpretation; their
postconditions (translators/program.py:182-198, modelled in Model/Globals.lean) only rule out more of them.
Models translators/method.py:1000-1035. -/
def Verifies (p : List Stmt) : Prop := ∀ ι h, encMain p ι h ≠ .failed

end Nagini.Defaults
