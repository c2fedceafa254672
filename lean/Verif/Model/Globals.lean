import Verif.Spec.Globals

/-!
Model of global variables: which are final (lib/program_nodes.py), the functions that represent them
(translators/program.py) and the translation of module-level assignments and reads
(translators/statement.py, translators/expression.py).

Simplified: values are integers; loops are given by their unrolled runs (C13 is about the iterator of `for`
loops, and Viper's loop rule covers exactly the unrolled runs for some invariant); one module; writes in
functions after a `global` statement, which the analyzer counts twice (analyzer.py:1535-1547, so that such
variables are never final), are left out.
-/
set_option linter.unusedVariables false
namespace Nagini.Globals

/-- The store nodes of the module in the order in which the analyzer visits them (`var.writes`).
Models analyzer.py:1370-1392 with 1192-1198, and 913-931 for loops. -/
def storeNodes : Stmt → List Var
  | .skip => []
  | .assign x _ => [x]
  | .assert _ => []
  | .seq s t => storeNodes s ++ storeNodes t
  | .ite _ s t => storeNodes s ++ storeNodes t
  | .while _ s => storeNodes s
  | .forIn x _ s => x :: storeNodes s

/-- `MODULE_VARS`.  Models lib/constants.py:362-366. -/
def moduleVars : List Var := ["__name__", "__file__"]

/-- `PythonGlobalVar.is_final`.  Models lib/program_nodes.py:1680-1686. -/
def isFinal (p : Stmt) (x : Var) : Bool :=
  (storeNodes p).count x ≤ 1 && !moduleVars.contains x

/-- The assignments that set `var.value`: plain assignments, not the targets of loops.
Models analyzer.py:1383-1385. -/
def valueNodes : Stmt → List (Var × Expr)
  | .skip => []
  | .assign x e => [(x, e)]
  | .assert _ => []
  | .seq s t => valueNodes s ++ valueNodes t
  | .ite _ s t => valueNodes s ++ valueNodes t
  | .while _ s => valueNodes s
  | .forIn _ _ s => valueNodes s

/-- `var.value`: the last one wins.  Models analyzer.py:1383-1385. -/
def value (p : Stmt) (x : Var) : Option Expr :=
  ((valueNodes p).reverse.find? fun q => q.1 = x).map Prod.snd

/-- `is_heap_dependent` for the translation of an expression over global variables: reads of variables that
are not final are field accesses.  Models lib/viper_ast.py:554-562 and translators/expression.py:928-938. -/
def heapDependent (p : Stmt) (e : Expr) : Bool := e.reads.any fun y => !isFinal p y

/-- The equation the function of a final variable has as its body and postcondition.
Models translators/program.py:182-198. -/
def posted (p : Stmt) (x : Var) : Option Expr :=
  if isFinal p x then
    match value p x with
    | some e => if heapDependent p e then none else some e
    | none => none
  else none

/-- The value of a translated expression outside of the main method, where reads are not checked: functions
of final variables applied to nothing.  Models translators/expression.py:936-938. -/
def evalFun (g : Var → Int) : Expr → Int
  | .lit n => n
  | .var x => g x
  | .add a b => evalFun g a + evalFun g b
  | .lt a b => if evalFun g a < evalFun g b then 1 else 0

/-- `g` is an interpretation of the functions of the final variables that satisfies their postconditions
(they are marked as terminating without a check).  Models translators/program.py:192-205. -/
def Posts (p : Stmt) (g : Var → Int) : Prop := ∀ x e, posted p x = some e → g x = evalFun g e

/-- Generated statements, as built in translators/statement.py:1433-1467. -/
inductive VStmt
  | skip
  | inhaleEq (x : Var) (e : Expr)
  | fieldAssign (x : Var) (e : Expr)
  | setDefined (x : Var)
  | assert (e : Expr)
  | seq (s t : VStmt)
  | ite (e : Expr) (s t : VStmt)
  | while (e : Expr) (s : VStmt)

/-- The translation of an assignment to a global variable in the main method.
Models translators/statement.py:1433-1453 with 1464-1467. -/
def trAssign (fin : Var → Bool) (x : Var) (e : Expr) : VStmt :=
  .seq (if fin x then .inhaleEq x e else .fieldAssign x e) (.setDefined x)

/-- The runs of a translated `for` loop: the target is assigned to in front of the loop and at the end of its
body.  Models translators/statement.py:789-814 and 859-873, unrolled. -/
def trFor (fin : Var → Bool) (x : Var) (body : VStmt) : List Int → VStmt
  | [] => .skip
  | v :: vs => .seq (trAssign fin x (.lit v)) (.seq body (trFor fin x body vs))

/-- The translation of module-level statements.
Models translators/method.py:1018-1021, translators/statement.py:1433-1467, 759-873, 1702-1744. -/
def trStmt (fin : Var → Bool) : Stmt → VStmt
  | .skip => .skip
  | .assign x e => trAssign fin x e
  | .assert e => .assert e
  | .seq s t => .seq (trStmt fin s) (trStmt fin t)
  | .ite e s t => .ite e (trStmt fin s) (trStmt fin t)
  | .while e s => .while e (trStmt fin s)
  | .forIn x vs s => trFor fin x (trStmt fin s) vs

/-- The main method.  Models translators/method.py:1004-1036. -/
def translate (p : Stmt) : VStmt := trStmt (isFinal p) p

/-- The state of the main method: the set of defined names and the fields of the variables that are not
final.  Models translators/method.py:933-977. -/
structure VState where
  names : Var → Bool
  heap : Var → Int

/-- The initial state.  Models translators/method.py:938-977. -/
def vinit (mv : Var → Int) : VState := { names := fun x => moduleVars.contains x, heap := mv }

/-- The value of a translated expression in the main method: reads check that the name is defined (`none` if
not, an error is reported).  Models translators/expression.py:926-945 and translators/common.py:481-509. -/
def evalV (fin : Var → Bool) (g : Var → Int) (s : VState) : Expr → Option Int
  | .lit n => some n
  | .var x => if s.names x then some (if fin x then g x else s.heap x) else none
  | .add a b => match evalV fin g s a, evalV fin g s b with
    | some i, some j => some (i + j)
    | _, _ => none
  | .lt a b => match evalV fin g s a, evalV fin g s b with
    | some i, some j => some (if i < j then 1 else 0)
    | _, _ => none

/-- The end of a run of the main method (translators/method.py:1004-1036). -/
inductive VOut
  | ok (s : VState)
  | fail

/-- Runs of generated code under an interpretation of the functions.  A run that inhales something false has
no outcome.  The generated statements are those of translators/statement.py:1433-1467. -/
inductive Ex (fin : Var → Bool) (g : Var → Int) : VStmt → VState → VOut → Prop
  | skip {s} : Ex fin g .skip s (.ok s)
  | inhaleEq {x e s} : evalV fin g s e = some (g x) → Ex fin g (.inhaleEq x e) s (.ok s)
  | inhaleErr {x e s} : evalV fin g s e = none → Ex fin g (.inhaleEq x e) s .fail
  | fieldAssign {x e s v} : evalV fin g s e = some v →
      Ex fin g (.fieldAssign x e) s (.ok { s with heap := fun y => if y = x then v else s.heap y })
  | fieldErr {x e s} : evalV fin g s e = none → Ex fin g (.fieldAssign x e) s .fail
  | setDefined {x s} : Ex fin g (.setDefined x) s (.ok { s with names := fun y => y = x || s.names y })
  | assert {e s v} : evalV fin g s e = some v → v ≠ 0 → Ex fin g (.assert e) s (.ok s)
  | assertFail {e s} : evalV fin g s e = some 0 → Ex fin g (.assert e) s .fail
  | assertErr {e s} : evalV fin g s e = none → Ex fin g (.assert e) s .fail
  | seq {a b s s' o} : Ex fin g a s (.ok s') → Ex fin g b s' o → Ex fin g (.seq a b) s o
  | seqErr {a b s} : Ex fin g a s .fail → Ex fin g (.seq a b) s .fail
  | iteT {e a b s v o} : evalV fin g s e = some v → v ≠ 0 → Ex fin g a s o → Ex fin g (.ite e a b) s o
  | iteF {e a b s o} : evalV fin g s e = some 0 → Ex fin g b s o → Ex fin g (.ite e a b) s o
  | iteErr {e a b s} : evalV fin g s e = none → Ex fin g (.ite e a b) s .fail
  | whileF {e a s} : evalV fin g s e = some 0 → Ex fin g (.while e a) s (.ok s)
  | whileT {e a s s' v o} : evalV fin g s e = some v → v ≠ 0 → Ex fin g a s (.ok s') → Ex fin g (.while e a) s' o →
      Ex fin g (.while e a) s o
  | whileBody {e a s v} : evalV fin g s e = some v → v ≠ 0 → Ex fin g a s .fail → Ex fin g (.while e a) s .fail
  | whileErr {e a s} : evalV fin g s e = none → Ex fin g (.while e a) s .fail

end Nagini.Globals
