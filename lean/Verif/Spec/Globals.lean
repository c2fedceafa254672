/-!
Module-level code in Python: integer variables, assignments, conditionals, loops and assertions.  A read of
an unbound name raises a NameError, which is not told apart from a failing assertion here; both end the
execution of the module.  Independent of the model.
-/
namespace Nagini.Globals

abbrev Var := String

/-- Expressions over global variables; comparisons give 0 or 1. -/
inductive Expr
  | lit (n : Int)
  | var (x : Var)
  | add (a b : Expr)
  | lt (a b : Expr)
  deriving Repr

/-- The variables an expression reads. -/
def Expr.reads : Expr → List Var
  | .lit _ => []
  | .var x => [x]
  | .add a b => a.reads ++ b.reads
  | .lt a b => a.reads ++ b.reads

/-- Module-level statements.  `for` loops iterate over a list of constants. -/
inductive Stmt
  | skip
  | assign (x : Var) (e : Expr)
  | assert (e : Expr)
  | seq (s t : Stmt)
  | ite (e : Expr) (s t : Stmt)
  | while (e : Expr) (s : Stmt)
  | forIn (x : Var) (vs : List Int) (s : Stmt)
  deriving Repr

abbrev Store := Var → Option Int

def Store.set (σ : Store) (x : Var) (v : Int) : Store := fun y => if y = x then some v else σ y

/-- The value of an expression; `none` if a name is unbound. -/
def pyEval (σ : Store) : Expr → Option Int
  | .lit n => some n
  | .var x => σ x
  | .add a b => match pyEval σ a, pyEval σ b with
    | some i, some j => some (i + j)
    | _, _ => none
  | .lt a b => match pyEval σ a, pyEval σ b with
    | some i, some j => some (if i < j then 1 else 0)
    | _, _ => none

inductive Out
  | ok (σ : Store)
  | err

/-- `Py s σ o t`: the statement executed in `σ` ends with `o`, and `t` are the assignments that happened. -/
inductive Py : Stmt → Store → Out → List (Var × Int) → Prop
  | skip {σ} : Py .skip σ (.ok σ) []
  | assign {x e σ v} : pyEval σ e = some v → Py (.assign x e) σ (.ok (σ.set x v)) [(x, v)]
  | assignErr {x e σ} : pyEval σ e = none → Py (.assign x e) σ .err []
  | assert {e σ v} : pyEval σ e = some v → v ≠ 0 → Py (.assert e) σ (.ok σ) []
  | assertFail {e σ} : pyEval σ e = some 0 → Py (.assert e) σ .err []
  | assertErr {e σ} : pyEval σ e = none → Py (.assert e) σ .err []
  | seq {s t σ σ' o l m} : Py s σ (.ok σ') l → Py t σ' o m → Py (.seq s t) σ o (l ++ m)
  | seqErr {s t σ l} : Py s σ .err l → Py (.seq s t) σ .err l
  | iteT {e s t σ v o l} : pyEval σ e = some v → v ≠ 0 → Py s σ o l → Py (.ite e s t) σ o l
  | iteF {e s t σ o l} : pyEval σ e = some 0 → Py t σ o l → Py (.ite e s t) σ o l
  | iteErr {e s t σ} : pyEval σ e = none → Py (.ite e s t) σ .err []
  | whileF {e s σ} : pyEval σ e = some 0 → Py (.while e s) σ (.ok σ) []
  | whileT {e s σ σ' v o l m} : pyEval σ e = some v → v ≠ 0 → Py s σ (.ok σ') l → Py (.while e s) σ' o m →
      Py (.while e s) σ o (l ++ m)
  | whileBody {e s σ v l} : pyEval σ e = some v → v ≠ 0 → Py s σ .err l → Py (.while e s) σ .err l
  | whileErr {e s σ} : pyEval σ e = none → Py (.while e s) σ .err []
  | forNil {x s σ} : Py (.forIn x [] s) σ (.ok σ) []
  | forCons {x v vs s σ σ' o l m} : Py s (σ.set x v) (.ok σ') l → Py (.forIn x vs s) σ' o m →
      Py (.forIn x (v :: vs) s) σ o ((x, v) :: l ++ m)
  | forBody {x v vs s σ l} : Py s (σ.set x v) .err l → Py (.forIn x (v :: vs) s) σ .err ((x, v) :: l)

/-- A module starts with `__name__` and `__file__` bound. -/
def pyInit (mv : Var → Int) : Store := fun x => if x = "__name__" ∨ x = "__file__" then some (mv x) else none

/-- The variables that are stored to somewhere inside of a loop, as the target or in the body. -/
def loopStores : Stmt → List Var
  | .skip => []
  | .assign _ _ => []
  | .assert _ => []
  | .seq s t => loopStores s ++ loopStores t
  | .ite _ s t => loopStores s ++ loopStores t
  | .while _ s => allStores s
  | .forIn x _ s => x :: allStores s
where
  /-- All stores of a statement. -/
  allStores : Stmt → List Var
  | .skip => []
  | .assign x _ => [x]
  | .assert _ => []
  | .seq s t => allStores s ++ allStores t
  | .ite _ s t => allStores s ++ allStores t
  | .while _ s => allStores s
  | .forIn x _ s => x :: allStores s

end Nagini.Globals
