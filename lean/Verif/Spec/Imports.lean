import Verif.Model.Imports
import Mathlib.Logic.Relation
/-!
Specification: reachability by from-imports, and Python's import system
(https://docs.python.org/3/reference/import.html): a module is put into `sys.modules` before
its body is executed, a module in `sys.modules` is not executed again, and the script that was
started is the module `__main__`, not the module with the name of its file.
-/
namespace Nagini.Imports
variable {N : Nat}

/-- `b` is from-imported by `a`. -/
def Edge (G : Graph N) (a b : Fin N) : Prop := ∃ e ∈ G a, e.mod = b
/-- `b` is imported by `a` with `from b import *`. -/
def StarEdge (G : Graph N) (a b : Fin N) : Prop := Entry.star b ∈ G a
/-- `b` can be reached from `a` by from-imports. -/
def Reach (G : Graph N) : Fin N → Fin N → Prop := Relation.ReflTransGen (Edge G)

/-- Module instances in Python: the script and the modules in `sys.modules`. -/
inductive Inst (N : Nat)
  | script
  | mod (m : Fin N)
deriving DecidableEq

/-- The file an instance was loaded from. -/
def Inst.file (main : Fin N) : Inst N → Fin N
  | .script => main
  | .mod m => m

/-- The binding part of a Python import statement in instance `i` from instance `j`. -/
def pyBind (i j : Inst N) (σ : St (Inst N) N) : Bind → Option (St (Inst N) N)
  | .none => some σ
  | .all => some (σ.union i j)
  | .names [] => some σ
  | .names ((x, y) :: l) => if σ.names j x then pyBind i j (σ.addName i y) (.names l) else none

/-- Python's execution of the body of an instance (big-step).  `P m` is the text of file `m`. -/
inductive Py (P : Fin N → List (Stmt N)) (main : Fin N) :
    Inst N → St (Inst N) N → List (Stmt N) → Out (Inst N) N → Prop
  | nil {i σ} : Py P main i σ [] (.ok σ)
  | act {i σ k r o} : Py P main i (σ.emit (i.file main) k) r o → Py P main i σ (.act k :: r) o
  | define {i σ x r o} : Py P main i (σ.addName i x) r o → Py P main i σ (.define x :: r) o
  | use {i σ x r o} : σ.names i x = true → Py P main i σ r o → Py P main i σ (.use x :: r) o
  | nameError {i σ x r} : σ.names i x = false → Py P main i σ (.use x :: r) (.fail σ.trace)
  | cached {i σ m b r σ' o} : σ.loaded (.mod m) = true → pyBind i (.mod m) σ b = some σ' →
      Py P main i σ' r o → Py P main i σ (.imp m b :: r) o
  | cachedError {i σ m b r} : σ.loaded (.mod m) = true → pyBind i (.mod m) σ b = none →
      Py P main i σ (.imp m b :: r) (.fail σ.trace)
  | load {i σ m b r σ₁ σ' o} : σ.loaded (.mod m) = false →
      Py P main (.mod m) (σ.load (.mod m)) (P m) (.ok σ₁) → pyBind i (.mod m) σ₁ b = some σ' →
      Py P main i σ' r o → Py P main i σ (.imp m b :: r) o
  | loadBindError {i σ m b r σ₁} : σ.loaded (.mod m) = false →
      Py P main (.mod m) (σ.load (.mod m)) (P m) (.ok σ₁) → pyBind i (.mod m) σ₁ b = none →
      Py P main i σ (.imp m b :: r) (.fail σ₁.trace)
  | loadError {i σ m b r t} : σ.loaded (.mod m) = false →
      Py P main (.mod m) (σ.load (.mod m)) (P m) (.fail t) →
      Py P main i σ (.imp m b :: r) (.fail t)

/-- Python's state when the script starts. -/
def initP : St (Inst N) N := ⟨fun i => i = .script, fun _ _ => false, []⟩

/-- Outcome and trace of an execution. -/
def Out.obs {I : Type} : Out I N → Bool × List (Fin N × Nat)
  | .ok σ => (true, σ.trace)
  | .fail t => (false, t)

/-- The observable effects in a list of statements, in order. -/
def acts : List (Stmt N) → List Nat
  | [] => []
  | .act k :: r => k :: acts r
  | _ :: r => acts r

/-- The part of a trace that comes from file `m`. -/
def part (m : Fin N) (t : List (Fin N × Nat)) : List Nat := (t.filter (·.1 = m)).map (·.2)

/-- `m` is imported somewhere in the list. -/
def imports (m : Fin N) (ss : List (Stmt N)) : Prop := ∃ b, Stmt.imp m b ∈ ss

end Nagini.Imports
