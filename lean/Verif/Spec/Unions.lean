import Verif.Model.Unions
import Verif.Spec.Args

/-! What the generated statements do, and what a call does in Python according to the contracts of the methods. -/
set_option linter.unusedVariables false
namespace Nagini.Unions

/-- What is known about statements: the effects of the statements for arguments, the contracts of impure methods (with
their result), and the values of pure functions.  `H` are states of the heap and of temporary variables. -/
structure World (H V : Type) where
  arg : Nat → H → H → Prop
  meth : Nat → H → V → H → Prop
  fn : Nat → H → V

/-- States of the generated code: the variables for the results of the calls, and `return_var`. -/
structure St (H V : Type) where
  h : H
  res : Nat → V
  ret : V

variable {H V : Type}

/-- The value of an expression. -/
def value (W : World H V) (s : St H V) : Ex → V
  | .app m => W.fn m.id s.h
  | .res i => s.res i

/-- Execution of a statement. -/
inductive Exec (W : World H V) : Stmt → St H V → St H V → Prop
  | arg (k s h') : W.arg k s.h h' → Exec W (.arg k) s { s with h := h' }
  | call (m i s v h') : W.meth m.id s.h v h' → Exec W (.call m i) s ⟨h', fun j => if j = i then v else s.res j, s.ret⟩
  | ret (e s) : Exec W (.ret e) s { s with ret := value W s e }

/-- Execution of a list of statements. -/
inductive ExecL (W : World H V) : List Stmt → St H V → St H V → Prop
  | nil (s) : ExecL W [] s s
  | cons {c l s t u} : Exec W c s t → ExecL W l t u → ExecL W (c :: l) s u

/-- What happens if the generated code is executed for a receiver of which `g` says which options it is an instance of:
heap and value afterwards. -/
def Runs (W : World H V) (g : Nat → Bool) : Out → H → V → H → Prop
  | .expr l, h, v, h' => h' = h ∧ ∃ e, chainExp g l = some e ∧ ∃ s : St H V, s.h = h ∧ v = value W s e
  | .stmts l, h, v, h' => ∃ s t : St H V, s.h = h ∧ ExecL W (chainIf g l) s t ∧ t.h = h' ∧ t.ret = v

/-- The effects of evaluating all arguments, in order. -/
inductive ArgsRun (W : World H V) : List Nat → H → H → Prop
  | nil (h) : ArgsRun W [] h h
  | cons {k l h h1 h2} : W.arg k h h1 → ArgsRun W l h1 h2 → ArgsRun W (k :: l) h h2

/-- The contract of a method. -/
def Contract (W : World H V) (m : Meth) (h : H) (v : V) (h' : H) : Prop :=
  if m.pure then v = W.fn m.id h ∧ h' = h else W.meth m.id h v h'

/-- A call according to a method's contract: the arguments are evaluated, then the method is executed. -/
def Calls (W : World H V) (args : List Nat) (m : Meth) (h : H) (v : V) (h' : H) : Prop :=
  ∃ h1, ArgsRun W args h h1 ∧ Contract W m h1 v h'

/-- `c` is the smallest option that an object of the class `d` is an instance of. -/
def Least (sub : Nat → Nat → Prop) (os : List Opt) (d : Nat) (o : Opt) : Prop :=
  o ∈ os ∧ sub d o.1 ∧ ∀ o' ∈ os, sub d o'.1 → sub o.1 o'.1

end Nagini.Unions
