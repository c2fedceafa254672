import Verif.Model.Decreases
import Mathlib.Logic.Relation

/-!
What Viper checks for functions (well-definedness of calls, postconditions and the checks of the
termination plugin), and what it assumes about them (the definitional axiom and the postcondition).
Simplified: a function is verified with the postconditions of the functions it calls only.
-/
namespace Nagini.Decreases

variable {A V : Type}

/-- Functions are numbered by their position. -/
abbrev VProgram (A V : Type) := List (VFun A V)

/-- The condition of an optional condition. -/
def holds (c : Option (A → Prop)) (a : A) : Prop := ∀ p, c = some p → p a

/-- The evaluation calls `g`, for some values of the calls. -/
inductive Mentions (g : Nat) : Tree A V → Prop
  | here (b : A) (k : V → Tree A V) : Mentions g (.call g b k)
  | later (h : Nat) (b : A) (k : V → Tree A V) (v : V) : Mentions g (k v) → Mentions g (.call h b k)

/-- Function `f` calls function `g`. -/
def Calls (P : VProgram A V) (f g : Nat) : Prop :=
  ∃ vf t a, P[f]? = some vf ∧ vf.body = some t ∧ Mentions g (t a)

/-- `f` and `g` are mutually recursive. -/
def Mutual (P : VProgram A V) (f g : Nat) : Prop :=
  Relation.ReflTransGen (Calls P) f g ∧ Relation.ReflTransGen (Calls P) g f

/-- Measures become smaller: integers, down to a negative one; predicate instances, by nesting. -/
inductive Smaller (nested : Nat → Nat → Prop) : VVal → VVal → Prop
  | int {i j : Int} : i < j → 0 ≤ j → Smaller nested (.int i) (.int j)
  | inst {p q : Nat} : nested p q → Smaller nested (.inst p) (.inst q)

/-- Measure `m` applies in state `a`. -/
def TupleAt (vf : VFun A V) (a : A) (m : VVal) : Prop :=
  ∃ e c, VClause.tuple e c ∈ vf.decreases ∧ holds c a ∧ m = e a

/-- A wildcard applies in state `a`. -/
def WildcardAt (vf : VFun A V) (a : A) : Prop :=
  ∃ c, VClause.wildcard c ∈ vf.decreases ∧ holds c a

/-- The check of the termination plugin at a call of `g` in state `b` in the body of `f` in state `a`. -/
def TerminationCheck (P : VProgram A V) (nested : Nat → Nat → Prop) (f : Nat) (vf : VFun A V) (a : A)
    (g : Nat) (vg : VFun A V) (b : A) : Prop :=
  ∀ m, TupleAt vf a m →
    WildcardAt vg b ∨ ∃ m', TupleAt vg b m' ∧ (Mutual P f g → Smaller nested m' m)

/-- The body of `f` verifies in state `a`. -/
inductive Checked (P : VProgram A V) (nested : Nat → Nat → Prop) (f : Nat) (vf : VFun A V) (a : A) :
    Tree A V → Prop
  | ret {v : V} : vf.post a v → Checked P nested f vf a (.ret v)
  | call {g : Nat} {vg : VFun A V} {b : A} {k : V → Tree A V} :
      P[g]? = some vg → vg.pre b → TerminationCheck P nested f vf a g vg b →
      (∀ v, vg.post b v → Checked P nested f vf a (k v)) → Checked P nested f vf a (.call g b k)

/-- At most one tuple and at most one wildcard. -/
def OneEach (vf : VFun A V) : Prop :=
  (∀ e c e' c', VClause.tuple e c ∈ vf.decreases → VClause.tuple e' c' ∈ vf.decreases → e = e' ∧ c = c') ∧
  (∀ c c', VClause.wildcard c ∈ vf.decreases → VClause.wildcard c' ∈ vf.decreases → c = c')

/-- Viper verifies the functions. -/
def Verified (P : VProgram A V) (nested : Nat → Nat → Prop) : Prop :=
  ∀ (f : Nat) (vf : VFun A V), P[f]? = some vf →
    OneEach vf ∧ ∀ t a, vf.body = some t → vf.pre a → Checked P nested f vf a (t a)

/-- The value of an evaluation if the functions have the values `I`. -/
def value (I : Nat → A → V) : Tree A V → V
  | .ret v => v
  | .call g b k => value I (k (I g b))

/-- What Viper assumes about functions: wherever its precondition holds, a function has the value of
its body and satisfies its postcondition. -/
def Solves (P : VProgram A V) (I : Nat → A → V) : Prop :=
  ∀ (f : Nat) (vf : VFun A V) (a : A), P[f]? = some vf → vf.pre a →
    (∀ t, vf.body = some t → I f a = value I (t a)) ∧ vf.post a (I f a)

/-! ### Python functions -/

/-- Function `f` runs the statements `t`. -/
def Fun.Defined (f : Fun A V) (t : A → Tree A V) : Prop := f.contractOnly = false ∧ f.body = .stmts t

/-- Function `f` has no implementation that is verified. -/
def Fun.Abstract (f : Fun A V) : Prop := ∀ t, ¬ f.Defined t

/-- Executing an evaluation in Python terminates with a value; functions without implementation return
the value of `orc`. -/
inductive Run (fs : List (Fun A V)) (orc : Nat → A → V) : Tree A V → V → Prop
  | ret (v : V) : Run fs orc (.ret v) v
  | call {g : Nat} {f : Fun A V} {t : A → Tree A V} {b : A} {k : V → Tree A V} {v w : V} :
      fs[g]? = some f → f.Defined t → Run fs orc (t b) v → Run fs orc (k v) w →
      Run fs orc (.call g b k) w
  | abstract {g : Nat} {f : Fun A V} {b : A} {k : V → Tree A V} {w : V} :
      fs[g]? = some f → f.Abstract → Run fs orc (k (orc g b)) w → Run fs orc (.call g b k) w

/-- No function is assumed to terminate, and there are values as functions without implementation
promise. -/
def NoTrust (fs : List (Fun A V)) : Prop :=
  ∀ f ∈ fs, (∀ c ∈ f.clauses, c.measure ≠ .constNone) ∧
    (f.Abstract → ∀ a, f.pre a → ∃ v, f.post a v)

/-- Wherever an implemented function may be called, one of its `Decreases` clauses applies. -/
def Annotated (fs : List (Fun A V)) : Prop :=
  ∀ f ∈ fs, ∀ t a, f.Defined t → f.pre a → ∃ c ∈ f.clauses, holds c.cond a

end Nagini.Decreases
