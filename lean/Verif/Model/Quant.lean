import Verif.Spec.Quant
import Verif.Model.Alias

/-!
Model of the translation of `Forall`, `Forall2`, ..., `Exists`, `Let` and `Old`
(translators/contract.py).  Triggers, definedness, positions and impure bodies (quantified permissions)
are left out.  The sequence of a collection, `type___sil_seq__`, is taken to have the elements of the
collection in the heap where it is evaluated (C94 and C20 are about some of these).  The variable
of a lambda parameter is found by its position and name; such variables have distinct Viper names (C36).
-/
set_option linter.unusedVariables false
namespace Nagini.Quant

/-- Viper variables: those of the function, and `lambda<position>$<name>`.
Models lib/util.py:315-320 and the keys of `special_vars`, analyzer.py:1138-1142. -/
inductive Var
  | plain (n : Nat)
  | lam (pos n : Nat)
  deriving DecidableEq

variable (W : World)

/-- Viper terms.  Models the results of `translate_expr` for domains, translators/contract.py:689. -/
structure VTerm where
  old : Bool
  vars : List Var
  fn : W.H → List W.V → W.V

/-- Viper assertions.  Models the constructors used in translators/contract.py:682-695, 918, 976-1009
and 1059-1088. -/
inductive VForm
  | atom (vars : List Var) (p : W.H → List W.V → Prop)
  | neg (f : VForm)
  | and (f g : VForm)
  | imp (f g : VForm)
  | old (f : VForm)
  | isType (T : W.Ty) (x : Var)
  | mem (x : Var) (t : VTerm W)
  | all (xs : List Var) (f : VForm)
  | ex (xs : List Var) (f : VForm)
  | lete (x : Var) (t : VTerm W) (f : VForm)
  | tt

variable {W}

/-- The value of a Viper term, trusted meaning of Viper; cited for translators/contract.py:689. -/
def VTerm.eval (h h0 : W.H) (η : Var → W.V) (t : VTerm W) : W.V :=
  t.fn (if t.old then h0 else h) (t.vars.map η)

/-- Viper's universal quantifier over several variables, as built in translators/contract.py:1007-1009. -/
def vAll (P : (Var → W.V) → Prop) : (Var → W.V) → List Var → Prop
  | η, [] => P η
  | η, x :: xs => ∀ v, vAll P (set η x v) xs

/-- Viper's existential quantifier, as built in translators/contract.py:1086-1088. -/
def vEx (P : (Var → W.V) → Prop) : (Var → W.V) → List Var → Prop
  | η, [] => P η
  | η, x :: xs => ∃ v, vEx P (set η x v) xs

/-- The truth of a Viper assertion, trusted meaning of Viper; cited for
translators/contract.py:682-695. -/
def VForm.holds (h0 : W.H) : W.H → (Var → W.V) → VForm W → Prop
  | h, η, .atom xs p => p h (xs.map η)
  | h, η, .neg f => ¬ f.holds h0 h η
  | h, η, .and f g => f.holds h0 h η ∧ g.holds h0 h η
  | h, η, .imp f g => f.holds h0 h η → g.holds h0 h η
  | _, η, .old f => f.holds h0 h0 η
  | _, η, .isType T x => W.inst T (η x)
  | h, η, .mem x t => η x ∈ W.elems h (t.eval h h0 η)
  | h, η, .all xs f => vAll (fun η' => f.holds h0 h η') η xs
  | h, η, .ex xs f => vEx (fun η' => f.holds h0 h η') η xs
  | h, η, .lete x t f => f.holds h0 h (set η x (t.eval h h0 η))
  | _, _, .tt => True

/-- The context's aliases.  Models lib/context.py:31-44. -/
abbrev Ctx := Alias.State Var

/-- The variable of a name: its alias or the variable of the function.
Models translators/expression.py:969-972. -/
def lookup (σ : Ctx) (n : Nat) : Var := (σ.var n).getD (.plain n)

/-- Translation of a term.  Models translators/expression.py:948-997 for the names in it. -/
def trTerm (σ : Ctx) (t : Term W) : VTerm W := ⟨t.old, t.names.map (lookup σ), t.fn⟩

/-- `_create_quantifier_contains_expr`, the left-hand side.
Models translators/contract.py:658-696 and translators/common.py:606-614. -/
def containsExpr (σ : Ctx) (x : Var) : Dom W → VForm W
  | .typ T => .isType T x
  | .coll old t => if old then .old (.mem x (trTerm σ t)) else .mem x (trTerm σ t)

/-- The conjunction of the left-hand sides.  Models translators/contract.py:965-980. -/
def lhsLoop (σ : Ctx) (pos : Nat) (acc : Option (VForm W)) : List (Bind W) → Option (VForm W)
  | [] => acc
  | b :: bs =>
    let cur := containsExpr σ (.lam pos b.name) b.dom
    lhsLoop σ pos (some (match acc with | none => cur | some l => .and l cur)) bs

/-- The type check of the variable of the last iteration.
Models translators/contract.py:1002-1006. -/
def lastCheck (pos : Nat) (bs : List (Bind W)) : VForm W :=
  match bs.getLast? with
  | some b => .isType b.ty (.lam pos b.name)
  | none => .tt

/-- Setting the aliases of the parameters of a lambda.  Models translators/contract.py:934-943. -/
def setAll (σ : Ctx) (pos : Nat) (ns : List Nat) : Ctx :=
  ns.foldl (fun s n => Alias.setAlias s n (.lam pos n)) σ

/-- Removing them.  Models translators/contract.py:960-961. -/
def removeAll (σ : Ctx) (ns : List Nat) : Ctx := ns.foldl (fun s n => Alias.removeAlias s n) σ

/-- `translate_forall`, `translate_exists`, `translate_let`, and the other assertions by their parts.
Models translators/contract.py:896-919, 921-1010 and 1012-1089. -/
def translate (σ : Ctx) : Form W → VForm W × Ctx
  | .atom ns p => (.atom (ns.map (lookup σ)) p, σ)
  | .neg f => let (a, σ1) := translate σ f; (.neg a, σ1)
  | .and f g => let (a, σ1) := translate σ f; let (b, σ2) := translate σ1 g; (.and a b, σ2)
  | .imp f g => let (a, σ1) := translate σ f; let (b, σ2) := translate σ1 g; (.imp a b, σ2)
  | .old f => let (a, σ1) := translate σ f; (.old a, σ1)
  | .all pos bs body =>
    let ns := bs.map Bind.name
    let (rhs, σ1) := translate (setAll σ pos ns) body
    let σ2 := removeAll σ1 ns
    let lhs := (lhsLoop σ2 pos none bs).getD .tt
    (.all (ns.map (Var.lam pos)) (.imp (lastCheck pos bs) (.imp lhs rhs)), σ2)
  | .ex pos b body =>
    let (rhs, σ1) := translate (Alias.setAlias σ b.name (.lam pos b.name)) body
    let σ2 := Alias.removeAlias σ1 b.name
    let x := Var.lam pos b.name
    (.ex [x] (.and (.isType b.ty x) (.and (containsExpr σ2 x b.dom) rhs)), σ2)
  | .bind pos n t body =>
    let e := trTerm σ t
    let (rhs, σ1) := translate (Alias.setAlias σ n (.lam pos n)) body
    (.lete (.lam pos n) e rhs, Alias.removeAlias σ1 n)

end Nagini.Quant
