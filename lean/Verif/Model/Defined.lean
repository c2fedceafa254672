import Verif.Spec.Defined

/-!
Model of how the translation makes Viper check that local variables of impure methods are assigned before
they are read: the uninterpreted function `_isDefined` on the integer identities of Silver names is assumed
after assignments and required by `_checkDefined` at reads.

Not modelled: `return`, `break`, `continue` and `finally` (see Cfg), module-level code (see Imports), and
augmented assignments (`x += 1`): the check is missing there (`as_read` is ignored for local variables,
translators/expression.py:976-979), but the operator that is applied requires the type of the value, which
is unknown for a variable that was not assigned.
-/
set_option linter.unusedVariables false
namespace Nagini.Defined

open Names

/-- The Viper statements concerned (translators/common.py:284-307).  `inhale n`, `check n`: assume or check `_isDefined` for the identity of
the Silver name `n`.  `handle b h`: the code `h` of a handler is jumped to from `b`. -/
inductive VStmt (σ : Type) : Type
  | skip
  | act (r : σ → Bool → σ → Prop)
  | inhale (n : PyStr)
  | check (n : PyStr)
  | seq (a b : VStmt σ)
  | ite (c : σ → Bool) (a b : VStmt σ)
  | whl (c : σ → Bool) (I : (Nat → Prop) → σ → Prop) (b : VStmt σ)
  | handle (b h : VStmt σ)

variable {σ : Type}

/-- Names of local variables in force: the aliases of the context override the names given to the locals.
Models lib/context.py:164-180 (`set_alias`), translators/method.py:861 (handlers). -/
def upd (al : PyStr → PyStr) (x n : PyStr) : PyStr → PyStr := fun y => if y = x then n else al y

/-- Assume that a list of names is defined (translators/pure.py:336-346). -/
def inhales : List PyStr → VStmt σ
  | [] => .skip
  | n :: ns => .seq (.inhale n) (inhales ns)

/-- The translation.  `inlined`: the code belongs to an inlined call, then the variables are aliases that
belong to the calling method and are not regarded as local (`is_local_variable`,
translators/common.py:266-276, `inline_method`, translators/call.py:1064-1074).
* Assignments: translators/statement.py:1452-1455.
* Reads: translators/expression.py:968-979, 998-1011.
* Calls of pure functions: the body of the function assumes that its local variables are defined, by the
  identities of their names in Python (translators/pure.py:336-346, 353-356; translators/program.py:656-669).
* Handlers: the name bound is an alias of the error variable of the block, which is assumed to be defined
  (translators/method.py:855-864), and the alias ends with the handler.
* Invariants of loops: translators/statement.py:1455, 1463-1464 (definedness in `assign_expr`). -/
def tr (inlined : Bool) (al : PyStr → PyStr) : Stmt σ → VStmt σ
  | .skip => .skip
  | .act r => .act r
  | .assign x r => if inlined then .act r else .seq (.act r) (.inhale (al x))
  | .use x => if inlined then .skip else .check (al x)
  | .pure ns => inhales ns
  | .seq a b => .seq (tr inlined al a) (tr inlined al b)
  | .ite c a b => .ite c (tr inlined al a) (tr inlined al b)
  | .whl c I b => .whl c (fun δ => I fun x => δ (stringToInt (al x))) (tr inlined al b)
  | .tryx b x e h => .handle (tr inlined al b) (.seq (.inhale e) (tr inlined (upd al x e) h))
  | .inl b => tr true al b

/-- Weakest precondition of a Viper statement, for the interpretation `δ` of `_isDefined`
(translators/program.py:621-638) and postconditions for the normal and the exceptional end. -/
def wp (δ : Nat → Prop) : VStmt σ → (σ → Prop) → (σ → Prop) → σ → Prop
  | .skip, Q, _, s => Q s
  | .act r, Q, E, s => ∀ b s', r s b s' → if b then E s' else Q s'
  | .inhale n, Q, _, s => δ (stringToInt n) → Q s
  | .check n, Q, _, s => δ (stringToInt n) ∧ Q s
  | .seq a b, Q, E, s => wp δ a (wp δ b Q E) E s
  | .ite c a b, Q, E, s => if c s then wp δ a Q E s else wp δ b Q E s
  | .whl c I b, Q, E, s => I δ s ∧ ∀ s', I δ s' →
      if c s' then wp δ b (I δ) E s' else Q s'
  | .handle b h, Q, E, s => wp δ b Q (wp δ h Q E) s

/-- The Viper method of a Python method verifies, whatever `_isDefined` is: names `sil` for the locals.
Models translators/method.py:558-600. -/
def verifies (sil : PyStr → PyStr) (pre : σ → Prop) (b : Stmt σ) : Prop :=
  ∀ δ s, pre s → wp δ (tr false sil b) (fun _ => True) (fun _ => True) s

/-- Names of locals, of error variables, names bound by handlers and locals of pure functions that occur in
the code of a method (translators/method.py:855-864, translators/pure.py:336-346). -/
def errs : Stmt σ → List PyStr
  | .seq a b => errs a ++ errs b
  | .ite _ a b => errs a ++ errs b
  | .whl _ _ b => errs b
  | .tryx b _ e h => e :: (errs b ++ errs h)
  | .inl b => errs b
  | _ => []

/-- Names of the locals of pure functions that are called (translators/pure.py:336-346), also by inlined
code. -/
def pureNames : Stmt σ → List PyStr
  | .pure ns => ns
  | .seq a b => pureNames a ++ pureNames b
  | .ite _ a b => pureNames a ++ pureNames b
  | .whl _ _ b => pureNames b
  | .tryx b _ _ h => pureNames b ++ pureNames h
  | .inl b => pureNames b
  | _ => []

/-- Names bound by handlers (translators/method.py:855-864), outside of inlined code, are used in these
handlers only (`B` are the names of the handlers around the code, `N` those of all handlers), and inlined
methods never read unassigned variables. -/
def Scoped (N : List PyStr) : List PyStr → Stmt σ → Prop
  | B, .assign x _ => x ∈ N → x ∈ B
  | B, .use x => x ∈ N → x ∈ B
  | B, .seq a b => Scoped N B a ∧ Scoped N B b
  | B, .ite _ a b => Scoped N B a ∧ Scoped N B b
  | B, .whl _ I b => Scoped N B b
  | B, .tryx b x _ h => x ∈ N ∧ x ∉ B ∧ Scoped N B b ∧ Scoped N (x :: B) h
  | _, .inl b => NeverUndefined (fun _ => True) b
  | _, _ => True

end Nagini.Defined
