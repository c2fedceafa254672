import Verif.Model.Names

/-!
Method bodies and what Python does with their local variables: reading a local variable that has not been
assigned raises `UnboundLocalError`; `except E as e` binds `e` and unbinds it when the handler ends.
-/
namespace Nagini.Defined

open Names

/-- Statements over states `σ` (heap and values of variables).
* `act r`: a step that uses no local variable; `r s b s'`: it may lead from `s` to `s'`, raising an
  exception iff `b`.
* `assign x r`: the same with an assignment to the local variable `x` if there is no exception.
* `use x`: the local variable `x` is read.
* `pure ns`: a pure function is called; `ns` are the local variables assigned when it is evaluated.
* `whl c I b`: a loop with invariant `I`, which may say which variables are defined (as the invariants of
  `for` loops do for the loop variable).
* `tryx b x e h`: `try: b except Exception as x: h`; `e` is the name of the variable that the translation
  uses for the exception.
* `inl b`: a call that the verifier inlines; `b` is the body of the called method. -/
inductive Stmt (σ : Type) : Type
  | skip
  | act (r : σ → Bool → σ → Prop)
  | assign (x : PyStr) (r : σ → Bool → σ → Prop)
  | use (x : PyStr)
  | pure (ns : List PyStr)
  | seq (a b : Stmt σ)
  | ite (c : σ → Bool) (a b : Stmt σ)
  | whl (c : σ → Bool) (I : (PyStr → Prop) → σ → Prop) (b : Stmt σ)
  | tryx (b : Stmt σ) (x : PyStr) (e : PyStr) (h : Stmt σ)
  | inl (b : Stmt σ)

/-- How an execution ends: normally, with an exception, or by reading the unassigned variable `x`; `D` are
the variables assigned. -/
inductive Out (σ : Type) : Type
  | ok (D : List PyStr) (s : σ)
  | exc (D : List PyStr) (s : σ)
  | undef (D : List PyStr) (x : PyStr)

variable {σ : Type}

/-- Executions of Python; `D` are the local variables of the current method that are assigned. -/
inductive Exec : Stmt σ → List PyStr → σ → Out σ → Prop
  | skip {D s} : Exec .skip D s (.ok D s)
  | act {r D s s'} : r s false s' → Exec (.act r) D s (.ok D s')
  | act_exc {r D s s'} : r s true s' → Exec (.act r) D s (.exc D s')
  | assign {x r D s s'} : r s false s' → Exec (.assign x r) D s (.ok (x :: D) s')
  | assign_exc {x r D s s'} : r s true s' → Exec (.assign x r) D s (.exc D s')
  | use {x D s} : x ∈ D → Exec (.use x) D s (.ok D s)
  | use_undef {x D s} : x ∉ D → Exec (.use x) D s (.undef D x)
  | pure {ns D s} : Exec (.pure ns) D s (.ok D s)
  | seq {a b D s D' s' R} : Exec a D s (.ok D' s') → Exec b D' s' R → Exec (.seq a b) D s R
  | seq_exc {a b D s D' s'} : Exec a D s (.exc D' s') → Exec (.seq a b) D s (.exc D' s')
  | seq_undef {a b D s D' x} : Exec a D s (.undef D' x) → Exec (.seq a b) D s (.undef D' x)
  | ite {c a b D s R} : Exec (if c s then a else b) D s R → Exec (.ite c a b) D s R
  | whl_end {c I b D s} : c s = false → Exec (.whl c I b) D s (.ok D s)
  | whl {c I b D s D' s' R} : c s = true → Exec b D s (.ok D' s') → Exec (.whl c I b) D' s' R →
      Exec (.whl c I b) D s R
  | whl_exc {c I b D s D' s'} : c s = true → Exec b D s (.exc D' s') →
      Exec (.whl c I b) D s (.exc D' s')
  | whl_undef {c I b D s D' x} : c s = true → Exec b D s (.undef D' x) →
      Exec (.whl c I b) D s (.undef D' x)
  | try_ok {b x e h D s D' s'} : Exec b D s (.ok D' s') → Exec (.tryx b x e h) D s (.ok D' s')
  | try_undef {b x e h D s D' y} : Exec b D s (.undef D' y) → Exec (.tryx b x e h) D s (.undef D' y)
  | handle_ok {b x e h D s D₁ s₁ D' s'} : Exec b D s (.exc D₁ s₁) →
      Exec h (x :: D₁) s₁ (.ok D' s') → Exec (.tryx b x e h) D s (.ok (D'.filter (· ≠ x)) s')
  | handle_exc {b x e h D s D₁ s₁ D' s'} : Exec b D s (.exc D₁ s₁) →
      Exec h (x :: D₁) s₁ (.exc D' s') → Exec (.tryx b x e h) D s (.exc (D'.filter (· ≠ x)) s')
  | handle_undef {b x e h D s D₁ s₁ D' y} : Exec b D s (.exc D₁ s₁) →
      Exec h (x :: D₁) s₁ (.undef D' y) → Exec (.tryx b x e h) D s (.undef D' y)
  | inl {b D s D' s'} : Exec b [] s (.ok D' s') → Exec (.inl b) D s (.ok D s')
  | inl_exc {b D s D' s'} : Exec b [] s (.exc D' s') → Exec (.inl b) D s (.exc D s')
  | inl_undef {b D s D' x} : Exec b [] s (.undef D' x) → Exec (.inl b) D s (.undef D' x)

/-- No execution that starts in a state with `pre` reads an unassigned variable. -/
def NeverUndefined (pre : σ → Prop) (b : Stmt σ) : Prop :=
  ∀ s D x, pre s → ¬ Exec b [] s (.undef D x)

/-- The names bound by handlers, outside of inlined calls. -/
def handlerNames : Stmt σ → List PyStr
  | .seq a b => handlerNames a ++ handlerNames b
  | .ite _ a b => handlerNames a ++ handlerNames b
  | .whl _ _ b => handlerNames b
  | .tryx b x _ h => x :: (handlerNames b ++ handlerNames h)
  | _ => []

/-- The local variables of a method: names assigned, read or bound by handlers. -/
def names : Stmt σ → List PyStr
  | .assign x _ => [x]
  | .use x => [x]
  | .seq a b => names a ++ names b
  | .ite _ a b => names a ++ names b
  | .whl _ _ b => names b
  | .tryx b x _ h => x :: (names b ++ names h)
  | _ => []

/-- `D` without the names that the handlers in `b` may unbind. -/
def survive (b : Stmt σ) (D : List PyStr) : List PyStr := D.filter (· ∉ handlerNames b)

/-- Every variable is assigned before it is read on all paths, judged by the text alone: `da D b` is the
list of variables certainly assigned after `b`, if those in `D` are before; `none` if a variable may be
read too early. -/
def da : List PyStr → Stmt σ → Option (List PyStr)
  | D, .skip => some D
  | D, .act _ => some D
  | D, .assign x _ => some (x :: D)
  | D, .use x => if x ∈ D then some D else none
  | D, .pure _ => some D
  | D, .seq a b => (da D a).bind fun D' => da D' b
  | D, .ite _ a b => (da D a).bind fun D₁ => (da D b).map fun D₂ => D₁.filter (· ∈ D₂)
  | D, .whl _ _ b => (da (survive b D) b).map fun _ => survive b D
  | D, .tryx b x _ h => (da D b).bind fun D₁ => (da (x :: survive b D) h).map fun D₂ =>
      (D₁.filter (· ∈ D₂)).filter (· ≠ x)
  | D, .inl b => (da [] b).map fun _ => D

/-- The same code without reading local variables. -/
def noUses : Stmt σ → Stmt σ
  | .use _ => .skip
  | .seq a b => .seq (noUses a) (noUses b)
  | .ite c a b => .ite c (noUses a) (noUses b)
  | .whl c I b => .whl c I (noUses b)
  | .tryx b x e h => .tryx (noUses b) x e (noUses h)
  | .inl b => .inl (noUses b)
  | s => s

end Nagini.Defined
