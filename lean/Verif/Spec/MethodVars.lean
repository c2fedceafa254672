/-!
Methods with type variables, as mypy sees them: a call fits if there are types for the variables such that the
arguments have the types of the parameters.
-/
namespace Nagini.MethodVars

/-- Types: type variables, and classes with type arguments. -/
inductive Ty
  | var (v : Nat)
  | app (c : Nat) (as : List Ty)

/-- A position in a type: classes and indices of type arguments, from the outside to the inside. -/
abbrev Path := List (Nat × Nat)

/-- `At t p s`: at position `p` of `t` there is `s`. -/
inductive At : Ty → Path → Ty → Prop
  | root {t} : At t [] t
  | arg {c as p s} {i : Nat} {a : Ty} : as[i]? = some a → At a p s → At (.app c as) ((c, i) :: p) s

/-- The variable occurs in the type. -/
def Occurs (v : Nat) (t : Ty) : Prop := ∃ p, At t p (.var v)

/-- The position of the first occurrence of a variable. -/
inductive First (v : Nat) : Ty → Path → Prop
  | root : First v (.var v) []
  | arg {c as p} {i : Nat} {a : Ty} : as[i]? = some a → First v a p →
      (∀ (j : Nat) (b : Ty), j < i → as[j]? = some b → ¬ Occurs v b) → First v (.app c as) ((c, i) :: p)

/-- All classes have the right number of type arguments. -/
inductive WF (ar : Nat → Nat) : Ty → Prop
  | var {v} : WF ar (.var v)
  | app {c as} : as.length = ar c → (∀ a ∈ as, WF ar a) → WF ar (.app c as)

/-- An interpretation of the domain of types. -/
structure Dom where
  T : Type
  app : Nat → List T → T
  arg : Nat → T → Nat → T
  sub : T → T → Prop

mutual
/-- The meaning of a type. -/
def den (D : Dom) (σ : Nat → D.T) : Ty → D.T
  | .var v => σ v
  | .app c as => D.app c (denL D σ as)
/-- The meanings of several types. -/
def denL (D : Dom) (σ : Nat → D.T) : List Ty → List D.T
  | [] => []
  | a :: r => den D σ a :: denL D σ r
end

/-- A method: the types of its parameters, its type variables with their bounds, and its result type. -/
structure Meth where
  params : List Ty
  bounds : List (Nat × Ty)
  res : Ty

/-- `σ` makes the call well-typed. -/
structure WellTyped (D : Dom) (m : Meth) (as : List D.T) (σ : Nat → D.T) : Prop where
  args : ∀ (i : Nat) (P : Ty) (a : D.T), m.params[i]? = some P → as[i]? = some a → D.sub a (den D σ P)
  bounds : ∀ v b, (v, b) ∈ m.bounds → D.sub (σ v) (den D σ b)

/-- What holds for every method: one argument for each parameter, the types are well-formed, bounds contain no variables,
the variables are those of the parameters. -/
structure MethOk (ar : Nat → Nat) (m : Meth) : Prop where
  wf : ∀ P ∈ m.params, WF ar P
  closed : ∀ v b, (v, b) ∈ m.bounds → ∀ w, ¬ Occurs w b
  used : ∀ v b, (v, b) ∈ m.bounds → ∃ P ∈ m.params, Occurs v P

end Nagini.MethodVars
