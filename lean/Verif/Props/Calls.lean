import Verif.Model.Calls

/-!
C150: a call is translated as a call of the function that its name refers to.
-/
namespace Nagini.Calls

/-- The full claim: a call is treated as a call of what its name refers to. -/
def C150_calls : Prop :=
  ∀ (env : Env) (f : String) (r r' : Ref), pythonRef env f = some r → dispatch env f = .as r' → r' = r

/-- The names that are meant to be special. -/
def Special (f : String) : Prop := f ∈ libFunctions ∨ f ∈ pythonBuiltins

/-- The names that are in one of the tables. -/
def Tested (f : String) : Prop :=
  f ∈ contracts ∨ f ∈ ioContracts ∨ f ∈ obligations ∨ f ∈ builtins ∨ f = "Thread" ∨ f ∈ predicates

/-- The tables contain exactly the names that are meant to be special. -/
theorem special_tested (f : String) : Special f ↔ Tested f := by
  constructor
  · have h1 : ∀ g ∈ libFunctions, Tested g := by unfold Tested; decide +kernel
    have h2 : ∀ g ∈ pythonBuiltins, Tested g := by unfold Tested; decide +kernel
    rintro (h | h)
    · exact h1 f h
    · exact h2 f h
  · have h1 : ∀ g ∈ contracts, Special g := by unfold Special; decide +kernel
    have h2 : ∀ g ∈ ioContracts, Special g := by unfold Special; decide +kernel
    have h3 : ∀ g ∈ obligations, Special g := by unfold Special; decide +kernel
    have h4 : ∀ g ∈ builtins, Special g := by unfold Special; decide +kernel
    have h5 : Special "Thread" := by unfold Special; decide +kernel
    have h6 : ∀ g ∈ predicates, Special g := by unfold Special; decide +kernel
    rintro (h | h | h | h | rfl | h)
    · exact h1 f h
    · exact h2 f h
    · exact h3 f h
    · exact h4 f h
    · exact h5
    · exact h6 f h

theorem mem_wrappers (f : String) : f ∈ wrappers ↔ f ∈ headFunctions := by
  have h1 : ∀ g ∈ wrappers, g ∈ headFunctions := by decide +kernel
  have h2 : ∀ g ∈ headFunctions, g ∈ wrappers := by decide +kernel
  exact ⟨h1 f, h2 f⟩

theorem dispatch_wrapper {env : Env} {f : String} (h : f ∈ headFunctions) : dispatch env f = .invalid := by
  simp [dispatch, (mem_wrappers f).2 h]

theorem dispatch_special {env : Env} {f : String} (hw : f ∉ headFunctions) (h : Special f) :
    dispatch env f = .as (.lib f) := by
  rw [special_tested] at h
  rw [← mem_wrappers] at hw
  unfold dispatch
  rw [if_neg hw]
  repeat' split
  all_goals first
    | rfl
    | (exfalso; simp_all [Tested])

theorem dispatch_other {env : Env} {f : String} (hw : f ∉ headFunctions) (h : ¬ Special f) (r : Ref) :
    dispatch env f = .as r ↔ env f = some r ∧ ∃ d, r = .user d := by
  have h' := h
  rw [special_tested] at h'
  simp only [Tested, not_or] at h'
  obtain ⟨h1, h2, h3, h4, h5, h6⟩ := h'
  rw [← mem_wrappers] at hw
  unfold dispatch
  rw [if_neg hw, if_neg h1, if_neg h2, if_neg h3, if_neg h4, if_neg h5, if_neg h6]
  cases hr : env f with
  | none => simp
  | some r' =>
    cases r' with
    | lib g =>
      simp only [Option.some.injEq, reduceCtorEq, false_iff, not_and]
      rintro rfl ⟨d, e⟩
      cases e
    | user d =>
      simp only [Treated.as.injEq, Option.some.injEq]
      exact ⟨fun e => ⟨e, d, e.symm⟩, fun e => e.1⟩

/-- Exactly when a call is treated as one of something else: if its name is special and refers to something else. -/
theorem C150_exact (env : Env) (f : String) (r : Ref) (h : pythonRef env f = some r) :
    (∃ r', dispatch env f = .as r' ∧ r' ≠ r) ↔ f ∉ headFunctions ∧ Special f ∧ r ≠ .lib f := by
  by_cases hw : f ∈ headFunctions
  · simp [dispatch_wrapper hw, hw]
  · by_cases hs : Special f
    · rw [dispatch_special hw hs]
      constructor
      · rintro ⟨r', e, hne⟩
        cases e
        exact ⟨hw, hs, Ne.symm hne⟩
      · rintro ⟨_, _, hne⟩
        exact ⟨_, rfl, Ne.symm hne⟩
    · constructor
      · rintro ⟨r', e, hne⟩
        obtain ⟨e, _⟩ := (dispatch_other hw hs r').1 e
        simp only [pythonRef, e, Option.some.injEq] at h
        exact absurd h hne
      · rintro ⟨_, h, _⟩
        exact absurd h hs

/-- Proved part: the claim holds for modules in which special names only refer to the functions they are meant for; and all
other functions of the program can be called. -/
theorem C150_partial (env : Env) (he : ∀ f r, Special f → env f = some r → r = .lib f) (f : String) (r : Ref)
    (h : pythonRef env f = some r) :
    (∀ r', dispatch env f = .as r' → r' = r) ∧
      (f ∉ headFunctions → (Special f ∨ ∃ d, r = .user d) → dispatch env f = .as r) := by
  have hb : Special f → r = .lib f := by
    intro hs
    unfold pythonRef at h
    cases hr : env f with
    | some r' =>
      rw [hr] at h
      simp only [Option.some.injEq] at h
      rw [← h]
      exact he f r' hs hr
    | none =>
      rw [hr] at h
      simp only [Option.ite_none_right_eq_some, Option.some.injEq] at h
      exact h.2.symm
  constructor
  · intro r' hr
    apply Classical.byContradiction
    intro hne
    obtain ⟨_, h2, h3⟩ := (C150_exact env f r h).1 ⟨r', hr, hne⟩
    exact h3 (hb h2)
  · intro hw hc
    by_cases hs : Special f
    · rw [dispatch_special hw hs, hb hs]
    · obtain ⟨d, rfl⟩ := hc.resolve_left hs
      refine (dispatch_other hw hs _).2 ⟨?_, d, rfl⟩
      unfold pythonRef at h
      cases hr : env f with
      | some r' =>
        rw [hr] at h
        simpa using h
      | none =>
        rw [hr] at h
        simp at h

/-- A library function that is imported under another name cannot be called. -/
theorem C150_alias (env : Env) (f g : String) (h : env f = some (.lib g)) (hs : ¬ Special f) :
    dispatch env f = .invalid := by
  by_cases hw : f ∈ headFunctions
  · exact dispatch_wrapper hw
  · cases hd : dispatch env f with
    | invalid => rfl
    | as r =>
      obtain ⟨e, d, rfl⟩ := (dispatch_other hw hs r).1 hd
      rw [h] at e
      cases e

/-! ### Where the code violates the claim -/

/-- A module with `def len(x): …`. -/
def lenEnv : Env := fun f => if f = "len" then some (.user 0) else none

/-- A call of a function `len` of the program is verified as if it was the built-in one. -/
theorem C150_fails : ¬ C150_calls := by
  intro h
  have := h lenEnv "len" (.user 0) (.lib "len") (by decide) (by decide)
  cases this

/-- `Forall4` and `Forall5` are contract functions, but missing in the table: they are never recognised. -/
theorem C150_forall_missing (env : Env) (f : String) (hf : f = "Forall4" ∨ f = "Forall5") (h : env f = some (.lib f)) :
    dispatch env f = .invalid := by
  refine C150_alias env f f h ?_
  rcases hf with rfl | rfl
  · unfold Special; decide
  · unfold Special; decide

/-! ### Examples -/

/-- A module that imports `Acc` and defines `f`. -/
def exEnv : Env := fun f => if f = "Acc" then some (.lib "Acc") else if f = "f" then some (.user 0) else none

example : ∀ f r, Special f → exEnv f = some r → r = .lib f := by
  intro f r hs hr
  unfold exEnv at hr
  split at hr
  · rename_i e; subst e; simpa using hr.symm
  · split at hr
    · rename_i e; subst e
      exact absurd hs (by unfold Special; decide)
    · cases hr

example : dispatch exEnv "Acc" = .as (.lib "Acc") ∧ dispatch exEnv "f" = .as (.user 0) ∧
    dispatch exEnv "len" = .as (.lib "len") ∧ dispatch exEnv "Requires" = .invalid := by decide

end Nagini.Calls
