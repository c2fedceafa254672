import Verif.Lemmas.IsInstance

/-!
C114: `isinstance` has the value it has in Python.
-/
namespace Nagini.IsInstance

/-- **C114** (full claim). -/
def C114 : Prop :=
  ∀ (user : Classes) (env : Nat → Nat) (d : Nat) (t : Target), accepted user →
    ((translateIsinstance user t).holds user env d ↔ PyIsinstance user env d t)

/-- **C114, exactly** (partial): the translation and Python differ for the class `type`, for numbers that
are tested for being floats, and for classes in variables if the object is an instance of a proper
subclass; and only for these. -/
theorem C114_iff_partial (user : Classes) (env : Nat → Nat) (d : Nat) (t : Target)
    (ha : accepted user) :
    ((translateIsinstance user t).holds user env d ↔ PyIsinstance user env d t) ↔
      match t with
      | .cls c => ¬ (c = typeC ∧ ¬ PySubclass user d typeC) ∧
          ¬ (c = floatC ∧ PySubclass user d intC ∧ ¬ PySubclass user d floatC)
      | .var x => ¬ (PySubclass user d (env x) ∧ d ≠ env x) := by
  cases t with
  | cls c =>
    simp only [translateIsinstance, PyIsinstance, typeCheck]
    by_cases ht : c = typeC
    · subst ht
      have : typeC ≠ floatC := by decide
      simp only [if_true, Check.holds, true_iff, this, false_and, not_false_eq_true, and_true, true_and,
        not_not]
    · simp only [ht, if_false, false_and, not_false_eq_true, true_and]
      by_cases he : enum user c = true
      · have hne : c ≠ floatC := enum_ne he
        simp only [he, if_true, Check.holds, hne, false_and, not_false_eq_true, iff_true]
        exact ⟨fun h => h ▸ .refl _, py_enum ha he⟩
      · simp only [he, Bool.false_eq_true, if_false, Check.holds, issubtype_iff]
        by_cases hf : c = floatC
        · subst hf
          have e1 : floatC = 1 := rfl
          have e2 : intC = 2 := rfl
          rw [e1, e2]
          by_cases h1 : PySubclass user d 1 <;> by_cases h2 : PySubclass user d 2 <;> simp [h1, h2]
        · have : ¬ c = 1 := hf
          simp [this, hf]
  | var x =>
    simp only [translateIsinstance, PyIsinstance, Check.holds]
    constructor
    · rintro h ⟨h1, h2⟩
      exact h2 (h.2 h1)
    · intro h
      constructor
      · intro hd
        rw [hd]
        exact .refl _
      · intro hs
        by_contra hne
        exact h ⟨hs, hne⟩

/-- Classes 10, 11(10), an enumeration 12 and 13(11). -/
def user : Classes := fun c =>
  if c = 10 then some 0 else if c = 11 then some 10 else if c = 12 then some 6
  else if c = 13 then some 11 else none

theorem user_accepted : accepted user := by
  intro c p h
  have : p ≠ 12 := by
    rintro rfl
    unfold superclass objectC floatC intC boolC noneC typeC intEnumC user at h
    repeat' split at h
    all_goals simp_all
  unfold enum
  by_cases hp : superclass user p = some intEnumC
  · exfalso
    unfold superclass objectC floatC intC boolC noneC typeC intEnumC user at hp
    repeat' split at hp
    all_goals simp_all
  · simp [hp]

/-- **C114 fails** for numbers: `isinstance(1, float)` is true for the verifier. -/
theorem C114_float_fails : ¬ C114 := by
  intro h
  have := (C114_iff_partial user (fun _ => 0) 2 (.cls 1) user_accepted).1
    (h user _ 2 (.cls 1) user_accepted)
  refine this.2 ⟨rfl, .refl 2, ?_⟩
  intro hs
  cases hs with
  | step hs hs' => cases hs; cases py_from_object hs'

/-- **C114 fails** for variables: in a class method, `isinstance(o, cls)` is false for the verifier if
`o` is an instance of a proper subclass of `cls`. -/
theorem C114_var_fails : ¬ C114 := by
  intro h
  have := (C114_iff_partial user (fun _ => 10) 11 (.var 0) user_accepted).1
    (h user _ 11 (.var 0) user_accepted)
  exact this ⟨.step rfl (.refl 10), by decide⟩

/-- **C114 fails** for the class `type`: `isinstance(o, type)` is true for all objects. -/
theorem C114_type_fails : ¬ C114 := by
  intro h
  have := (C114_iff_partial user (fun _ => 0) 10 (.cls 5) user_accepted).1
    (h user _ 10 (.cls 5) user_accepted)
  refine this.1 ⟨rfl, ?_⟩
  intro hs
  cases hs with
  | step hs hs' => cases hs; cases py_from_object hs'

/-- Not vacuous: an instance of class 13 is one of class 10, an instance of class 10 none of class 11. -/
example : (translateIsinstance user (.cls 10)).holds user (fun _ => 0) 13 :=
  ((C114_iff_partial user (fun _ => 0) 13 (.cls 10) user_accepted).2 ⟨by simp [typeC], by simp [floatC]⟩).2
    (.step rfl (.step rfl (.refl 10)))

example : ¬ (translateIsinstance user (.cls 11)).holds user (fun _ => 0) 10 := by
  rw [(C114_iff_partial user (fun _ => 0) 10 (.cls 11) user_accepted).2 ⟨by simp [typeC], by simp [floatC]⟩]
  intro h
  cases h with
  | step hs h' => cases hs; cases py_from_object h'

/-- Not vacuous: a member of an enumeration. -/
example : (translateIsinstance user (.cls 12)).holds user (fun _ => 0) 12 :=
  ((C114_iff_partial user (fun _ => 0) 12 (.cls 12) user_accepted).2 ⟨by simp [typeC], by simp [floatC]⟩).2
    (.refl 12)

end Nagini.IsInstance
