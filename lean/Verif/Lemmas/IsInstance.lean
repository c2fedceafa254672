import Verif.Spec.IsInstance
import Mathlib.Tactic.ByContra

namespace Nagini.IsInstance

variable {user : Classes}

theorem superclass_eq (c : Nat) (h : c ≠ 2) : superclass user c = pySuperclass user c := by
  unfold superclass pySuperclass objectC floatC intC boolC noneC typeC intEnumC
  by_cases h0 : c = 0
  · simp [h0]
  by_cases h1 : c = 1
  · simp [h1]
  by_cases h3 : c = 3
  · simp [h3]
  by_cases h4 : c = 4
  · simp [h4]
  by_cases h5 : c = 5
  · simp [h5]
  by_cases h6 : c = 6
  · simp [h6]
  simp [h, h0, h1, h3, h4, h5, h6]

theorem super_int : superclass user 2 = some 1 := rfl
theorem super_float : superclass user 1 = some 0 := rfl
theorem super_object : superclass user 0 = none := rfl
theorem pySuper_int : pySuperclass user 2 = some 0 := rfl
theorem pySuper_object : pySuperclass user 0 = none := rfl
theorem pySuper_float : pySuperclass user 1 = some 0 := rfl

theorem py_from_object {d : Nat} (h : PySubclass user 0 d) : d = 0 := by
  cases h with
  | refl => rfl
  | step hs _ => cases hs

theorem from_object {d : Nat} (h : Issubtype user 0 d) : d = 0 := by
  cases h with
  | refl => rfl
  | step hs _ => cases hs

theorem from_float {d : Nat} (h : Issubtype user 1 d) : d = 1 ∨ d = 0 := by
  cases h with
  | refl => exact .inl rfl
  | step hs h => cases hs; exact .inr (from_object h)

theorem py_from_float {d : Nat} (h : PySubclass user 1 d) : d = 1 ∨ d = 0 := by
  cases h with
  | refl => exact .inl rfl
  | step hs h => cases hs; exact .inr (py_from_object h)

/-- Python's subclasses are the translator's, and conversely except for int and float. -/
theorem issubtype_iff (c d : Nat) :
    Issubtype user c d ↔ PySubclass user c d ∨ (d = 1 ∧ PySubclass user c 2) := by
  constructor
  · intro h
    induction h with
    | refl c => exact .inl (.refl c)
    | @step c p d hs h ih =>
      by_cases hc : c = 2
      · subst hc
        rw [super_int] at hs
        cases hs
        rcases from_float h with rfl | rfl
        · exact .inr ⟨rfl, .refl 2⟩
        · exact .inl (.step pySuper_int (.refl 0))
      · rw [superclass_eq c hc] at hs
        rcases ih with h' | ⟨h1, h'⟩
        · exact .inl (.step hs h')
        · exact .inr ⟨h1, .step hs h'⟩
  · rintro (h | ⟨rfl, h⟩)
    · induction h with
      | refl c => exact .refl c
      | @step c p d hs h ih =>
        by_cases hc : c = 2
        · subst hc
          rw [pySuper_int] at hs
          cases hs
          have := py_from_object h
          subst this
          exact .step super_int (.step super_float (.refl 0))
        · rw [← superclass_eq c hc] at hs
          exact .step hs ih
    · generalize hi : 2 = i at h
      induction h with
      | refl c => subst hi; exact .step super_int (.refl 1)
      | @step c p d hs h ih =>
        by_cases hc : c = 2
        · subst hc; exact .step super_int (.refl 1)
        · rw [← superclass_eq c hc] at hs
          exact .step hs (ih hi)

/-- Enumerations have no other subclasses. -/
theorem py_enum (ha : accepted user) {c d : Nat} (he : enum user c = true) (h : PySubclass user d c) :
    d = c := by
  induction h with
  | refl => rfl
  | @step d p c hs h ih =>
    have := ih he
    subst this
    by_cases hd : d = 2
    · subst hd
      rw [pySuper_int] at hs
      cases hs
      simp [enum, super_object] at he
    · rw [← superclass_eq d hd] at hs
      rw [ha d p hs] at he
      cases he

theorem enum_ne {c : Nat} (he : enum user c = true) : c ≠ 1 := by
  rintro rfl
  simp [enum, super_float, intEnumC] at he

end Nagini.IsInstance
