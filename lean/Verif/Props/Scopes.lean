import Verif.Lemmas.Scopes

/-!
C115: a name stands for what it stands for in Python.
-/
namespace Nagini.Scopes

/-- **C115** (full claim): what Python finds for a name is what the translator uses. -/
def C115 : Prop :=
  ∀ (special : Nat → Bool) (p : Place) (u : Use) (e : Ent),
    (∀ n, special n = true → (p.builtins n).isSome) →
    pyResolve p u.name = some e → resolve special p u = some e

/-- **C115, exactly** (partial): for names that come from one import only, the translator and Python
agree unless a call has a name of a contract function or built-in function that stands for something else,
or the name, in a function, is one of a static field, static method or type variable of the current class
and stands for something else. -/
theorem C115_iff_partial (special : Nat → Bool) (p : Place) (u : Use)
    (hc : p.module.clear u.name) :
    resolve special p u = pyResolve p u.name ↔
      (∀ n, u = .call n → special n = true → pyResolve p n = p.builtins n) ∧
      ((∀ n, u = .call n → special n = false) →
        ∀ f c e, p.function = some f → p.cls = some c → c u.name = some e →
          p.aliases u.name = none → pyResolve p u.name = some e) := by
  have main : ∀ n, p.module.clear n → (getTarget p n = pyResolve p n ↔
      ∀ f c e, p.function = some f → p.cls = some c → c n = some e →
          p.aliases n = none → pyResolve p n = some e) := by
    intro n hn
    constructor
    · intro h f c e hf hc he ha
      rw [← h, getTarget_eq, ha, hc]
      simp [he]
    · intro h
      rw [getTarget_eq]
      cases ha : p.aliases n with
      | some e => rw [pyResolve_eq, ha]; rfl
      | none =>
        cases hf : p.function with
        | none => rw [pyResolve_eq, ha, hf, Mod.find_eq _ _ hn]; rfl
        | some f =>
          cases hc : p.cls with
          | none => rw [pyResolve_eq, ha, hf, hc, Mod.find_eq _ _ hn]; rfl
          | some c =>
            cases he : c n with
            | some e =>
              rw [h f c e hf hc he ha]
              simp [he]
            | none =>
              rw [pyResolve_eq, ha, hf, hc, Mod.find_eq _ _ hn]
              simp [he]
  cases u with
  | read n =>
    refine Iff.trans (main n hc) ?_
    constructor
    · intro h
      exact ⟨(fun _ hu => by cases hu), fun _ => h⟩
    · intro h
      exact h.2 (fun _ hu => by cases hu)
  | call n =>
    by_cases hs : special n = true
    · have hr : resolve special p (.call n) = p.builtins n := by simp [resolve, hs]
      rw [hr]
      constructor
      · intro h
        refine ⟨?_, ?_⟩
        · intro m hm _
          cases hm
          exact h.symm
        · intro h'
          rw [h' n rfl] at hs
          cases hs
      · intro h
        exact (h.1 n rfl hs).symm
    · have hr : resolve special p (.call n) = getTarget p n := by simp [resolve, hs]
      rw [hr]
      constructor
      · intro h
        refine ⟨?_, fun _ => (main n hc).1 h⟩
        intro m hm hs'
        cases hm
        exact absurd hs' hs
      · intro h
        refine (main n hc).2 (h.2 ?_)
        intro m hm
        cases hm
        simpa using hs

/-- **C115 for modules** (partial): a name that a module does not define itself and that only one of its
imports has to do with is found as in Python, whatever the imported modules import and however names are
changed. -/
theorem C115_modules_partial (m : Mod) (n : Nat) (h : m.clear n) :
    findEntry n m.included = m.py n :=
  Mod.find_eq m n h

/-- No definitions. -/
abbrev empty : Contents := fun _ => none

/-- A module with a function 5, and a class of this module with a static method 5; the names belong to a
method of the class with a parameter 6. -/
abbrev inMethod : Place where
  aliases := empty
  cls := some fun n => if n = 5 then some 100 else if n = 6 then some 101 else none
  function := some fun n => if n = 6 then some 200 else none
  module := .mk [(5, 300)] .nil
  builtins := fun n => if n = 9 then some 400 else none

/-- **C115 fails** for names of static methods: a call `helper()` in a method, where `helper` is a global
function and a static method, is a call of the static method for the verifier. -/
theorem C115_static_method_fails : ¬ C115 := by
  intro h
  have := h (fun _ => false) inMethod (.call 5) 300 (by intro n hn; cases hn) (by decide)
  exact absurd this (by decide)

/-- **C115 fails** for parameters with names of static fields. -/
theorem C115_parameter_fails : ¬ C115 := by
  intro h
  have := h (fun _ => false) inMethod (.read 6) 200 (by intro n hn; cases hn) (by decide)
  exact absurd this (by decide)

/-- **C115 fails** for functions with names of built-in functions: if a module defines a function `len`,
calls of it are translated as calls of the built-in function. -/
theorem C115_special_fails : ¬ C115 := by
  intro h
  have := h (fun n => n == 9) { inMethod with module := .mk [(9, 301)] .nil } (.call 9) 301
    (by intro n hn; have : n = 9 := by simpa using hn
        subst this; rfl) (by decide)
  exact absurd this (by decide)

/-- `from a import *` and `from b import *`, where both modules define the function 5. -/
abbrev twoImports : Mod :=
  .mk [] (.cons none (.mk [(5, 1)] .nil) (.cons none (.mk [(5, 2)] .nil) .nil))

/-- `from a import f` and `from c import g`, where module `a` has `from b import g`. -/
abbrev leaking : Mod :=
  .mk [] (.cons (some [(4, none)]) (.mk [(4, 1)] (.cons (some [(5, none)]) (.mk [(5, 2)] .nil) .nil))
    (.cons (some [(5, none)]) (.mk [(5, 3)] .nil) .nil))

/-- A module-level function without parameters. -/
abbrev inFunction (m : Mod) : Place where
  aliases := empty
  cls := none
  function := some empty
  module := m
  builtins := empty

/-- **C115 fails** if a name is imported twice: Python uses the last import, the translator the first. -/
theorem C115_order_fails : ¬ C115 := by
  intro h
  have := h (fun _ => false) (inFunction twoImports) (.call 5) 2 (by intro n hn; cases hn) rfl
  rw [show resolve (fun _ => false) (inFunction twoImports) (.call 5) = some 1 from rfl] at this
  cases this

/-- **C115 fails** for names imported by imported modules: with `from a import f` the translator also sees
what `a` imports by name, before what later imports import. -/
theorem C115_leak_fails : ¬ C115 := by
  intro h
  have := h (fun _ => false) (inFunction leaking) (.call 5) 3 (by intro n hn; cases hn) rfl
  rw [show resolve (fun _ => false) (inFunction leaking) (.call 5) = some 2 from rfl] at this
  cases this

/-- `from a import f as h, g` with `from b import *` in module `a`, and `from c import *`. -/
abbrev renamed : Mod :=
  .mk [(8, 30)] (.cons (some [(4, some 7), (5, none)])
    (.mk [(4, 1)] (.cons none (.mk [(5, 2), (8, 31)] .nil) .nil))
    (.cons none (.mk [(6, 3)] .nil) .nil))

/-- Not vacuous: the names 5 (from `b` by way of `a`), 6, 7 (renamed) and 8 (own) are clear. -/
example : renamed.clear 5 ∧ renamed.clear 6 ∧ renamed.clear 7 ∧ renamed.clear 8 := by
  refine ⟨.inr ?_, .inr ?_, .inr ?_, .inl ⟨30, by simp⟩⟩
  · refine ⟨.inr ⟨.inl ⟨2, by simp⟩, trivial, ?_⟩, rfl, ?_⟩
    · rintro ⟨_, h⟩; exact h
    · rintro ((⟨e, he⟩ | h) | h)
      · simp at he
      · exact h
      · exact h
  · refine ⟨?_, .inl ⟨3, by simp⟩, trivial, ?_⟩
    · rintro ((⟨e, he⟩ | h) | h)
      · simp at he
      · exact h
      · exact h
    · rintro ⟨_, h⟩; exact h
  · refine ⟨.inl ⟨1, by simp⟩, rfl, ?_⟩
    · rintro ((⟨e, he⟩ | h) | h)
      · simp at he
      · exact h
      · exact h

example : resolve (fun _ => false) (inFunction renamed) (.call 7) = some 1 := rfl
example : resolve (fun _ => false) (inFunction renamed) (.call 5) = some 2 := rfl

/-- Not vacuous: in the body of the class the static method 5 is meant. -/
example : resolve (fun _ => false) { inMethod with function := none } (.read 5) = some 100 ∧
    pyResolve { inMethod with function := none } 5 = some 100 := by decide

end Nagini.Scopes
