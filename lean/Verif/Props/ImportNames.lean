import Verif.Lemmas.ImportNames

/-!
C146: the (qualified) names that are known to be defined after imports are those that Python can look up.
-/
namespace Nagini.ImportNames

/-- The generated statements verify: whatever the domain of names is, as long as its axioms hold, all assertions hold. -/
def Accepted (ms : Program) : Prop :=
  ∀ (N : Type) (D : Dom N), Axioms D → VerifiedAll D (fun _ _ => False) ms

/-- Names as trees. -/
inductive Tree where
  | single (i : Int)
  | combine (a b : Tree)

/-- The interpretation of the domain by trees. -/
def trees : Dom Tree where
  combine := .combine
  single := .single
  prefixOf
    | .combine a _ => a
    | n => n
  nameOf
    | .combine _ b => b
    | n => n
  value
    | .single i => i
    | _ => 0
  nameType
    | .single _ => true
    | _ => false
  isSingle
    | .single _ => true
    | _ => false
  isCombined
    | .combine _ _ => true
    | _ => false

/-- The axioms of the domain of names are consistent. -/
theorem C146_consistent : Axioms trees := by
  constructor
  · intro i; rfl
  · intro n h; cases n <;> simp_all [trees]
  · intro i; rfl
  · intro a b; exact ⟨rfl, rfl⟩
  · intro n h; cases n <;> simp_all [trees]
  · intro a b; rfl
  · intro n; cases n <;> simp [trees]
  · intro n; cases n <;> simp [trees]

/-- The axioms determine names: different (qualified) names have different encodings. -/
theorem C146_encoding (N : Type) (D : Dom N) (h : Axioms D) (p q : Path) (hp : p ≠ []) (hq : q ≠ []) :
    enc D p = enc D q ↔ p = q :=
  ⟨enc_inj h hp hq, fun e => e ▸ rfl⟩

theorem sound_all {N : Type} {D : Dom N} (h : Axioms D) : ∀ (ms : Program) (A : Nat → Env) (M : Nat → N → Prop),
    (∀ m, Sub D (M m) (A m)) → TidyAll A ms → VerifiedAll D M ms → Runs A ms
  | [], _, _, _, _, _ => trivial
  | (m, ss) :: ms, A, M, hM, ht, hv => by
    obtain ⟨env, V, he, hs, hK⟩ := sound h hM ss [] _ ht.1 (fun _ hn => hn.elim) hv
    refine ⟨env, he, sound_all h ms _ _ ?_ (ht.2 env he) hK⟩
    intro k
    by_cases e : k = m
    · simpa [update, e] using hs
    · simpa [update, e] using hM k

theorem complete_all {N : Type} {D : Dom N} : ∀ (ms : Program) (A : Nat → Env) (M : Nat → N → Prop),
    (∀ m, Sup D (M m) (A m)) → TidyAll A ms → NoFromModule A ms → Runs A ms → VerifiedAll D M ms
  | [], _, _, _, _, _, _ => trivial
  | (m, ss) :: ms, A, M, hM, ht, hf, ⟨env, he, hr⟩ => by
    refine complete hM ss [] env _ ht.1 hf.1 (fun p hp => absurd hp (R_empty p)) he ?_
    intro V hV
    refine complete_all ms _ _ ?_ (ht.2 env he) (hf.2 env he) hr
    intro k
    by_cases e : k = m
    · simpa [update, e] using hV
    · simpa [update, e] using hM k

/-- An accepted program only uses names that are defined, in its own modules and in imported ones. -/
theorem C146_sound (ms : Program) (ht : TidyAll (fun _ => []) ms) (ha : Accepted ms) : Runs (fun _ => []) ms :=
  sound_all C146_consistent ms _ _ (fun _ _ hn => hn.elim) ht (ha Tree trees C146_consistent)

/-- A program that only uses defined names is accepted, if it does not import modules from other modules. -/
theorem C146_complete (ms : Program) (ht : TidyAll (fun _ => []) ms) (hf : NoFromModule (fun _ => []) ms)
    (hr : Runs (fun _ => []) ms) : Accepted ms :=
  fun _ _ _ => complete_all ms _ _ (fun _ p hp => absurd hp (R_empty p)) ht hf hr

/-- Nothing depends on the interpretation: a program verifies in one iff it does in all of them. -/
theorem C146_interpretation (ms : Program) (ht : TidyAll (fun _ => []) ms) (hf : NoFromModule (fun _ => []) ms)
    (N : Type) (D : Dom N) (hD : Axioms D) : VerifiedAll D (fun _ _ => False) ms ↔ Accepted ms :=
  ⟨fun h => C146_complete ms ht hf (sound_all hD ms _ _ (fun _ _ hn => hn.elim) ht h), fun h => h N D hD⟩

/-! ### Limits -/

/-- Module 0 defines `1`; module 1 does `import 5` for module 0; module 2 does `from 1 import 5`. -/
def reexport : Program := [(0, [.define 1]), (1, [.imp [5] 0]), (2, [.from 1 5 5])]

/-- `from b import c` is rejected if `c` is a module that `b` imports. -/
theorem C146_module_incomplete : Runs (fun _ => []) reexport ∧ TidyAll (fun _ => []) reexport ∧ ¬ Accepted reexport := by
  have hr : Runs (fun _ => []) reexport := by
    simp [reexport, Runs, exec, bind, update, get]
  have ht : TidyAll (fun _ => []) reexport := by
    simp [reexport, TidyAll, Tidy, exec, bind, update, get, NoModule, FreshPath]
  refine ⟨hr, ht, fun h => ?_⟩
  have h1 := h Tree trees C146_consistent
  have hS := h1 (fun n => ∃ k, (False ∨ k = trees.single 1) ∧ n = combineAll trees [5] k) (by
    intro n
    simp only [update, if_true]
    constructor
    · intro hn; exact ⟨n, hn, rfl⟩
    · rintro ⟨k, hk, e⟩
      rw [combineAll_inj C146_consistent e]; exact hk)
  have h2 := hS.1
  simp only [update, if_true, false_or] at h2
  obtain ⟨k, _, e⟩ := h2
  cases e

/-- `import 5` for module 0, then `5 = …` and a use of `5.1`: the guard is needed (mypy reports such a program). -/
def hidden : Program := [(0, [.define 1]), (1, [.imp [5] 0, .define 5, .use 5 [1]])]

theorem C146_guard_needed : Accepted hidden ∧ ¬ Runs (fun _ => []) hidden := by
  constructor
  · intro N D _ S hS
    refine ⟨.inl (.inr ?_), trivial⟩
    exact (hS (D.single 1)).1 (by simp [update])
  · simp [hidden, Runs, exec, get, resolve]

/-! ### Examples -/

/-- Module 0 defines `1` and `2`; module 1 does `import 7.8` for it and `from 0 import 1 as 3`, and uses `7.8.2` and `3`; module
2 does `from 1 import *` and uses `7.8.1`. -/
def good : Program :=
  [(0, [.define 1, .define 2]), (1, [.imp [7, 8] 0, .from 0 1 3, .use 7 [8, 2], .use 3 []]), (2, [.all 1, .use 7 [8, 1]])]

example : TidyAll (fun _ => []) good ∧ Runs (fun _ => []) good := by
  constructor
  · simp [good, TidyAll, Tidy, exec, bind, update, get, NoModule, FreshPath, resolve]
  · simp [good, Runs, exec, bind, update, get, resolve]

example : NoFromModule (fun _ => []) good := by
  simp [good, NoFromModule, exec, bind, update, get, resolve, NoModule]
  rintro k x y rfl rfl rfl
  simp [get]

/-- `import 7.8` does not define `8`, and `from 0 import 1` does not define `2`. -/
example : ¬ Accepted [(0, [.define 1, .define 2]), (1, [.imp [7, 8] 0, .use 8 [1]])] ∧
    ¬ Accepted [(0, [.define 1, .define 2]), (1, [.from 0 1 1, .use 2 []])] := by
  constructor
  · intro h
    have := C146_sound _ (by simp [TidyAll, Tidy, exec, bind, update, get, NoModule, FreshPath, resolve]) h
    simp [Runs, exec, bind, update, get, resolve] at this
  · intro h
    have := C146_sound _ (by simp [TidyAll, Tidy, exec, update, get, NoModule, resolve]) h
    simp [Runs, exec, update, get, resolve] at this

end Nagini.ImportNames
