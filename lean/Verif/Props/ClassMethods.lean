import Verif.Lemmas.ClassMethods

/-!
C112: objects created by `cls(...)` in class methods.
-/
set_option linter.unusedSimpArgs false
set_option linter.unusedVariables false
namespace Nagini.ClassMethods

open Classes
open Overrides (Contract)

variable {S : Type} {H : Hier}

/-- **C112** (full claim): if all classes are accepted, then whatever class a class method is called on,
the objects it creates are initialised as its verification assumes. -/
def C112 : Prop :=
  ∀ (S : Type) (H : Hier) (P : Program S) (recv : S → Nat),
    accepted H P recv → CreationSound H P recv (clsCall H P)

/-- **C112** (partial: no class below a class method contains an `__init__` method without its direct
superclass containing one, and no `__post_init__` runs). -/
theorem C112_sound_partial (P : Program S) (recv : S → Nat) (ha : accepted H P recv)
    (hg : ¬ Hole H (fun c => P.init c ≠ none) (fun c => P.classmethod c = true))
    (hp : ¬ PostInitRuns H (fun c => P.init c ≠ none) (fun c => P.implicit c = true)
      (fun c => P.postInit c ≠ none) (fun c => P.classmethod c = true)) :
    CreationSound H P recv (clsCall H P) := by
  intro s a k hcm hra hr hpre
  cases hr with
  | nothing hn =>
    rw [clsCall_of_none fun e he => hn e (hra.trans he)]
    exact ⟨trivial, fun _ h => h⟩
  | init hk _ => exact covered recv ha a hcm hg s _ hra (.refl _) _ _ hk hpre
  | @post d0 k q hk hc _ =>
    obtain ⟨hi, e, he, hne⟩ := hc
    exact absurd ⟨a, recv s, d0, e, hcm, hra, hk.1, by simp [hk.2.1],
      fun e' h1 h2 h3 => by simp [hk.2.2 e' h1 h2 h3], hi, he, hne⟩ hp

/-- **C112, exactly** (partial): for given classes, `__init__`, `__post_init__` and class methods, all
accepted programs create objects as assumed if and only if there is no hole and no `__post_init__`
runs. -/
theorem C112_iff_partial (H : Hier) (inits implicit posts cms : Nat → Bool) :
    (∀ P : Program Nat, (∀ c, (P.init c).isSome = inits c) → P.implicit = implicit →
      (∀ c, (P.postInit c).isSome = posts c) → P.classmethod = cms → accepted H P id →
      CreationSound H P id (clsCall H P)) ↔
    ¬ Hole H (fun c => inits c = true) (fun c => cms c = true) ∧
    ¬ PostInitRuns H (fun c => inits c = true) (fun c => implicit c = true)
      (fun c => posts c = true) (fun c => cms c = true) := by
  constructor
  · intro h
    constructor
    · rintro ⟨a, p, c, hcm, hs, hpa, hc, hnp⟩
      let P : Program Nat :=
        ⟨fun e => if inits e then some ⟨fun _ => ¬ Anc H e c, fun _ _ => True⟩ else none, implicit,
          fun e => if posts e then some ⟨fun _ => True, fun _ _ => True⟩ else none, cms⟩
      have hacc : accepted H P id := by
        intro e
        constructor
        · unfold initAccepted
          cases hse : H.sup e with
          | none => cases P.init e <;> trivial
          | some q =>
            by_cases he : inits e = true
            · by_cases hq : inits q = true
              · simp only [P, he, hq, if_true]
                split
                · intro s _ hpre
                  refine ⟨?_, fun _ _ => trivial⟩
                  intro hec
                  cases hec with
                  | refl => rw [hs] at hse; cases hse; exact hnp hq
                  | step hs' hec => rw [hse] at hs'; cases hs'; exact hpre hec
                · trivial
              · simp only [P, he, hq, if_true]
                split <;> trivial
            · simp only [P, he]
              trivial
        · unfold postInitAccepted
          cases hse : H.sup e with
          | none => cases P.postInit e <;> trivial
          | some q =>
            by_cases he : posts e = true
            · by_cases hq : posts q = true
              · simp only [P, he, hq, if_true]
                exact fun _ _ _ => ⟨trivial, fun _ _ => trivial⟩
              · simp only [P, he, hq, if_true]
                trivial
            · simp only [P, he]
              trivial
      have hcs := h P (fun e => by simp only [P]; split <;> simp_all) rfl
        (fun e => by simp only [P]; split <;> simp_all) rfl hacc
      have hown : InitAt H P c c ⟨fun _ => ¬ Anc H c c, fun _ _ => True⟩ :=
        initAt_own (by simp [P, hc])
      have hpre : (clsCall H P a).pre c := by
        unfold clsCall
        split
        · rename_i k hl
          obtain ⟨e, he, hoe, -⟩ := (lookup_iff P.init a k).1 hl
          simp only [P] at hoe
          split at hoe
          · cases hoe
            exact not_anc_self hs (hpa.trans he)
          · cases hoe
        · trivial
      obtain ⟨k, hk⟩ := runs_exists (H := H) (P := P) c
      have hkp := (hcs c a k hcm (.step hs hpa) hk hpre).1
      have hun : ∀ d0 k', InitAt H P c d0 k' → k' = ⟨fun _ => ¬ Anc H c c, fun _ _ => True⟩ :=
        fun d0 k' hk' => hk'.nearest.unique hown.nearest
      cases hk with
      | nothing hn =>
        have := hn c (.refl c)
        simp [P, hc] at this
      | init hi _ =>
        rw [hun _ _ hi] at hkp
        exact hkp (.refl c)
      | post hi _ _ =>
        have hkp := hkp.1
        rw [hun _ _ hi] at hkp
        exact hkp (.refl c)
    · rintro ⟨a, d, d0, e, hcm, hda, hdd, hi, hb, him, he, hpe⟩
      let P : Program Nat :=
        ⟨fun e => if inits e then some ⟨fun _ => True, fun _ _ => True⟩ else none, implicit,
          fun e => if posts e then some ⟨fun _ => False, fun _ _ => True⟩ else none, cms⟩
      have hacc : accepted H P id := by
        intro e
        constructor
        · unfold initAccepted
          cases hse : H.sup e with
          | none => cases P.init e <;> trivial
          | some q =>
            by_cases he : inits e = true
            · by_cases hq : inits q = true
              · simp only [P, he, hq, if_true]
                split
                · exact fun _ _ _ => ⟨trivial, fun _ _ => trivial⟩
                · trivial
              · simp only [P, he, hq, if_true]
                split <;> trivial
            · simp only [P, he]
              trivial
        · unfold postInitAccepted
          cases hse : H.sup e with
          | none => cases P.postInit e <;> trivial
          | some q =>
            by_cases he : posts e = true
            · by_cases hq : posts q = true
              · simp only [P, he, hq, if_true]
                exact fun _ _ h => h.elim
              · simp only [P, he, hq, if_true]
                trivial
            · simp only [P, he]
              trivial
      have hcs := h P (fun e => by simp only [P]; split <;> simp_all) rfl
        (fun e => by simp only [P]; split <;> simp_all) rfl hacc
      have hat : InitAt H P d d0 ⟨fun _ => True, fun _ _ => True⟩ :=
        ⟨hdd, by simp [P, hi], fun e' h1 h2 h3 => by simpa [P] using hb e' h1 h2 h3⟩
      have hcp : CallsPost H P d0 := ⟨him, e, he, by simp [P, hpe]⟩
      obtain ⟨q, hq⟩ : ∃ q, Nearest H P.postInit d q := by
        cases hl : lookup H P.postInit d with
        | some x => exact ⟨x, (lookup_iff P.postInit d x).1 hl⟩
        | none =>
          have := (lookup_none P.postInit d).1 hl e (hdd.trans he)
          simp [P, hpe] at this
      have hqf : q.pre = fun _ => False := by
        obtain ⟨e', -, hoe, -⟩ := hq
        simp only [P] at hoe
        split at hoe
        · cases hoe; rfl
        · cases hoe
      have hpre : (clsCall H P a).pre d := by
        unfold clsCall
        split
        · rename_i k hl
          obtain ⟨e, he, hoe, -⟩ := (lookup_iff P.init a k).1 hl
          simp only [P] at hoe
          split at hoe
          · cases hoe; trivial
          · cases hoe
        · trivial
      have hkp := (hcs d a _ hcm hda (.post hat hcp hq) hpre).1
      have := hkp.2 d trivial
      rw [hqf] at this
      exact this
  · rintro ⟨h1, h2⟩ P hin him hpo hcm ha
    have e1 : (fun c => P.init c ≠ none) = fun c => inits c = true := by
      funext c
      rw [← hin c, Option.isSome_iff_ne_none]
    have e2 : (fun c => P.postInit c ≠ none) = fun c => posts c = true := by
      funext c
      rw [← hpo c, Option.isSome_iff_ne_none]
    refine C112_sound_partial P id ha ?_ ?_
    · rw [e1, hcm]; exact h1
    · rw [e1, e2, him, hcm]; exact h2

/-- Classes 1, 2(1), 3(2). -/
def chain : Hier where
  sup := fun c => if c = 3 then some 2 else if c = 2 then some 1 else none
  depth := fun c => if c = 3 then 2 else if c = 2 then 1 else 0
  depth_lt := by
    intro c p h
    split at h
    · cases h; subst c; decide
    · split at h
      · cases h; subst c; decide
      · cases h

/-- **C112 fails** if the class with the class method has no `__init__`: `class A` with
`def make(cls): return cls()`, `class B(A)` with an `__init__` method whose precondition is False. -/
theorem C112_fails_without_init : ¬ C112 := by
  intro h
  refine ((C112_iff_partial chain (fun c => c == 2) (fun _ => false) (fun _ => false)
    (fun c => c == 1)).1 (fun P _ _ _ _ ha => h _ _ P id ha)).1 ?_
  exact ⟨1, 1, 2, rfl, rfl, .refl 1, rfl, by decide⟩

/-- **C112 fails** if an intermediate class has no `__init__`: `class A` with `__init__` and `make`,
`class B(A)` without `__init__`, `class C(B)` with an `__init__` method whose precondition is False. -/
theorem C112_fails_skipped : ¬ C112 := by
  intro h
  refine ((C112_iff_partial chain (fun c => c == 1 || c == 3) (fun _ => false) (fun _ => false)
    (fun c => c == 1)).1 (fun P _ _ _ _ ha => h _ _ P id ha)).1 ?_
  exact ⟨1, 2, 3, rfl, rfl, .step rfl (.refl 1), rfl, by decide⟩

/-- **C112 fails** for data classes with `__post_init__`: `@dataclass class A` with a class method and a
`__post_init__` method whose precondition is False. -/
theorem C112_fails_post_init : ¬ C112 := by
  intro h
  refine ((C112_iff_partial chain (fun c => c == 1) (fun c => c == 1) (fun c => c == 1)
    (fun c => c == 1)).1 (fun P _ _ _ _ ha => h _ _ P id ha)).2 ?_
  exact ⟨1, 1, 1, 1, rfl, .refl 1, .refl 1, rfl, fun e h1 h2 hne => absurd (h2.antisymm h1) hne, rfl,
    .refl 1, rfl⟩

/-- A program with `__init__` methods in all classes, a class method in class 1: class 2 has a weaker
precondition and establishes more, class 3 has the contract of class 2. -/
abbrev prog : Program Nat where
  init := fun c =>
    if c = 1 then some ⟨fun s => s = 3, fun _ s' => 0 < s'⟩
    else if c = 2 ∨ c = 3 then some ⟨fun s => s ≤ 3, fun _ s' => 5 < s'⟩ else none
  implicit := fun _ => false
  postInit := fun _ => none
  classmethod := fun c => c == 1

/-- Not vacuous: the program is accepted, and the hypotheses of `C112_sound_partial` hold. -/
example : accepted chain prog id ∧
    CreationSound chain prog id (clsCall chain prog) := by
  have ha : accepted chain prog id := by
    intro c
    constructor
    · unfold initAccepted
      by_cases h2 : c = 2
      · subst h2
        simp only [prog, chain]
        simp only [if_true, Nat.reduceEqDiff, if_false, true_or]
        split
        · intro s _ h
          refine ⟨?_, fun s' h' => ?_⟩
          · change s = 3 at h
            change s ≤ 3
            omega
          · change 5 < s' at h'
            change 0 < s'
            omega
        · trivial
      · by_cases h3 : c = 3
        · subst h3
          simp only [prog, chain]
          simp only [if_true, Nat.reduceEqDiff, if_false, or_true, true_or]
          split
          · intro s _ h
            exact ⟨h, fun s' h' => h'⟩
          · trivial
        · simp [chain, h2, h3]
    · unfold postInitAccepted
      simp [prog]
  refine ⟨ha, C112_sound_partial prog id ha ?_ ?_⟩
  · rintro ⟨a, p, c, h1, hs, h3, hc, hp⟩
    by_cases h2 : c = 2
    · subst h2; cases hs; simp at hp
    · by_cases h3 : c = 3
      · subst h3; cases hs; simp at hp
      · simp [chain, h2, h3] at hs
  · rintro ⟨a, d, d0, e, -, -, -, -, -, h, -⟩
    simp at h

/-- Not vacuous: creating an object of class 3 through the class method of class 1 runs the `__init__`
method of class 3. -/
example : Runs chain prog 3 ⟨fun s => s ≤ 3, fun _ s' => 5 < s'⟩ :=
  .init (d0 := 3) (initAt_own (by simp [prog])) (by simp [CallsPost])

end Nagini.ClassMethods
