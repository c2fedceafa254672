import Verif.Spec.Overrides
import Verif.Lemmas.Classes
import Mathlib.Tactic.ByContra

/-!
C57: calls are dispatched soundly: every override is checked against what it overrides.
-/
set_option linter.unusedVariables false
namespace Nagini.Overrides

open Classes

variable {S V : Type} {H : Hier}

/-- **C57** (full claim): if all classes are accepted, dynamically dispatched calls are covered by
reasoning with the static class of the receiver. -/
def C57 : Prop :=
  ∀ (S V : Type) (H : Hier) (own : Nat → Option (Member S V)) (recv : S → Nat),
    accepted H own recv false → DispatchSound H own recv

/-- The nearest member of a class that contains one is its own. -/
theorem nearest_own {α : Type} {defs : Nat → Option α} {c : Nat} {x : α} (h : defs c = some x) :
    Nearest H defs c x :=
  ⟨c, .refl c, h, fun e h1 h2 hne => absurd (h2.antisymm h1) hne⟩

/-- The nearest member of a class without one is that of its superclass. -/
theorem nearest_sup {α : Type} {defs : Nat → Option α} {c p : Nat} {x : α} (hs : H.sup c = some p)
    (hn : defs c = none) (h : Nearest H defs c x) : Nearest H defs p x := by
  obtain ⟨d, hd, ho, hb⟩ := h
  cases hd with
  | refl => rw [hn] at ho; cases ho
  | step hs' hd =>
    rw [hs] at hs'
    cases hs'
    exact ⟨d, hd, ho, fun e h1 h2 hne => hb e (.step hs h1) h2 hne⟩

/-- Steps down the chain: the member of a class is covered by that of each superclass. -/
theorem covered (own : Nat → Option (Member S V)) (recv : S → Nat) (ha : accepted H own recv false)
    (hg : ¬ Gap H (fun c => own c ≠ none)) (s : S) (d a : Nat) (hda : Anc H d a) (hrd : Anc H (recv s) d)
    (known run : Member S V) (hk : Nearest H own a known) (hr : Nearest H own d run) :
    Covers s known run := by
  induction hda generalizing run with
  | refl =>
    rw [hk.unique hr]
    cases run with
    | method m => exact fun h => ⟨h, fun _ h => h⟩
    | function f => rfl
  | @step c p a hs hpa ih =>
    have hrp : Anc H (recv s) p := hrd.trans (.step hs (.refl p))
    cases hc : own c with
    | none => exact ih hrp run hk (nearest_sup hs hc hr)
    | some m =>
      obtain rfl := hr.unique (nearest_own (H := H) hc)
      have hop : own p ≠ none := by
        intro hop
        obtain ⟨e, he, hoe, -⟩ := hk
        exact hg ⟨c, p, e, by simp [hc], hs, by simp [hop], hpa.trans he, by simp [hoe]⟩
      cases hp : own p with
      | none => exact absurd hp hop
      | some mp =>
        have hcov := ih hrp mp hk (nearest_own hp)
        have hacc := ha c
        unfold classAccepted overrides at hacc
        rw [hc, hs] at hacc
        simp only [hp] at hacc
        cases run with
        | function f => simp at hacc
        | method m =>
          cases mp with
          | function f => simp at hacc
          | method m' =>
            simp only at hacc
            cases known with
            | function f => exact hcov
            | method k =>
              intro hpre
              obtain ⟨h1, h2⟩ := hcov hpre
              obtain ⟨h3, h4⟩ := hacc s hrd h1
              exact ⟨h3, fun s' h => h2 s' (h4 s' h)⟩

/-- **C57** (partial: whenever a class redefines an inherited member, its direct superclass contains
one itself): dispatch is sound in accepted programs. -/
theorem C57_sound_partial (own : Nat → Option (Member S V)) (recv : S → Nat)
    (ha : accepted H own recv false) (hg : ¬ Gap H (fun c => own c ≠ none)) :
    DispatchSound H own recv :=
  fun s a known run hd hk hr => covered own recv ha hg s (recv s) a hd (.refl _) known run hk hr

/-- **C57, exactly** (partial): for a hierarchy and the set of classes that contain a method, all
accepted programs dispatch soundly if and only if there is no gap. -/
theorem C57_iff_partial (H : Hier) (defines : Nat → Bool) :
    (∀ (own : Nat → Option (Member Nat Unit)), (∀ c, (own c).isSome = defines c) →
      accepted H own id false → DispatchSound H own id) ↔ ¬ Gap H (fun c => defines c = true) := by
  constructor
  · rintro h ⟨c, p, a, hc, hs, hp, hpa, haa⟩
    -- everything may be called except the methods of `c` and its subclasses
    let own : Nat → Option (Member Nat Unit) := fun e =>
      if defines e then some (.method ⟨fun _ => ¬ Anc H e c, fun _ _ => True⟩) else none
    have hdef : ∀ e, (own e).isSome = defines e := by
      intro e
      simp only [own]
      split <;> simp_all
    have hacc : accepted H own id false := by
      intro e
      unfold classAccepted
      by_cases he : defines e = true
      · simp only [own, he, if_true]
        unfold overrides
        cases hse : H.sup e with
        | none => trivial
        | some q =>
          by_cases hq : defines q = true
          · simp only [hq, if_true]
            intro s _ hpre
            refine ⟨?_, fun _ _ => trivial⟩
            intro hec
            cases hec with
            | refl => rw [hs] at hse; cases hse; exact hp hq
            | step hs' hec => rw [hse] at hs'; cases hs'; exact hpre hec
          · simp only [hq]
            trivial
      · simp only [own, he]
        trivial
    have hds := h own hdef hacc
    -- the nearest definition above `p`
    obtain ⟨known, hk⟩ : ∃ known, Nearest H own p known := by
      cases hl : lookup H own p with
      | some x => exact ⟨x, (lookup_iff own p x).1 hl⟩
      | none =>
        have := (lookup_none own p).1 hl a hpa
        simp [own, haa] at this
    have hoc : own c = some (.method ⟨fun _ => ¬ Anc H c c, fun _ _ => True⟩) := by simp [own, hc]
    have hcov := hds c p known _ (.step hs (.refl p)) hk (nearest_own hoc)
    obtain ⟨e, he, hoe, -⟩ := hk
    have hnot : ¬ Anc H e c := by
      intro hec
      have := Anc.antisymm (Anc.step hs he) hec
      subst this
      have := he.depth_le
      have := H.depth_lt _ _ hs
      omega
    have hke : known = .method ⟨fun _ => ¬ Anc H e c, fun _ _ => True⟩ := by
      simp only [own] at hoe
      split at hoe
      · cases hoe; rfl
      · cases hoe
    subst hke
    exact (hcov hnot).1 (.refl c)
  · intro hg own hown ha
    refine C57_sound_partial own id ha ?_
    rintro ⟨c, p, a, h1, h2, h3, h4, h5⟩
    refine hg ⟨c, p, a, ?_, h2, ?_, h4, ?_⟩
    · exact (hown c).symm.trans (Option.isSome_iff_ne_none.2 h1)
    · intro h
      exact h3 (Option.isSome_iff_ne_none.1 ((hown p).trans h))
    · exact (hown a).symm.trans (Option.isSome_iff_ne_none.2 h5)

/-- Classes 1, 2(1), 3(2). -/
def chain : Hier where
  sup := fun c => if c = 3 then some 2 else if c = 2 then some 1 else none
  depth := fun c => if c = 3 then 2 else if c = 2 then 1 else 0
  depth_lt := by
    intro c p h
    split at h
    · cases h; subst c; decide
    · split at h
      · cases h; subst c; decide
      · cases h

/-- **C57 fails**: `class A: def m(self)`, `class B(A): pass`, `class C(B): def m(self)` with
precondition False. -/
theorem C57_fails : ¬ C57 := by
  intro h
  refine (C57_iff_partial chain (fun c => c == 1 || c == 3)).1 (fun own _ ha => h _ _ _ own id ha) ?_
  exact ⟨3, 2, 1, rfl, rfl, by decide, .step rfl (.refl 1), rfl⟩

/-- A pure function 1 in class 1, redefined as 2 in class 3. -/
def functions : Nat → Option (Member Nat Nat) := fun c =>
  if c = 1 then some (.function fun _ => 1) else if c = 3 then some (.function fun _ => 2) else none

/-- **C57 fails** for pure functions: a function that is redefined in a class whose direct superclass
does not contain it is accepted, and calls of it have the wrong value. -/
theorem C57_function_fails :
    accepted chain functions id false ∧ ¬ DispatchSound chain functions id := by
  constructor
  · intro c
    unfold classAccepted
    by_cases h1 : c = 1
    · subst h1; simp [functions, overrides, chain]
    · by_cases h3 : c = 3
      · subst h3; simp [functions, overrides, chain]
      · simp [functions, h1, h3]
  · intro h
    have := h 3 1 (.function fun _ => 1) (.function fun _ => 2)
      (.step rfl (.step rfl (.refl 1))) (nearest_own rfl) (nearest_own rfl)
    simp [Covers] at this

/-- Not vacuous: a program with an override in every class is accepted; the override in class 3 has a
weaker precondition than that in class 1 and returns more. -/
example : accepted chain (fun c => if c = 1 then some (.method ⟨fun s => s = 3, fun _ _ => True⟩)
      else if c = 2 then some (.method ⟨fun s => s ≤ 3, fun _ s' => 0 < s'⟩)
      else if c = 3 then some (.method ⟨fun _ => True, fun _ s' => 5 < s'⟩)
      else none : Nat → Option (Member Nat Unit)) id false := by
  intro c
  unfold classAccepted overrides
  by_cases h1 : c = 1
  · subst h1; simp [chain]
  · by_cases h2 : c = 2
    · subst h2
      simp only [chain]
      intro s _ h
      refine ⟨?_, fun _ _ => trivial⟩
      change s = 3 at h
      change s ≤ 3
      omega
    · by_cases h3 : c = 3
      · subst h3
        simp only [chain]
        intro s _ h
        refine ⟨trivial, fun s' h' => ?_⟩
        change 5 < s' at h'
        change 0 < s'
        omega
      · simp [h1, h2, h3]

example : ¬ Gap chain (fun c => c = 1 ∨ c = 2 ∨ c = 3) := by
  rintro ⟨c, p, a, hc, hs, hp, -⟩
  rcases hc with rfl | rfl | rfl
  · cases hs
  · cases hs; simp at hp
  · cases hs; simp at hp

end Nagini.Overrides
