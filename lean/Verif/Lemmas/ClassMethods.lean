import Verif.Spec.ClassMethods
import Verif.Lemmas.Classes
import Mathlib.Tactic.ByContra

set_option linter.unusedVariables false
namespace Nagini.ClassMethods

open Classes
open Overrides (Contract overrideCheck)

variable {S : Type} {H : Hier} {P : Program S}

theorem hasClassmethod_iff (c : Nat) :
    hasClassmethod H P c = true ↔ ∃ a, Anc H c a ∧ P.classmethod a = true := by
  generalize hn : H.depth c = n
  induction n using Nat.strongRecOn generalizing c with
  | _ n ih =>
    unfold hasClassmethod
    by_cases hc : P.classmethod c = true
    · simp only [hc, if_true, true_iff]
      exact ⟨c, .refl c, hc⟩
    · simp only [hc, Bool.false_eq_true, if_false]
      split
      · rename_i hs
        simp only [Bool.false_eq_true, false_iff]
        rintro ⟨a, ha, h⟩
        cases ha with
        | refl => exact hc h
        | step hs' _ => rw [hs] at hs'; cases hs'
      · rename_i p hs
        rw [ih (H.depth p) (hn ▸ H.depth_lt c p hs) p rfl]
        constructor
        · rintro ⟨a, ha, h⟩; exact ⟨a, .step hs ha, h⟩
        · rintro ⟨a, ha, h⟩
          cases ha with
          | refl => exact absurd h hc
          | step hs' ha => rw [hs] at hs'; cases hs'; exact ⟨a, ha, h⟩

theorem InitAt.nearest {d d0 : Nat} {k : Contract S} (h : InitAt H P d d0 k) :
    Nearest H P.init d k := ⟨d0, h⟩

theorem initAt_own {c : Nat} {k : Contract S} (h : P.init c = some k) : InitAt H P c c k :=
  ⟨.refl c, h, fun e h1 h2 hne => absurd (h2.antisymm h1) hne⟩

theorem InitAt.sup {c p d0 : Nat} {k : Contract S} (hs : H.sup c = some p) (hn : P.init c = none)
    (h : InitAt H P c d0 k) : InitAt H P p d0 k := by
  obtain ⟨hd, ho, hb⟩ := h
  cases hd with
  | refl => rw [hn] at ho; cases ho
  | step hs' hd =>
    rw [hs] at hs'
    cases hs'
    exact ⟨hd, ho, fun e h1 h2 hne => hb e (.step hs h1) h2 hne⟩

theorem clsCall_of_nearest {a : Nat} {k : Contract S} (h : Nearest H P.init a k) :
    clsCall H P a = k := by
  unfold clsCall
  rw [(lookup_iff P.init a k).2 h]

theorem clsCall_of_none {a : Nat} (h : ∀ e, Anc H a e → P.init e = none) :
    clsCall H P a = ⟨fun _ => True, fun s s' => s' = s⟩ := by
  unfold clsCall
  rw [(lookup_none P.init a).2 h]

theorem runs_exists (d : Nat) : ∃ k, Runs H P d k := by
  cases hl : lookup H P.init d with
  | none => exact ⟨_, .nothing ((lookup_none P.init d).1 hl)⟩
  | some k =>
    obtain ⟨d0, h⟩ := (lookup_iff P.init d k).1 hl
    by_cases hp : CallsPost H P d0
    · cases hq : lookup H P.postInit d with
      | some q => exact ⟨_, .post h hp ((lookup_iff P.postInit d q).1 hq)⟩
      | none =>
        obtain ⟨-, e, he, hne⟩ := hp
        exact absurd ((lookup_none P.postInit d).1 hq e (h.1.trans he)) hne
    · exact ⟨_, .init h hp⟩

/-- Steps down the chain. -/
theorem covered (recv : S → Nat) (ha : accepted H P recv) (a : Nat) (hcm : P.classmethod a = true)
    (hg : ¬ Hole H (fun c => P.init c ≠ none) (fun c => P.classmethod c = true)) (s : S) (d : Nat)
    (hda : Anc H d a) (hrd : Anc H (recv s) d) (d0 : Nat) (k : Contract S) (hk : InitAt H P d d0 k)
    (hpre : (clsCall H P a).pre s) : k.pre s ∧ ∀ s', k.post s s' → (clsCall H P a).post s s' := by
  induction hda generalizing k d0 with
  | refl =>
    rw [clsCall_of_nearest hk.nearest] at hpre ⊢
    exact ⟨hpre, fun _ h => h⟩
  | @step c p a hs hpa ih =>
    have hrp : Anc H (recv s) p := hrd.trans (.step hs (.refl p))
    cases hc : P.init c with
    | none => exact ih hcm hrp d0 k (hk.sup hs hc) hpre
    | some m =>
      obtain rfl := hk.nearest.unique (initAt_own hc).nearest
      cases hp : P.init p with
      | none => exact absurd ⟨a, p, c, hcm, hs, hpa, by simp [hc], by simp [hp]⟩ hg
      | some mp =>
        obtain ⟨h1, h2⟩ := ih hcm hrp p mp (initAt_own hp) hpre
        have hacc := (ha c).1
        unfold initAccepted at hacc
        rw [hc, hs] at hacc
        simp only [(hasClassmethod_iff p).2 ⟨a, hpa, hcm⟩, if_true, hp] at hacc
        obtain ⟨h3, h4⟩ := hacc s hrd h1
        exact ⟨h3, fun s' h => h2 s' (h4 s' h)⟩

theorem not_anc_self {c p e : Nat} (hs : H.sup c = some p) (he : Anc H p e) : ¬ Anc H e c := by
  intro hec
  have := he.depth_le
  have := hec.depth_le
  have := H.depth_lt _ _ hs
  omega

end Nagini.ClassMethods
