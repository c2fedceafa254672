import Mathlib.Algebra.Group.Nat.Defs
import Verif.Lemmas.Families

/-!
C78: a predicate of a class stands for the definitions in the class of the receiver and its superclasses;
C79: which Silver predicate is meant does not depend on the static class; C80: its meaning does not change if
classes are added.
-/
namespace Nagini.Families

open Classes

/-- What the parameters of a call must be like: as many arguments as the root has parameters, with different
names (Python and mypy check this). -/
def ArgsFit {V M : Type} (defs : Nat → Option (Def V M)) (r : Nat) (vals : List V) : Prop :=
  ∀ d, defs r = some d → d.params.Nodup ∧ d.params.length = vals.length

/-- **C78, full claim.** For a receiver whose class is `D`, accessed with static class `S`, the body of the
Silver predicate has the meaning of the predicate for `D`. -/
def FamilyMeaning : Prop :=
  ∀ (M V : Type) [AddCommMonoid M] (H : Hier) (defs : Nat → Option (Def V M))
    (order : List Nat → List Nat) (lockInv : Bool) (argOk : Nat → List V → Prop)
    (rest : Nat → List V → Assn M) (cls : List Nat) (S D r : Nat) (vals : List V),
    (∀ l, (order l).Perm l) → cls.Nodup → (∀ d, Anc H D d → d ∈ cls) → Anc H D S →
    accessCall H defs S = some r → ArgsFit defs r vals →
    ∀ m, familyBody H defs order lockInv argOk rest cls r D vals m ↔
      argOk r vals ∧ meaning H defs vals D m

/-- Three classes `C(B)`, `B(A)`, `A`, numbered 2, 1, 0. -/
def H3 : Hier where
  sup := fun | 1 => some 0 | 2 => some 1 | _ => none
  depth := id
  depth_lt := by
    intro c p h
    split at h <;> first | (cases h; decide) | cases h

/-- A definition that stands for one unit of resources. -/
def one : Def Nat Nat := ⟨[0], fun _ m => m = 1⟩

theorem anc3_le {a b : Nat} (h : Anc H3 a b) : b ≤ a := h.depth_le

/-- C78 is violated: if `A` and `C` define the predicate but `B` does not, the definition in `C` is ignored
(it becomes a family of its own, which is never used). -/
theorem C78_gap_fails : ¬ FamilyMeaning := by
  intro h
  let defs : Nat → Option (Def Nat Nat) := fun | 0 => some one | 2 => some one | _ => none
  have := h Nat Nat H3 defs id true (fun _ _ => True) (fun _ _ => emp) [0, 1, 2] 2 2 0 [7] (fun _ => .refl _)
    (by decide) (fun d hd => by have := anc3_le hd; simp; omega) (.refl _)
    (accessCall_iff.2 ⟨.step rfl (.step rfl (.refl _)), rfl, fun d hd _ => by
      have := anc3_le hd; omega⟩) (fun d hd => by cases hd; decide)
  have hb := (this 2).2 ⟨trivial, ?_⟩
  · rw [familyBody_eq (H := H3) id (fun _ => .refl _) true _ _ [0, 1, 2] (by decide) 0 2
      (fun d hd => by have := anc3_le hd; simp; omega) [7] (fun d hd => by cases hd; decide) rfl] at hb
    have hr0 : rootOf H3 defs 0 = 0 := by rw [rootOf]; rfl
    have hr2 : rootOf H3 defs 2 = 2 := by rw [rootOf]; rfl
    have hch : chain H3 2 = [2, 1, 0] := by
      rw [chain_eq, show H3.sup 2 = some 1 from rfl]
      simp only [Option.map_some, Option.getD_some]
      rw [chain_eq, show H3.sup 1 = some 0 from rfl]
      simp only [Option.map_some, Option.getD_some]
      rw [chain_eq, show H3.sup 0 = none from rfl]
      rfl
    have hf : [2, 1, 0].filter (fun c => (defs c).isSome && decide (rootOf H3 defs c = 0)) = [0] := by
      simp only [List.filter, hr0, hr2]
      rfl
    rw [hch, hf] at hb
    obtain ⟨a, b, hab, ha, hb⟩ := hb.2
    rw [show b = 0 from hb] at hab
    obtain ⟨a₁, a₂, ha', h1, h2⟩ := ha
    rw [show a₁ = 1 from h1, show a₂ = 0 from h2] at ha'
    omega
  · rw [meaning_chain]
    have hch : chain H3 2 = [2, 1, 0] := by
      rw [chain_eq, show H3.sup 2 = some 1 from rfl]
      simp only [Option.map_some, Option.getD_some]
      rw [chain_eq, show H3.sup 1 = some 0 from rfl]
      simp only [Option.map_some, Option.getD_some]
      rw [chain_eq, show H3.sup 0 = none from rfl]
      rfl
    rw [hch]
    refine ⟨1, 1, rfl, rfl, ?_⟩
    show star emp _ 1
    rw [emp_star]
    exact ⟨1, 0, rfl, rfl, rfl⟩

/-- C78 is violated for classes that inherit the predicate unchanged: the abstract predicate for unknown
subclasses is required for them, so that it cannot be folded even if the class is known. -/
theorem C78_inherited_fails : ¬ FamilyMeaning := by
  intro h
  let defs : Nat → Option (Def Nat Nat) := fun | 0 => some one | _ => none
  have := h Nat Nat H3 defs id false (fun _ _ => True) (fun _ _ m => m = 5) [0, 1, 2] 1 1 0 [7]
    (fun _ => .refl _) (by decide) (fun d hd => by have := anc3_le hd; simp; omega) (.refl _)
    (accessCall_iff.2 ⟨.step rfl (.refl _), rfl, fun d hd _ => by
      have := anc3_le hd; omega⟩) (fun d hd => by cases hd; decide)
  have hch : chain H3 1 = [1, 0] := by
    rw [chain_eq, show H3.sup 1 = some 0 from rfl]
    simp only [Option.map_some, Option.getD_some]
    rw [chain_eq, show H3.sup 0 = none from rfl]
    rfl
  have hb := (this 1).2 ⟨trivial, ?_⟩
  · rw [familyBody_eq (H := H3) id (fun _ => .refl _) false _ _ [0, 1, 2] (by decide) 0 1
      (fun d hd => by have := anc3_le hd; simp; omega) [7] (fun d hd => by cases hd; decide) rfl] at hb
    have hr0 : rootOf H3 defs 0 = 0 := by rw [rootOf]; rfl
    rw [hch] at hb
    obtain ⟨a, b, hab, _, hb⟩ := hb.2
    simp [defs] at hb
    omega
  · rw [meaning_chain, hch]
    show star emp _ 1
    rw [emp_star]
    exact ⟨1, 0, rfl, rfl, rfl⟩

/-- **C78, proved part.** The claim holds if the classes on the way from the receiver's class to the topmost
class with the predicate define it without a gap (from the first on that does), and the receiver's class
defines it itself (or it is a lock invariant). -/
theorem C78_family_meaning_partial {M V : Type} [AddCommMonoid M] (H : Hier)
    (defs : Nat → Option (Def V M)) (order : List Nat → List Nat) (lockInv : Bool)
    (argOk : Nat → List V → Prop) (rest : Nat → List V → Assn M) (cls : List Nat) (S D r : Nat)
    (vals : List V) (ho : ∀ l, (order l).Perm l) (hn : cls.Nodup) (hc : ∀ d, Anc H D d → d ∈ cls)
    (hS : Anc H D S) (hr : accessCall H defs S = some r) (ha : ArgsFit defs r vals)
    (hgap : ∀ c e, Anc H D c → (defs c).isSome → Anc H c e → Anc H e r → (defs e).isSome)
    (hD : lockInv = true ∨ (defs D).isSome) (m : M) :
    familyBody H defs order lockInv argOk rest cls r D vals m ↔
      argOk r vals ∧ meaning H defs vals D m := by
  have ht : Top H defs D r := (accessCall_iff.1 hr).anc hS
  rw [familyBody_eq order ho lockInv argOk rest cls hn r D hc vals ha ht.2.1, meaning_chain,
    own_filter (defs := defs) vals (chain H D)]
  have hroot : ∀ c, Anc H D c → (defs c).isSome → rootOf H defs c = r := by
    intro c h1 h2
    refine rootOf_top ?_ (fun e h3 h4 => hgap c e h1 h2 h3 h4)
    rcases h1.linear ht.1 with h3 | h3
    · exact ⟨h3, ht.2⟩
    · have := ht.2.2 c h3 h2
      subst this
      exact ⟨.refl _, ht.2⟩
  have e1 : (chain H D).filter (fun c => (defs c).isSome && decide (rootOf H defs c = r)) =
      (chain H D).filter fun c => (defs c).isSome := by
    refine List.filter_congr fun c hcm => ?_
    cases h2 : (defs c).isSome with
    | false => rfl
    | true => simp [hroot c (mem_chain.1 hcm) h2]
  have e2 : (!lockInv && !((defs D).isSome && decide (rootOf H defs D = r))) = false := by
    rcases hD with h | h
    · simp [h]
    · simp [h, hroot D (.refl _) h]
  rw [e1, e2, if_neg (by decide), star_emp]

/-- Non-vacuity: all of `A`, `B`, `C` define the predicate, with different parameter names. -/
example (m : Nat) :
    let defs : Nat → Option (Def Nat Nat) := fun
      | 0 => some ⟨[0, 1], fun env m => env 1 = some m⟩
      | 1 => some ⟨[0, 5], fun env m => env 5 = some m⟩
      | 2 => some one
      | _ => none
    familyBody H3 defs List.reverse false (fun _ _ => True) (fun _ _ => emp) [0, 1, 2] 0 2 [7, 3] m ↔
      True ∧ meaning H3 defs [7, 3] 2 m := by
  intro defs
  refine C78_family_meaning_partial H3 defs List.reverse false _ _ [0, 1, 2] 1 2 0 [7, 3]
    (fun l => List.reverse_perm l) (by decide) (fun d hd => by have := anc3_le hd; simp; omega)
    (.step rfl (.refl _)) ?_ ?_ ?_ (.inr rfl) m
  · exact accessCall_iff.2 ⟨.step rfl (.refl _), rfl, fun d hd _ => by have := anc3_le hd; omega⟩
  · intro d hd
    cases hd
    decide
  · intro c e h1 _ h2 _
    have := anc3_le h1
    have := anc3_le h2
    have : e = 0 ∨ e = 1 ∨ e = 2 := by omega
    rcases this with rfl | rfl | rfl <;> rfl

/-- **C79.** The Silver predicate does not depend on the static class of the receiver: for a superclass `S`
that has the predicate, an access through `S` names the same one as an access through `D`. -/
theorem C79_static_class {M V : Type} [AddCommMonoid M] (H : Hier) (defs : Nat → Option (Def V M))
    (D S r : Nat) (hS : Anc H D S) (hr : accessCall H defs S = some r) : accessCall H defs D = some r :=
  accessCall_iff.2 ((accessCall_iff.1 hr).anc hS)

/-- **C79.** `o.P(..)` and `Acc(o.P(..), ..)` name the same Silver predicate. -/
theorem C79_acc_same {M V : Type} [AddCommMonoid M] (H : Hier) (defs : Nat → Option (Def V M)) (c : Nat) :
    accessAcc H defs c = accessCall H defs c := by
  refine Option.ext fun t => ?_
  rw [accessAcc_iff, accessCall_iff]

/-- **C79.** Every access to a predicate that exists (in the class or a superclass) names a family, and one
that contains the definition of its topmost class. -/
theorem C79_access_exists {M V : Type} [AddCommMonoid M] (H : Hier) (defs : Nat → Option (Def V M))
    (cls : List Nat) (c d : Nat) (hd : Anc H c d) (hs : (defs d).isSome) (hc : ∀ e, Anc H c e → e ∈ cls) :
    ∃ r, accessCall H defs c = some r ∧ r ∈ members H defs cls r := by
  have ht := climb_top (H := H) (defs := defs) c (lookup_isSome.2 ⟨d, hd, hs⟩)
  refine ⟨_, accessCall_iff.2 ht, mem_members.2 ⟨hc _ ht.1, ht.2.1, ?_⟩⟩
  refine rootOf_top ⟨.refl _, ht.2⟩ (fun e h1 h2 => ?_)
  rw [h2.antisymm h1]
  exact ht.2.1

example : accessCall H3 (fun | 0 => some one | 2 => some one | _ => none) 2 = some 0 :=
  C79_static_class H3 _ 2 1 0 (.step rfl (.refl _))
    (accessCall_iff.2 ⟨.step rfl (.refl _), rfl, fun d hd _ => by have := anc3_le hd; omega⟩)

/-- **C80.** Adding classes (none of them a superclass of an old one) changes neither the Silver predicate
that an access with an old class names nor its meaning for receivers of old classes. -/
theorem C80_classes_added {M V : Type} [AddCommMonoid M] (H H' : Hier) (defs defs' : Nat → Option (Def V M))
    (order : List Nat → List Nat) (lockInv : Bool) (argOk : Nat → List V → Prop)
    (rest : Nat → List V → Assn M) (cls cls' : List Nat) (S D r : Nat) (vals : List V)
    (ho : ∀ l, (order l).Perm l) (hn : cls.Nodup) (hn' : cls'.Nodup)
    (hcl : ∀ c p, c ∈ cls → H.sup c = some p → p ∈ cls)
    (hsub : ∀ c ∈ cls, c ∈ cls') (hsup : ∀ c ∈ cls, H'.sup c = H.sup c)
    (hdef : ∀ c ∈ cls, defs' c = defs c) (hSc : S ∈ cls) (hDc : D ∈ cls)
    (hr : accessCall H defs S = some r) (ha : ArgsFit defs r vals) :
    accessCall H' defs' S = some r ∧
    ∀ m, familyBody H' defs' order lockInv argOk rest cls' r D vals m ↔
      familyBody H defs order lockInv argOk rest cls r D vals m := by
  have ht := accessCall_iff.1 hr
  have hrc : r ∈ cls := anc_closed (· ∈ cls) hcl ht.1 hSc
  have hch := fun c (hc : c ∈ cls) => chain_congr (H := H) (H' := H') (· ∈ cls) hsup hcl c hc
  have hanc : ∀ {c d}, c ∈ cls → (Anc H' c d ↔ Anc H c d) := by
    intro c d hc
    rw [← mem_chain, ← mem_chain, hch c hc]
  refine ⟨accessCall_iff.2 ⟨(hanc hSc).2 ht.1, by rw [hdef r hrc]; exact ht.2.1, fun d hd hs => ?_⟩, ?_⟩
  · have h1 := (hanc hrc).1 hd
    rw [hdef d (anc_closed (· ∈ cls) hcl h1 hrc)] at hs
    exact ht.2.2 d h1 hs
  · intro m
    rw [familyBody_eq order ho lockInv argOk rest cls hn r D
        (fun d hd => anc_closed (· ∈ cls) hcl hd hDc) vals ha ht.2.1,
      familyBody_eq order ho lockInv argOk rest cls' hn' r D
        (fun d hd => hsub d (anc_closed (· ∈ cls) hcl ((hanc hDc).1 hd) hDc)) vals
        (fun d hd => ha d (by rw [← hdef r hrc]; exact hd)) (by rw [hdef r hrc]; exact ht.2.1)]
    have hro := fun c (hc : c ∈ cls) =>
      familyBody_rootOf_congr (H := H) (H' := H') (· ∈ cls) hsup hcl hdef c hc
    have hmem : ∀ c ∈ chain H D, c ∈ cls := fun c hc => anc_closed (· ∈ cls) hcl (mem_chain.1 hc) hDc
    have e1 : (chain H' D).filter (fun c => (defs' c).isSome && decide (rootOf H' defs' c = r)) =
        (chain H D).filter (fun c => (defs c).isSome && decide (rootOf H defs c = r)) := by
      rw [hch D hDc]
      refine List.filter_congr fun c hc => ?_
      rw [hdef c (hmem c hc), hro c (hmem c hc)]
    have e2 : ((chain H D).filter (fun c => (defs c).isSome && decide (rootOf H defs c = r))).map
        (own defs' vals) = ((chain H D).filter
          (fun c => (defs c).isSome && decide (rootOf H defs c = r))).map (own defs vals) := by
      refine List.map_congr_left fun c hc => ?_
      unfold own
      rw [hdef c (hmem c (List.mem_filter.1 hc).1)]
    rw [e1, e2, hdef D hDc, hro D hDc]

/-- Non-vacuity: class `C` with its own definition is added to `A` and `B`. -/
example (m : Nat) :
    let defs : Nat → Option (Def Nat Nat) := fun | 0 => some one | 1 => some one | _ => none
    let defs' : Nat → Option (Def Nat Nat) := fun | 0 => some one | 1 => some one | 2 => some one | _ => none
    familyBody H3 defs' id false (fun _ _ => True) (fun _ _ => emp) [0, 1, 2] 0 1 [7] m ↔
    familyBody H3 defs id false (fun _ _ => True) (fun _ _ => emp) [0, 1] 0 1 [7] m := by
  intro defs defs'
  refine (C80_classes_added H3 H3 defs defs' id false _ _ [0, 1] [0, 1, 2] 0 1 0 [7] (fun _ => .refl _)
    (by decide) (by decide) ?_ (by simp) (fun _ _ => rfl) ?_ (by simp) (by simp) ?_ ?_).2 m
  · intro c p hc hs
    have := H3.depth_lt c p hs
    simp [H3] at this hc ⊢
    omega
  · intro c hc
    simp at hc
    rcases hc with rfl | rfl <;> rfl
  · exact accessCall_iff.2 ⟨.refl _, rfl, fun d hd _ => by have := anc3_le hd; omega⟩
  · intro d hd
    cases hd
    decide

end Nagini.Families
