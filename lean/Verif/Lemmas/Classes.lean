import Verif.Model.Classes

set_option linter.unusedVariables false
set_option linter.unusedSimpArgs false
namespace Nagini.Classes

variable {H : Hier}

theorem Anc.trans {a b c : Nat} (h1 : Anc H a b) (h2 : Anc H b c) : Anc H a c := by
  induction h1 with
  | refl => exact h2
  | step hs _ ih => exact .step hs (ih h2)

theorem Anc.depth_le {a b : Nat} (h : Anc H a b) : H.depth b ≤ H.depth a := by
  induction h with
  | refl => omega
  | step hs _ ih => have := H.depth_lt _ _ hs; omega

theorem Anc.depth_lt {a b : Nat} (h : Anc H a b) (hne : a ≠ b) : H.depth b < H.depth a := by
  cases h with
  | refl => exact absurd rfl hne
  | step hs h => have := H.depth_lt _ _ hs; have := h.depth_le; omega

theorem Anc.antisymm {a b : Nat} (h1 : Anc H a b) (h2 : Anc H b a) : a = b := by
  apply Decidable.byContradiction
  intro hne
  have := h1.depth_lt hne
  have := h2.depth_le
  omega

/-- Single inheritance: the ancestors of a class form a chain. -/
theorem Anc.linear {a b c : Nat} (h1 : Anc H a b) (h2 : Anc H a c) : Anc H b c ∨ Anc H c b := by
  induction h1 with
  | refl => exact Or.inl h2
  | step hs h ih =>
    cases h2 with
    | refl => exact Or.inr (.step hs h)
    | step hs' h2' =>
      rw [hs] at hs'
      cases hs'
      exact ih h2'

theorem issubtype_iff (c d : Nat) : issubtype H c d = true ↔ Anc H c d := by
  induction hn : H.depth c using Nat.strongRecOn generalizing c with
  | _ n ih =>
    rw [issubtype]
    by_cases hcd : c = d
    · subst hcd; simp [Anc.refl]
    · rw [if_neg hcd]
      split
      · rename_i hs
        simp
        intro h
        cases h with
        | refl => exact hcd rfl
        | step hs' _ => rw [hs] at hs'; cases hs'
      · rename_i p hs
        rw [ih (H.depth p) (by have := H.depth_lt c p hs; omega) p rfl]
        constructor
        · exact fun h => .step hs h
        · intro h
          cases h with
          | refl => exact absurd rfl hcd
          | step hs' h => rw [hs] at hs'; cases hs'; exact h

theorem commonSuper_lca (a b m : Nat) (h : commonSuper H a b = some m) : IsLCA H a b m := by
  induction hn : H.depth a + H.depth b using Nat.strongRecOn generalizing a b with
  | _ n ih =>
    rw [commonSuper] at h
    split at h
    · rename_i h1
      rw [issubtype_iff] at h1
      cases h
      exact ⟨h1, .refl _, fun m' _ h => h⟩
    · rename_i h1
      rw [issubtype_iff] at h1
      split at h
      · rename_i h2
        rw [issubtype_iff] at h2
        cases h
        exact ⟨.refl _, h2, fun m' h _ => h⟩
      · rename_i h2
        rw [issubtype_iff] at h2
        split at h
        · rename_i p hs
          have := ih _ (by have := H.depth_lt a p hs; omega) p b h rfl
          refine ⟨.step hs this.1, this.2.1, fun m' ha hb => this.2.2 m' ?_ hb⟩
          cases ha with
          | refl => exact absurd hb h2
          | step hs' ha => rw [hs] at hs'; cases hs'; exact ha
        · split at h
          · rename_i q hs
            have := ih _ (by have := H.depth_lt b q hs; omega) a q h rfl
            refine ⟨this.1, .step hs this.2.1, fun m' ha hb => this.2.2 m' ha ?_⟩
            cases hb with
            | refl => exact absurd ha h1
            | step hs' hb => rw [hs] at hs'; cases hs'; exact hb
          · cases h

theorem commonSuper_some (a b r : Nat) (ha : Anc H a r) (hb : Anc H b r) :
    ∃ m, commonSuper H a b = some m := by
  induction hn : H.depth a + H.depth b using Nat.strongRecOn generalizing a b with
  | _ n ih =>
    rw [commonSuper]
    split
    · exact ⟨_, rfl⟩
    · rename_i h1
      rw [issubtype_iff] at h1
      split
      · exact ⟨_, rfl⟩
      · rename_i h2
        rw [issubtype_iff] at h2
        split
        · rename_i p hs
          cases ha with
          | refl => exact absurd hb h2
          | step hs' ha =>
            rw [hs] at hs'; cases hs'
            exact ih _ (by have := H.depth_lt a p hs; omega) p b ha hb rfl
        · rename_i hs
          cases ha with
          | refl => exact absurd hb h2
          | step hs' _ => rw [hs] at hs'; cases hs'

theorem lookup_some {α : Type} (defs : Nat → Option α) (c : Nat) (x : α)
    (h : lookup H defs c = some x) : Nearest H defs c x := by
  induction hn : H.depth c using Nat.strongRecOn generalizing c with
  | _ n ih =>
    rw [lookup] at h
    split at h
    · rename_i y hy
      cases h
      refine ⟨c, .refl c, hy, ?_⟩
      intro e h1 h2 hne
      exact absurd (h2.antisymm h1) hne
    · rename_i hc
      split at h
      · cases h
      · rename_i p hs
        obtain ⟨d, hd, hx, hno⟩ := ih _ (by have := H.depth_lt c p hs; omega) p h rfl
        refine ⟨d, .step hs hd, hx, ?_⟩
        intro e h1 h2 hne
        cases h1 with
        | refl => exact hc
        | step hs' h1 => rw [hs] at hs'; cases hs'; exact hno e h1 h2 hne

theorem lookup_none {α : Type} (defs : Nat → Option α) (c : Nat) :
    lookup H defs c = none ↔ ∀ d, Anc H c d → defs d = none := by
  induction hn : H.depth c using Nat.strongRecOn generalizing c with
  | _ n ih =>
    rw [lookup]
    split
    · rename_i y hy
      simp
      exact ⟨c, .refl c, by simp [hy]⟩
    · rename_i hc
      split
      · rename_i hs
        simp
        intro d hd
        cases hd with
        | refl => exact hc
        | step hs' _ => rw [hs] at hs'; cases hs'
      · rename_i p hs
        rw [ih _ (by have := H.depth_lt c p hs; omega) p rfl]
        constructor
        · intro h d hd
          cases hd with
          | refl => exact hc
          | step hs' hd => rw [hs] at hs'; cases hs'; exact h d hd
        · intro h d hd
          exact h d (.step hs hd)

theorem Nearest.unique {α : Type} {defs : Nat → Option α} {c : Nat} {x y : α}
    (hx : Nearest H defs c x) (hy : Nearest H defs c y) : x = y := by
  obtain ⟨d, hd, hdx, hdn⟩ := hx
  obtain ⟨e, he, hey, hen⟩ := hy
  by_cases hde : d = e
  · subst hde; rw [hdx] at hey; exact Option.some.inj hey
  · rcases hd.linear he with h | h
    · have := hen d hd h hde; rw [hdx] at this; cases this
    · have := hdn e he h (Ne.symm hde); rw [hey] at this; cases this

theorem lookup_iff {α : Type} (defs : Nat → Option α) (c : Nat) (x : α) :
    lookup H defs c = some x ↔ Nearest H defs c x := by
  refine ⟨lookup_some defs c x, fun h => ?_⟩
  cases hl : lookup H defs c with
  | none =>
    obtain ⟨d, hd, hdx, _⟩ := h
    have := (lookup_none defs c).1 hl d hd
    rw [hdx] at this; cases this
  | some y => rw [(lookup_some defs c y hl).unique h]

theorem hasFunction_iff {α : Type} (defs : Nat → Option α) (c : Nat) :
    hasFunction H defs c = (lookup H defs c).isSome := by
  induction hn : H.depth c using Nat.strongRecOn generalizing c with
  | _ n ih =>
    rw [hasFunction, lookup]
    cases hc : defs c with
    | some y => simp
    | none =>
      simp
      split
      · rfl
      · rename_i p h1
        exact ih _ (by have := H.depth_lt c p h1; omega) p rfl

/-! ### toposort -/

/-- Strict subclass. -/
def Strict (H : Hier) (a b : Nat) : Prop := Anc H a b ∧ a ≠ b

def depOf (H : Hier) (R : List Nat) (c : Nat) : List Nat :=
  R.filter fun s => issubtype H s c && !(s == c)

def dataOf (H : Hier) (R : List Nat) : List (Nat × List Nat) := R.map fun c => (c, depOf H R c)

theorem mem_depOf {R : List Nat} {c s : Nat} : s ∈ depOf H R c ↔ s ∈ R ∧ Strict H s c := by
  simp [depOf, Strict, issubtype_iff]

theorem exists_deepest (R : List Nat) (h : R ≠ []) : ∃ c ∈ R, ∀ s ∈ R, H.depth s ≤ H.depth c := by
  induction R with
  | nil => exact absurd rfl h
  | cons a R ih =>
    by_cases hR : R = []
    · subst hR; exact ⟨a, by simp, by simp⟩
    · obtain ⟨c, hc, hm⟩ := ih hR
      by_cases hac : H.depth c ≤ H.depth a
      · refine ⟨a, by simp, ?_⟩
        intro s hs
        rcases List.mem_cons.1 hs with rfl | hs
        · exact Nat.le_refl _
        · exact Nat.le_trans (hm s hs) hac
      · refine ⟨c, by simp [hc], ?_⟩
        intro s hs
        rcases List.mem_cons.1 hs with rfl | hs
        · omega
        · exact hm s hs

/-- The items of a round: those without strict subclasses in `R`. -/
def layer (H : Hier) (R : List Nat) : List Nat := R.filter fun c => (depOf H R c).isEmpty

theorem ordered_eq (R : List Nat) :
    ((dataOf H R).filter fun p => p.2.isEmpty).map (·.1) = layer H R := by
  simp [dataOf, layer, List.filter_map, Function.comp_def]

theorem next_eq (R : List Nat) :
    (((dataOf H R).filter fun p => !((layer H R).contains p.1)).map
      fun p => (p.1, p.2.filter fun d => !((layer H R).contains d)))
      = dataOf H (R.filter fun c => !((layer H R).contains c)) := by
  simp only [dataOf, List.filter_map, List.map_map, Function.comp_def]
  apply List.map_congr_left
  intro c hc
  simp only [depOf, List.filter_filter]
  congr 1
  apply List.filter_congr
  intro s hs
  exact Bool.and_comm _ _

theorem layer_ne_nil (R : List Nat) (h : R ≠ []) : layer H R ≠ [] := by
  obtain ⟨c, hc, hm⟩ := exists_deepest (H := H) R h
  intro hl
  have : c ∈ layer H R := by
    simp only [layer, List.mem_filter, hc, true_and, List.isEmpty_iff]
    apply List.eq_nil_iff_forall_not_mem.2
    intro s hs
    rw [mem_depOf] at hs
    have := hs.2.1.depth_lt hs.2.2
    have := hm s hs.1
    omega
  rw [hl] at this
  cases this

theorem toposort_spec (order : List Nat → List Nat) (ho : ∀ l, (order l).Perm l)
    (fuel : Nat) (R : List Nat) (hf : R.length ≤ fuel) :
    ∃ out, toposortFlatten order fuel (dataOf H R) = some out ∧ out.Perm R ∧
      out.Pairwise (fun a b => ¬ Strict H b a) := by
  induction fuel generalizing R with
  | zero =>
    have : R = [] := List.eq_nil_of_length_eq_zero (by omega)
    subst this
    exact ⟨[], by simp [toposortFlatten, dataOf], by simp, by simp⟩
  | succ fuel ih =>
    by_cases hR : R = []
    · subst hR
      exact ⟨[], by simp [toposortFlatten, dataOf], by simp, by simp⟩
    · have hl := layer_ne_nil (H := H) R hR
      simp only [toposortFlatten, ordered_eq, next_eq]
      have hle : (layer H R).isEmpty = false := by
        cases h : layer H R with
        | nil => exact absurd h hl
        | cons => rfl
      simp only [hle, Bool.false_eq_true, if_false]
      have hlt : (R.filter fun c => !((layer H R).contains c)).length < R.length := by
        obtain ⟨c, hc⟩ := List.exists_mem_of_ne_nil _ hl
        apply List.length_filter_lt_length_iff_exists.2
        exact ⟨c, (List.mem_filter.1 hc).1, by simp [hc]⟩
      obtain ⟨out, hout, hperm, hpw⟩ := ih _ (by omega : (R.filter fun c => !((layer H R).contains c)).length ≤ fuel)
      refine ⟨order (layer H R) ++ out, by rw [hout]; rfl, ?_, ?_⟩
      · refine ((ho _).append hperm).trans ?_
        have : layer H R = R.filter fun c => (layer H R).contains c := by
          conv => lhs; unfold layer
          apply List.filter_congr
          intro c hc
          rw [Bool.eq_iff_iff]
          simp only [List.contains_iff_mem]
          constructor
          · intro h; exact List.mem_filter.2 ⟨hc, h⟩
          · intro h; exact (List.mem_filter.1 h).2
        have h2 := List.filter_append_perm (fun c => (layer H R).contains c) R
        rw [← this] at h2
        exact h2
      · rw [List.pairwise_append]
        have nolayer : ∀ a ∈ layer H R, ∀ b ∈ R, ¬ Strict H b a := by
          intro a ha b hb hs
          have := (List.mem_filter.1 ha).2
          rw [List.isEmpty_iff] at this
          have hm : b ∈ depOf H R a := mem_depOf.2 ⟨hb, hs⟩
          rw [this] at hm
          cases hm
        refine ⟨?_, hpw, ?_⟩
        · apply List.pairwise_of_forall_mem_list
          intro a ha b hb
          exact nolayer a ((ho _).mem_iff.1 ha) b (List.mem_filter.1 ((ho _).mem_iff.1 hb)).1
        · intro a ha b hb
          exact nolayer a ((ho _).mem_iff.1 ha) b (List.mem_filter.1 (hperm.mem_iff.1 hb)).1

theorem chainIf_first (d : Nat) (out : List Nat) (m : Nat) (h : chainIf H d out = some m) :
    ∃ pre post, out = pre ++ m :: post ∧ Anc H d m ∧ ∀ x ∈ pre, ¬ Anc H d x := by
  induction out with
  | nil => simp [chainIf] at h
  | cons c cs ih =>
    simp only [chainIf] at h
    split at h
    · rename_i hc
      cases h
      exact ⟨[], cs, rfl, (issubtype_iff _ _).1 hc, by simp⟩
    · rename_i hc
      obtain ⟨pre, post, h1, h2, h3⟩ := ih h
      refine ⟨c :: pre, post, by simp [h1], h2, ?_⟩
      intro x hx
      rcases List.mem_cons.1 hx with rfl | hx
      · rwa [issubtype_iff] at hc
      · exact h3 x hx

theorem chainIf_none (d : Nat) (out : List Nat) :
    chainIf H d out = none ↔ ∀ x ∈ out, ¬ Anc H d x := by
  induction out with
  | nil => simp [chainIf]
  | cons c cs ih =>
    simp only [chainIf]
    split
    · rename_i hc
      rw [issubtype_iff] at hc
      simp
      intro h; exact absurd hc h
    · rename_i hc
      rw [issubtype_iff] at hc
      simp [ih, hc]

theorem chainCond_eq (d : Nat) (out : List Nat) (h : ∃ x ∈ out, Anc H d x) :
    chainCond H d out = chainIf H d out := by
  induction out with
  | nil => simp at h
  | cons c cs ih =>
    cases cs with
    | nil =>
      obtain ⟨x, hx, hd⟩ := h
      simp at hx
      subst hx
      simp [chainCond, chainIf, (issubtype_iff d x).2 hd]
    | cons c' cs =>
      simp only [chainCond]
      rw [chainIf]
      split
      · rfl
      · rename_i hc
        rw [issubtype_iff] at hc
        apply ih
        obtain ⟨x, hx, hd⟩ := h
        rcases List.mem_cons.1 hx with rfl | hx
        · exact absurd hd hc
        · exact ⟨x, hx, hd⟩

end Nagini.Classes
