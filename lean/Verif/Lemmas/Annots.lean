/- Lemmas for C144. -/
import Verif.Model.Annots

namespace Nagini.Annots

/-- A class, `m.x` for a class that is not built in, or a string that is the name of a class. -/
inductive Leaf (W : World) : Ann → Prop where
  | name {n c} : W.entry n = some (.cls c) → Leaf W (.name n)
  | attr {m n c} : W.member m n = some c → W.builtin c = false → Leaf W (.attr m n)
  | text {n c} : W.entry n = some (.cls c) → Leaf W (.text n)

theorem Leaf.target {W : World} {a : Ann} (h : Leaf W a) :
    ∃ c, target W a = .ty c false ∧ idents a = some a.names ∧
      ∀ D, Base W D → W.builtin c = true → ∀ n ∈ a.names, n ∈ D := by
  cases h with
  | name h =>
    rename_i n c
    refine ⟨c, by simp [Annots.target, look, h], by simp [idents, Ann.names], ?_⟩
    intro D hD hc k hk
    simp only [Ann.names, List.mem_singleton] at hk
    subst hk
    exact hD.1 n c h hc
  | attr h hb =>
    rename_i m n c
    refine ⟨c, by simp [Annots.target, h], by simp [idents, Ann.names], ?_⟩
    intro D _ hc
    rw [hb] at hc; cases hc
  | text h =>
    rename_i n c
    exact ⟨c, by simp [Annots.target, look, h], by simp [idents, Ann.names],
      fun D _ _ k hk => by simp [Ann.names] at hk⟩

theorem identsList_leaves {W : World} : ∀ {as : List Ann}, (∀ a ∈ as, Leaf W a) →
    identsList as = some (namesList as)
  | [], _ => by simp [identsList, namesList]
  | a :: as, h => by
    obtain ⟨_, _, hi, _⟩ := (h a (by simp)).target
    have ih := identsList_leaves (as := as) fun b hb => h b (by simp [hb])
    simp [identsList, namesList, hi, ih]

theorem checkAnn_some {W : World} {D : List Name} {a : Ann} {l : List Name}
    (h : (dep W a).bind identsList = some l) :
    checkAnn W D a ≠ .crash ∧ (checkAnn W D a = .accept ↔ ∀ n ∈ l, n ∈ D) := by
  unfold checkAnn
  rw [h]
  by_cases hl : (l.all fun n => decide (n ∈ D)) = true
  · simp only [hl, if_true]
    refine ⟨by simp, ?_⟩
    simpa using hl
  · simp only [hl]
    refine ⟨by simp, ?_⟩
    simpa using hl

/-- The dependency of an annotation that is neither a string nor `None`. -/
theorem dep_ty {W : World} {a : Ann} {c : Nat} {tv : Bool} (h : target W a = .ty c tv)
    (ht : ∀ n, a ≠ .text n) : dep W a = if !W.builtin c && !tv then some [a] else some [] := by
  unfold dep
  split
  · exact absurd rfl (ht _)
  · simp [target] at h
  · rw [h]

theorem identsList_one (a : Ann) : identsList [a] = (idents a).map (· ++ []) := by
  simp only [identsList]
  cases idents a <;> rfl

theorem Outcome.and_accept {a b : Outcome} : a.and b = .accept ↔ a = .accept ∧ b = .accept := by
  cases a <;> cases b <;> simp [Outcome.and]

theorem Outcome.and_crash {a b : Outcome} : a.and b = .crash ↔ a = .crash ∨ b = .crash := by
  cases a <;> cases b <;> simp [Outcome.and]

theorem Base.cons {W : World} {D : List Name} (h : Base W D) (n : Name) : Base W (n :: D) :=
  ⟨fun k c hk hc => List.mem_cons_of_mem _ (h.1 k c hk hc), List.mem_cons_of_mem _ h.2.1,
    List.mem_cons_of_mem _ h.2.2.1, h.2.2.2⟩

theorem mem_namesList {n : Name} : ∀ {as : List Ann}, n ∈ namesList as ↔ ∃ a ∈ as, n ∈ a.names
  | [] => by simp [namesList]
  | a :: as => by simp [namesList, mem_namesList (as := as)]

end Nagini.Annots
