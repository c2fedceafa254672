import Verif.Model.Names
import Mathlib.Data.Nat.Digits.Lemmas
import Mathlib.Data.List.Nodup
import Mathlib.Data.Finset.Card
import Mathlib.Tactic.Ring

namespace Nagini.Names

theorem stringToIntFrom_eq (s : PyStr) : ∀ r k, stringToIntFrom r k s = r + 256 ^ k * Nat.ofDigits 256 s := by
  induction s with
  | nil => intro r k; simp [stringToIntFrom]
  | cons c cs ih =>
    intro r k
    rw [stringToIntFrom, ih, Nat.ofDigits_cons]
    ring

theorem stringToInt_eq (s : PyStr) : stringToInt s = Nat.ofDigits 256 s := by
  simp [stringToInt, stringToIntFrom_eq]

theorem intToString_eq (i : Nat) : intToString i = Nat.digits 256 i := by
  induction i using Nat.strong_induction_on with
  | _ i ih =>
    rw [intToString]
    split
    · next h =>
      rw [ih (i / 256) (by omega), ← Nat.digits_def' (by norm_num) h]
    · next h =>
      have : i = 0 := by omega
      subst this; simp

theorem decDigits_value (n : Nat) : ∀ acc, ∃ ds : PyStr, decDigits n acc = ds ++ acc ∧
    n = ds.foldl (fun v d => v * 10 + (d - 48)) 0 := by
  induction n using Nat.strong_induction_on with
  | _ n ih =>
    intro acc
    rw [decDigits]
    split
    · exact ⟨[48 + n], by simp, by simp⟩
    · next h =>
      obtain ⟨ds, h1, h2⟩ := ih (n / 10) (by omega) ((48 + n % 10) :: acc)
      refine ⟨ds ++ [48 + n % 10], by simp [h1], ?_⟩
      rw [List.foldl_append, ← h2]
      simp
      omega

theorem decDigits_inj {a b : Nat} (h : decDigits a [] = decDigits b []) : a = b := by
  obtain ⟨d1, e1, v1⟩ := decDigits_value a []
  obtain ⟨d2, e2, v2⟩ := decDigits_value b []
  simp only [List.append_nil] at e1 e2
  rw [v1, v2, ← e1, ← e2, h]

theorem candidate_inj (name : PyStr) {a b : Nat} (h : candidate name a = candidate name b) : a = b := by
  unfold candidate at h
  have := List.append_cancel_left h
  simp only [List.cons.injEq, true_and] at this
  exact decDigits_inj this

/-- The identity of the used-name set a scope writes to. -/
def Scope.setOf : Scope → Nat
  | .root i => i
  | .nested s => s.setOf

theorem containsName_iff (σ : Store) (sc : Scope) (n : PyStr) :
    containsName σ sc n = true ↔ n ∈ σ sc.setOf := by
  induction sc with
  | root i => simp [containsName, Scope.setOf]
  | nested s ih => simpa [containsName, Scope.setOf] using ih

theorem mem_addName (σ : Store) (sc : Scope) (n m : PyStr) (j : Nat) :
    m ∈ addName σ sc n j ↔ (j = sc.setOf ∧ m = n) ∨ m ∈ σ j := by
  induction sc with
  | root i =>
    by_cases h : j = i
    · subst h; simp [addName, Scope.setOf]
    · simp [addName, Scope.setOf, h]
  | nested s ih => simpa [addName, Scope.setOf] using ih

theorem searchName_some {σ : Store} {sc : Scope} {name : PyStr} :
    ∀ {fuel c r}, searchName σ sc name fuel c = some r → containsName σ sc r = false := by
  intro fuel
  induction fuel with
  | zero => intro c r h; simp [searchName] at h
  | succ f ih =>
    intro c r h
    rw [searchName] at h
    split at h
    · exact ih h
    · next hc =>
      simp at h; subst h; simpa using hc

theorem searchName_none {σ : Store} {sc : Scope} {name : PyStr} :
    ∀ {fuel c}, searchName σ sc name fuel c = none →
      ∀ i < fuel, candidate name (c + i) ∈ σ sc.setOf := by
  intro fuel
  induction fuel with
  | zero => intro c _ i hi; omega
  | succ f ih =>
    intro c h i hi
    rw [searchName] at h
    split at h
    · next hc =>
      cases i with
      | zero => exact (containsName_iff _ _ _).1 hc
      | succ i =>
        have := ih h i (by omega)
        rwa [show c + (i + 1) = c + 1 + i by omega]
    · simp at h

theorem searchName_total (σ : Store) (sc : Scope) (name : PyStr) (fuel c : Nat)
    (hf : (σ sc.setOf).length < fuel) : (searchName σ sc name fuel c).isSome := by
  by_contra hn
  have hn : searchName σ sc name fuel c = none := by
    cases h : searchName σ sc name fuel c <;> simp_all
  have hmem := searchName_none hn
  have hsub : (Finset.image (fun i => candidate name (c + i)) (Finset.range fuel)) ⊆
      (σ sc.setOf).toFinset := by
    intro x hx
    simp only [Finset.mem_image, Finset.mem_range] at hx
    obtain ⟨i, hi, rfl⟩ := hx
    simpa using hmem i hi
  have hcard := Finset.card_le_card hsub
  rw [Finset.card_image_of_injective _ (by
    intro a b hab
    have := candidate_inj name hab
    omega), Finset.card_range] at hcard
  have := List.toFinset_card_le (σ sc.setOf)
  omega

theorem getFreshName_spec {fuel : Nat} {σ : Store} {sc : Scope} {name r : PyStr} {σ' : Store}
    (h : getFreshName fuel σ sc name = some (r, σ')) :
    r ∉ σ sc.setOf ∧ σ' = addName σ sc r := by
  unfold getFreshName at h
  split at h
  · split at h
    · next n hs =>
      simp at h
      obtain ⟨rfl, rfl⟩ := h
      have := searchName_some hs
      refine ⟨?_, rfl⟩
      intro hm
      rw [← containsName_iff] at hm
      simp_all
    · simp at h
  · next hc =>
    simp at h
    obtain ⟨rfl, rfl⟩ := h
    refine ⟨?_, rfl⟩
    rwa [← containsName_iff]

end Nagini.Names
