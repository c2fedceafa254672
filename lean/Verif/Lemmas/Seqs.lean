import Verif.Model.Seqs
import Mathlib.Data.List.Induction
import Mathlib.Tactic.Ring
import Mathlib.Tactic.Linarith

set_option linter.unusedVariables false
set_option linter.unusedSimpArgs false
namespace Nagini.Seqs
variable {α : Type}

theorem filterMap_congr' {β γ : Type} {f g : β → Option γ} {l : List β} (h : ∀ x ∈ l, f x = g x) :
    l.filterMap f = l.filterMap g := by
  induction l with
  | nil => rfl
  | cons x xs ih =>
    rw [List.filterMap_cons, List.filterMap_cons, h x (by simp), ih (fun y hy => h y (by simp [hy]))]

/-- Elements of a list at the positions of an interval. -/
theorem interval_eq (s : List α) (a b : Nat) :
    ((List.range s.length).filter fun p => decide (a ≤ p) && decide (p < b)).filterMap (fun p => s[p]?) =
      (s.take b).drop a := by
  induction s using List.reverseRecOn generalizing a b with
  | nil => simp
  | append_singleton l x ih =>
    simp only [List.length_append, List.length_singleton, List.range_succ, List.filter_append,
      List.filterMap_append]
    have hl : ((List.range l.length).filter fun p => decide (a ≤ p) && decide (p < b)).filterMap
        (fun p => (l ++ [x])[p]?) =
        ((List.range l.length).filter fun p => decide (a ≤ p) && decide (p < b)).filterMap (fun p => l[p]?) := by
      apply filterMap_congr'
      intro p hp
      have : p < l.length := by simpa using (List.mem_filter.1 hp).1
      rw [List.getElem?_append_left this]
    rw [hl, ih]
    by_cases hb : l.length < b
    · have h1 : (l ++ [x]).take b = l ++ [x] := List.take_of_length_le (by simp; omega)
      have h2 : l.take b = l := List.take_of_length_le (by omega)
      rw [h1, h2]
      by_cases ha : a ≤ l.length
      · simp [ha, hb, List.drop_append_of_le_length ha]
      · have : ¬ a ≤ l.length := ha
        simp only [List.filter_cons, this, hb, decide_false, Bool.false_and]
        rw [List.drop_eq_nil_of_le (by omega), List.drop_eq_nil_of_le (by simp; omega)]
        simp
    · have : ¬ l.length < b := hb
      simp only [List.filter_cons, this, decide_false, Bool.and_false]
      rw [List.take_append_of_le_length (by omega)]
      simp

theorem pySlice_eq (s : List α) (st sp : Option Int) :
    pySlice s st sp = (s.take (pyStop sp s.length).toNat).drop (pyStart st s.length).toNat := by
  rw [← interval_eq]
  unfold pySlice
  congr 1
  apply List.filter_congr
  intro p _
  have h1 : 0 ≤ pyStart st s.length := by
    unfold pyStart; split
    · omega
    · split <;> omega
  have e1 : decide (pyStart st s.length ≤ (p : Int)) = decide ((pyStart st s.length).toNat ≤ p) := by
    congr 1; simp
  have e2 : decide ((p : Int) < pyStop sp s.length) = decide (p < (pyStop sp s.length).toNat) := by
    congr 1; simp [Int.lt_toNat]
  rw [e1, e2]

theorem listSlice_eq (s : List α) (st sp : Option Int) :
    listSlice s st sp = (s.take (pyStop sp s.length).toNat).drop (pyStart st s.length).toNat := by
  unfold listSlice vSlice vTake vDrop
  have h1 : s.take (sliceStop sp s.length).toNat = s.take (pyStop sp s.length).toNat := by
    cases sp with
    | none => rfl
    | some i =>
      unfold sliceStop pyStop
      simp only
      split
      · congr 1; omega
      · by_cases h : i ≤ s.length
        · congr 1; omega
        · rw [List.take_of_length_le (by omega), List.take_of_length_le (by omega)]
  rw [h1]
  cases st with
  | none => rfl
  | some i =>
    unfold sliceStart pyStart
    simp only
    split
    · congr 1; omega
    · by_cases h : i ≤ s.length
      · congr 1; omega
      · rw [List.drop_eq_nil_of_le (by simp; omega), List.drop_eq_nil_of_le (by simp; omega)]

theorem slice_len (s : List α) (a b : Int) (ha : 0 ≤ a) (hb : 0 ≤ b) (hbl : b ≤ s.length) :
    ((vSlice s a b).length : Int) = max (b - a) 0 := by
  unfold vSlice vTake vDrop
  simp
  omega

theorem pyFind_some {eq : α → α → Bool} {x : α} {s : List α} {i : Nat} :
    pyFind eq x s = some i ↔
      (∃ y, s[i]? = some y ∧ eq y x = true) ∧ ∀ j, j < i → ∀ y, s[j]? = some y → eq y x = false := by
  induction s generalizing i with
  | nil => simp [pyFind]
  | cons y ys ih =>
    unfold pyFind
    by_cases h : eq y x = true
    · simp only [h, if_true, Option.some.injEq]
      constructor
      · rintro rfl
        exact ⟨⟨y, rfl, h⟩, by intro j hj; omega⟩
      · rintro ⟨_, h2⟩
        cases i with
        | zero => rfl
        | succ i =>
          have := h2 0 (by omega) y rfl
          rw [h] at this
          cases this
    · rw [if_neg h, Option.map_eq_some_iff]
      constructor
      · rintro ⟨k, hk, rfl⟩
        rw [ih] at hk
        refine ⟨by simpa using hk.1, ?_⟩
        intro j hj z hz
        cases j with
        | zero =>
          simp at hz
          subst hz
          simpa using h
        | succ j => exact hk.2 j (by omega) z (by simpa using hz)
      · rintro ⟨h1, h2⟩
        cases i with
        | zero =>
          obtain ⟨z, hz, he⟩ := h1
          simp at hz
          subst hz
          exact absurd he h
        | succ i =>
          refine ⟨i, ?_, rfl⟩
          rw [ih]
          refine ⟨by simpa using h1, ?_⟩
          intro j hj z hz
          exact h2 (j + 1) (by omega) z (by simpa using hz)

theorem reverse_of_getElem {s t : List α} (hl : t.length = s.length)
    (h : ∀ i : Nat, i < t.length → t[i]? = s[s.length - 1 - i]?) : t = s.reverse := by
  apply List.ext_getElem? 
  intro i
  by_cases hi : i < t.length
  · rw [h i hi, List.getElem?_reverse (by omega)]
  · rw [List.getElem?_eq_none (by omega), List.getElem?_eq_none (by simp; omega)]

theorem pyMul_length (s : List α) (k : Nat) : (List.replicate k s).flatten.length = k * s.length := by
  simp

theorem pyMul_get (s : List α) (k i : Nat) (h : i < k * s.length) :
    (List.replicate k s).flatten[i]? = s[i % s.length]? := by
  induction k generalizing i with
  | zero => simp at h
  | succ k ih =>
    rw [List.replicate_succ, List.flatten_cons]
    by_cases hi : i < s.length
    · rw [List.getElem?_append_left hi, Nat.mod_eq_of_lt hi]
    · rw [List.getElem?_append_right (by omega), ih (i - s.length) (by rw [Nat.succ_mul] at h; omega)]
      congr 1
      rw [← Nat.mod_eq_sub_mod (by omega)]

theorem bytesMul_eq (s : List α) (n : Nat) : bytesMul s n = (List.replicate n s).flatten := by
  induction n using Nat.strongRecOn with
  | _ n ih =>
    match n with
    | 0 => simp [bytesMul]
    | 1 => simp [bytesMul]
    | n + 2 =>
      rw [bytesMul, ih (n + 1) (by omega), show n + 2 = (n + 1) + 1 from rfl, List.replicate_succ' (n := n + 1)]
      simp

theorem bytesJoin_eq (sep : List α) (l : List (List α)) : bytesJoin sep l = sep.intercalate l := by
  induction l with
  | nil => simp [bytesJoin, List.intercalate]
  | cons x xs ih =>
    cases xs with
    | nil => simp [bytesJoin, List.intercalate]
    | cons y ys =>
      rw [bytesJoin, ih]
      simp [List.intercalate, List.intersperse]

theorem isPyRange_unique {start stop step : Int} (hs : 0 < step) {l l' : List Int}
    (h : IsPyRange start stop step l) (h' : IsPyRange start stop step l') : l = l' := by
  have aux : ∀ {m m' : List Int}, IsPyRange start stop step m → IsPyRange start stop step m' → m.length ≤ m'.length := by
    intro m m' h h'
    by_contra hlt
    have hlt : m'.length < m.length := by omega
    have := (h.1 m'.length hlt)
    have h2 := h'.2
    rw [this.1] at this
    linarith [this.2]
  have hl : l.length = l'.length := le_antisymm (aux h h') (aux h' h)
  apply List.ext_getElem hl
  intro i h1 h2
  rw [(h.1 i h1).1, (h'.1 i h2).1]

theorem rangeStep_isPyRange {start stop step : Int} (hs : 1 ≤ step) {val : List Int}
    (h : rangeStepPost start stop step val) : IsPyRange start stop step val := by
  obtain ⟨hl, he⟩ := h
  by_cases hle : stop ≤ start
  · rw [if_pos hle] at hl
    have : val = [] := List.eq_nil_of_length_eq_zero (by omega)
    subst this
    refine ⟨by intro i h; simp at h, by simpa using hle⟩
  · rw [if_neg hle] at hl
    have hp : 0 < step := by omega
    have h1 := Int.mul_ediv_add_emod (stop - start + step - 1) step
    have h2 := Int.emod_nonneg (stop - start + step - 1) (show step ≠ 0 by omega)
    have h3 := Int.emod_lt_of_pos (stop - start + step - 1) hp
    rw [← hl] at h1
    constructor
    · intro i hi
      refine ⟨he i hi, ?_⟩
      rw [he i hi]
      have : (i : Int) + 1 ≤ val.length := by omega
      nlinarith
    · nlinarith

theorem rangeStep_exists {start stop step : Int} (hs : 1 ≤ step) :
    ∃ val, rangeStepPost start stop step val := by
  let n : Int := if stop ≤ start then 0 else (stop - start + step - 1) / step
  refine ⟨(List.range n.toNat).map fun (i : Nat) => start + i * step, ?_, ?_⟩
  · have : 0 ≤ n := by
      show 0 ≤ (if stop ≤ start then 0 else (stop - start + step - 1) / step)
      split
      · omega
      · exact Int.ediv_nonneg (by omega) (by omega)
    simp only [List.length_map, List.length_range]
    rw [Int.toNat_of_nonneg this]
  · intro i h
    simp

theorem insertIdx_take_drop {α : Type} (s : List α) (i : Nat) (hi : i ≤ s.length) (x : α) :
    s.take i ++ x :: s.drop i = s.insertIdx i x := by
  induction s generalizing i with
  | nil => cases i with
    | zero => simp
    | succ i => simp at hi
  | cons a s ih =>
    cases i with
    | zero => simp
    | succ i => simpa using ih i (by simpa using hi)

end Nagini.Seqs
