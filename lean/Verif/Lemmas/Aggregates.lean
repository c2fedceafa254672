import Verif.Model.Aggregates
import Mathlib.Algebra.BigOperators.Group.List.Basic

/-!
Lemmas about the contracts of `sum`, `sorted`, `max` and `min`.
-/
set_option linter.unusedVariables false
namespace Nagini.Aggregates

theorem toInts_eq {I : Interp} (h : SeqContract I) (l : List Num) : I.toInts l = l.map Num.val := by
  apply List.ext_getElem?
  intro i
  rw [List.getElem?_map]
  cases hx : l[i]? with
  | some x => rw [h.elem l i x hx]; rfl
  | none =>
    rw [List.getElem?_eq_none_iff] at hx
    rw [List.getElem?_eq_none_iff.2 (by rw [h.length]; exact hx)]
    rfl

theorem sum_map {I : Interp} (h : SumAxioms I) (l : List Num) : I.sum (l.map Num.val) = pySum l := by
  induction l with
  | nil => exact h.nil
  | cons x l ih =>
    rw [List.map_cons, ← List.singleton_append, h.append, h.single, ih]
    rfl

theorem pairwise_iff (rs : List Num) :
    (rs.Pairwise fun a b => a.val ≤ b.val) ↔
      ∀ (i1 i2 : Nat) (a b : Num), i1 < i2 → rs[i1]? = some a → rs[i2]? = some b → a.val ≤ b.val := by
  rw [List.pairwise_iff_getElem]
  constructor
  · intro h i1 i2 a b hlt ha hb
    obtain ⟨h1, rfl⟩ := List.getElem?_eq_some_iff.1 ha
    obtain ⟨h2, rfl⟩ := List.getElem?_eq_some_iff.1 hb
    exact h i1 i2 h1 h2 hlt
  · intro h i j hi hj hlt
    exact h i j _ _ hlt (List.getElem?_eq_getElem hi) (List.getElem?_eq_getElem hj)

theorem pySum_perm {r rs : List Num} (h : rs.Perm r) : pySum rs = pySum r := by
  induction h with
  | nil => rfl
  | cons x _ ih => simp only [pySum, ih]
  | swap x y l => simp only [pySum]; omega
  | trans _ _ h1 h2 => exact h1.trans h2

/-- Interpretation by the intended functions. -/
def std : Interp := ⟨fun l => l.map Num.val, List.sum⟩

theorem std_seq : SeqContract std where
  length sr := by simp [std]
  elem sr i x h := by simp [std, h]
  empty sr h := by simp [std, h]
  single r := by simp [std]
  append a b := by simp [std]
  memInt sr h i hi := by
    obtain ⟨x, hx, rfl⟩ := List.mem_map.1 hi
    refine ⟨x, hx, h x hx, rfl, ?_⟩
    cases x with
    | int i => rfl
    | bool b => exact absurd (h _ hx) (by simp [Num.isInt])
  mem sr i hi := by
    obtain ⟨x, hx, rfl⟩ := List.mem_map.1 hi
    exact ⟨x, hx, rfl⟩

theorem std_sum : SumAxioms std where
  nil := rfl
  single t := by simp [std]
  append a b := by simp [std]
  perm a b h := (Multiset.coe_eq_coe.1 h).sum_eq

end Nagini.Aggregates
