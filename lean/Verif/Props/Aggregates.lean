import Verif.Lemmas.Aggregates

/-!
C95: `sum`, `sorted`, `max`, `min` and `abs` have Python's result.
-/
set_option linter.unusedVariables false
namespace Nagini.Aggregates

/-- **C95** (full claim): whatever functions satisfy the contracts, `sum` is Python's sum, the results
that the contract of `sorted` allows are the sorted lists, and the contracts of `max` and `min` allow
exactly the greatest and the least element. -/
def C95 : Prop :=
  ∀ I : Interp, SeqContract I → SumAxioms I → ∀ r : List Num,
    sumFn I r = pySum r ∧ (∀ rs, SortedPost I r rs ↔ IsSorted r rs) ∧
      (r ≠ [] → ∀ v, (ListMaxPost r v ↔ IsMax r v) ∧ (ListMaxPost r v ↔ IsMin r v))

/-- **C95, sums**. -/
theorem C95_sum (I : Interp) (h : SeqContract I) (hs : SumAxioms I) (r : List Num) :
    sumFn I r = pySum r := by
  rw [sumFn, toInts_eq h, sum_map hs]

/-- **C95, sorting**: the contract allows the sorted lists and no others. -/
theorem C95_sorted (I : Interp) (h : SeqContract I) (hs : SumAxioms I) (r rs : List Num) :
    SortedPost I r rs ↔ IsSorted r rs := by
  constructor
  · intro p
    exact ⟨(Multiset.coe_eq_coe.1 p.elems).symm, (pairwise_iff rs).2 p.order⟩
  · rintro ⟨hp, ho⟩
    have hle := (pairwise_iff rs).1 ho
    have hidx : ∀ (i : Nat) (x : Num), r[i]? = some x → ∃ j : Nat, j < rs.length ∧ rs[j]? = some x := by
      intro i x hx
      obtain ⟨j, hj⟩ := List.mem_iff_getElem?.1 (hp.mem_iff.2 (List.mem_of_getElem? hx))
      exact ⟨j, (List.getElem?_eq_some_iff.1 hj).1, hj⟩
    refine ⟨hp.length_eq, Multiset.coe_eq_coe.2 hp.symm, ?_, hle, ?_, ?_, ?_⟩
    · rw [C95_sum I h hs, C95_sum I h hs, pySum_perm hp]
    · intro h1
      obtain ⟨x, rfl⟩ := List.length_eq_one_iff.1 h1
      exact List.perm_singleton.1 hp
    · intro _ i x y hx hy
      obtain ⟨j, _, hj⟩ := hidx i x hx
      rcases Nat.eq_zero_or_pos j with rfl | hpos
      · rw [hy] at hj; cases hj; exact Int.le_refl _
      · exact hle 0 j y x hpos hy hj
    · intro _ i x y hx hy
      obtain ⟨j, hlt, hj⟩ := hidx i x hx
      rw [← hp.length_eq] at hy
      by_cases he : j = rs.length - 1
      · rw [he, hy] at hj; cases hj; exact Int.le_refl _
      · exact hle j (rs.length - 1) x y (by omega) hj hy

/-- **C95, sorting**: the numbers in a sorted list are determined. -/
theorem C95_sorted_unique (I : Interp) (h : SeqContract I) (hs : SumAxioms I) (r rs rs' : List Num)
    (p : SortedPost I r rs) (hi : IsSorted r rs') : rs.map Num.val = rs'.map Num.val := by
  obtain ⟨hp, ho⟩ := (C95_sorted I h hs r rs).1 p
  refine List.Perm.eq_of_pairwise (le := fun a b : Int => a ≤ b) ?_ ?_ ?_ ((hp.trans hi.1.symm).map _)
  · intro a b _ _ h1 h2; exact Int.le_antisymm h1 h2
  · exact List.pairwise_map.2 ho
  · exact List.pairwise_map.2 hi.2

/-- **C95, two numbers**: `max` and `min`. -/
theorem C95_two (a b : Num) : IsMax [a, b] (max2 a b) ∧ IsMin [a, b] (min2 a b) := by
  unfold max2 min2 IsMax IsMin
  by_cases h : a.val > b.val
  · simp only [h, if_true]
    simp
    omega
  · simp only [h, if_false]
    simp
    omega

/-- **C95, absolute values**. -/
theorem C95_abs (a : Int) : absFn a = a.natAbs := by
  unfold absFn; split <;> omega

/-- **C95, `max` and `min` of a list** (partial: no element is a `bool`, and the contract only says that
the result is an element): Python's results satisfy the contract. -/
theorem C95_list_partial (l : List Num) (hl : ∀ x ∈ l, ∃ i, x = .int i) (v : Int) :
    (IsMax l v → ListMaxPost l v) ∧ (IsMin l v → ListMaxPost l v) := by
  have : (∃ x ∈ l, x.val = v) → ListMaxPost l v := by
    rintro ⟨x, hx, rfl⟩
    obtain ⟨i, rfl⟩ := hl x hx
    exact hx
  exact ⟨fun h => this h.1, fun h => this h.1⟩

/-- **C95, what `max` and `min` of a list promise**: the result is the number of an element, between the
least and the greatest. -/
theorem C95_list_bounds (l : List Num) (v lo hi : Int) (h : ListMaxPost l v) (h1 : IsMin l lo)
    (h2 : IsMax l hi) : lo ≤ v ∧ v ≤ hi :=
  ⟨h1.2 _ h, h2.2 _ h⟩

/-- **C95, where it fails**: `max([0, True])` is 1, but the verifier concludes that it is 0. -/
theorem C95_wrong : IsMax [.int 0, .bool true] 1 ∧ ∀ v, ListMaxPost [.int 0, .bool true] v ↔ v = 0 := by
  refine ⟨⟨⟨.bool true, by simp, rfl⟩, ?_⟩, fun v => by simp [ListMaxPost]⟩
  intro x hx
  simp at hx
  rcases hx with rfl | rfl <;> decide

/-- **C95, where it fails**: after `max([True])` everything can be proved. -/
theorem C95_contradictory (bs : List Bool) (v : Int) : ¬ ListMaxPost (bs.map .bool) v := by
  simp [ListMaxPost]

/-- **C95, where it fails**: `max([1, 2]) == 2` cannot be proved. -/
theorem C95_undetermined : ListMaxPost [.int 1, .int 2] 1 ∧ ¬ IsMax [.int 1, .int 2] 1 := by
  refine ⟨by simp [ListMaxPost], fun h => ?_⟩
  exact absurd (h.2 (.int 2) (by simp)) (by decide)

/-- **C95**: the full claim fails. -/
theorem C95_fails : ¬ C95 := by
  intro h
  exact C95_undetermined.2
    (((h std std_seq std_sum [.int 1, .int 2]).2.2 (by simp) 1).1.1 C95_undetermined.1)

/-- There are functions that satisfy the contracts. -/
example : SeqContract std ∧ SumAxioms std := ⟨std_seq, std_sum⟩

example : SortedPost std [.int 3, .bool true, .int (-2)] [.int (-2), .bool true, .int 3] :=
  (C95_sorted std std_seq std_sum _ _).2 ⟨by decide, by simp [Num.val]⟩

example : sumFn std [.int 3, .bool true, .int (-2)] = 2 := by decide

example : ListMaxPost [.int 3, .int 7, .int 5] 7 :=
  (C95_list_partial _ (by simp) 7).1 ⟨⟨.int 7, by simp, rfl⟩, by simp [Num.val]⟩

end Nagini.Aggregates
