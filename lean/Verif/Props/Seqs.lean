import Verif.Lemmas.Seqs

/-!
C17 – C21: sequences.
-/
namespace Nagini.Seqs
variable {α : Type}

/-! ### C17 -/

/-- **C17.** List (and bytearray) slices are Python's, for every list and all indices. -/
theorem C17_list_slice (s : List α) (start stop : Option Int) :
    listSlice s start stop = pySlice s start stop := by
  rw [listSlice_eq, pySlice_eq]

/-- Non-vacuity: `[0,1,2,3,4][-3:10]`. -/
example : listSlice [0, 1, 2, 3, 4] (some (-3)) (some 10) = [2, 3, 4] := by decide

/-! ### C18 -/

/-- **C18, full claim**: every accepted slice of a bytes or range object has a result
satisfying the contract, and it is Python's. -/
def ImmSliceFaithful : Prop :=
  ∀ (s : List Nat) (start stop : Option Int), immSlicePre s start stop →
    (∃ res, immSlicePost s start stop res) ∧ ∀ res, immSlicePost s start stop res → res = pySlice s start stop

/-- C18 is violated: `b[2:0]` of a two-element `b` is accepted, but no result satisfies
the contract (Python: empty), so everything can be proved afterwards. -/
theorem C18_imm_slice_fails : ¬ ImmSliceFaithful := by
  intro h
  have hp : immSlicePre [7, 8] (some 2) (some 0) := by unfold immSlicePre sliceStart sliceStop; decide
  obtain ⟨res, h1, h2⟩ := (h [7, 8] (some 2) (some 0) hp).1
  simp [sliceStop, sliceStart] at h1

/-- **C18, exact proved part**: the contract is satisfiable iff `start ≤ stop`, and what
it describes is Python's slice. -/
theorem C18_imm_slice_iff_partial (s : List α) (start stop : Option Int) (hp : immSlicePre s start stop) :
    ((∃ res, immSlicePost s start stop res) ↔ sliceStart start s.length ≤ sliceStop stop s.length) ∧
    ∀ res, immSlicePost s start stop res → res = pySlice s start stop := by
  obtain ⟨⟨h1, h2⟩, h3, h4⟩ := hp
  have hlen := slice_len s _ _ h1 h3 h4
  constructor
  · constructor
    · rintro ⟨res, e1, e2⟩
      subst e2
      omega
    · intro hle
      exact ⟨_, by rw [hlen]; omega, rfl⟩
  · rintro res ⟨_, rfl⟩
    exact C17_list_slice s start stop

/-- **C18, tuples, exact proved part**: same for tuples, including the types of the
components. -/
theorem C18_tuple_slice_iff_partial {τ : Type} (t : TupleObj α τ) (hw : t.wf) (start stop : Option Int)
    (hp : immSlicePre t.val start stop) :
    ((∃ res, res.wf ∧ tupleSlicePost t start stop res) ↔ sliceStart start t.val.length ≤ sliceStop stop t.val.length) ∧
    ∀ res, tupleSlicePost t start stop res →
      res.val = pySlice t.val start stop ∧ res.args = pySlice t.args start stop := by
  obtain ⟨w1, w2⟩ := hw
  have hal : t.args.length = t.val.length := by omega
  obtain ⟨⟨h1, h2⟩, h3, h4⟩ := hp
  have hlen := slice_len t.val _ _ h1 h3 h4
  have hlen' := slice_len t.args (sliceStart start t.val.length) (sliceStop stop t.val.length) h1 h3 (by omega)
  constructor
  · constructor
    · rintro ⟨res, ⟨_, e0⟩, _, _, e1, e2⟩
      rw [w2] at e1 e2
      rw [e2] at e0
      omega
    · intro hle
      refine ⟨⟨vSlice t.val (sliceStart start t.val.length) (sliceStop stop t.val.length),
        vSlice t.args (sliceStart start t.val.length) (sliceStop stop t.val.length),
        sliceStop stop t.val.length - sliceStart start t.val.length⟩, ⟨?_, ?_⟩, ?_, ?_, ?_, ?_⟩
      · show _ = ((vSlice t.args _ _).length : Int); rw [hlen']; simp; omega
      · show _ = ((vSlice t.val _ _).length : Int); rw [hlen]; simp; omega
      · rw [w2]
      · rw [w2]
        intro i hi
        show (vSlice t.args _ _)[i]? = _
        unfold vSlice vTake vDrop
        rw [List.getElem?_drop, List.getElem?_take]
        rw [if_pos (by omega)]
        congr 1
        omega
      · rw [w2]
      · rw [w2]
  · rintro res ⟨e1, _, _, e2⟩
    rw [w2] at e2
    rw [w1] at e1
    exact ⟨by rw [e2]; exact C17_list_slice t.val start stop, by rw [e1]; exact C17_list_slice t.args start stop⟩

/-- Non-vacuity: `(7, 8, 9)[-2:3]` is accepted. -/
example : immSlicePre [7, 8, 9] (some (-2)) (some 3) ∧ immSlicePost [7, 8, 9] (some (-2)) (some 3) [8, 9] := by
  unfold immSlicePre immSlicePost
  decide

/-- **C18, subscripts.** An index is accepted iff Python does not raise IndexError, and the
value is Python's. -/
theorem C18_getitem (s : List α) (i : Int) :
    (getitemPre s i ↔ (pyIndex s i).isSome) ∧ (getitemPre s i → getitem s i = pyIndex s i) := by
  unfold getitemPre getitem pyIndex
  by_cases h1 : i < -s.length
  · simp [h1]
    omega
  · by_cases h2 : i < 0
    · simp only [h1, if_false, h2, if_true, show ¬ i ≥ 0 by omega]
      constructor
      · constructor
        · intro _
          rw [List.getElem?_eq_getElem (by omega)]
          rfl
        · intro _; omega
      · intro _; trivial
    · simp only [h1, if_false, h2, show i ≥ 0 by omega, if_true]
      constructor
      · constructor
        · rintro ⟨_, h⟩
          rw [List.getElem?_eq_getElem (by have := h trivial; omega)]
          rfl
        · intro h
          refine ⟨by intro h; exact absurd h id, fun _ => ?_⟩
          by_contra hc
          rw [List.getElem?_eq_none (by omega)] at h
          cases h
      · intro _; trivial

/-- Non-vacuity. -/
example : getitemPre [4, 5, 6] (-1) ∧ getitem [4, 5, 6] (-1) = some 6 ∧ ¬ getitemPre [4, 5, 6] 3 := by
  unfold getitemPre
  decide

/-! ### C19 -/

/-- **C19, full claim**: creating any tuple the translator accepts (at most 9
components) has a result satisfying the contract. -/
def TupleCreateFaithful : Prop :=
  ∀ vs : List Nat, vs.length ≤ 9 → ∃ res : TupleObj Nat Unit, res.wf ∧ tupleCreatePost (fun _ => ()) vs res

/-- C19 is violated: no object satisfies the contract of a 7-tuple. -/
theorem C19_tuple_create_fails : ¬ TupleCreateFaithful := by
  intro h
  obtain ⟨res, ⟨_, w⟩, _, h2, h3, _⟩ := h [0, 1, 2, 3, 4, 5, 6] (by decide)
  simp [createLen] at h3
  rw [h2] at w
  simp at w
  omega

/-- **C19, exact proved part**: the contract is satisfiable iff there are at most six
components (7, 8 and 9 are contradictory, longer ones rejected), and it describes
Python's tuple. -/
theorem C19_tuple_create_iff_partial {τ : Type} (typeof : α → τ) (vs : List α) :
    ((∃ res : TupleObj α τ, res.wf ∧ tupleCreatePost typeof vs res) ↔ vs.length ≤ 6) ∧
    ∀ res : TupleObj α τ, res.wf → tupleCreatePost typeof vs res →
      res.val = vs ∧ res.len = vs.length ∧ res.args = vs.map typeof := by
  constructor
  · constructor
    · rintro ⟨res, ⟨_, w⟩, _, h2, h3, _⟩
      rw [h2] at w
      rw [w] at h3
      by_contra hc
      have hc : 6 < vs.length := by omega
      revert h3 hc
      generalize vs.length = n
      intro h3 hc
      match n, hc with
      | 7, _ => simp [createLen] at h3
      | 8, _ => simp [createLen] at h3
      | 9, _ => simp [createLen] at h3
      | n + 10, _ => simp [createLen] at h3
    · intro h
      refine ⟨⟨vs, vs.map typeof, vs.length⟩, ⟨by simp, rfl⟩, rfl, rfl, ?_, fun _ _ => rfl⟩
      show createLen vs.length = some (vs.length : Int)
      revert h
      generalize vs.length = n
      intro h
      match n, h with
      | 0, _ => rfl
      | 1, _ => rfl
      | 2, _ => rfl
      | 3, _ => rfl
      | 4, _ => rfl
      | 5, _ => rfl
      | 6, _ => rfl
  · rintro res ⟨_, w⟩ ⟨h1, h2, _, _⟩
    refine ⟨h2, ?_, h1⟩
    rw [w, h2]

/-- Non-vacuity. -/
example : tupleCreatePost (fun n : Nat => n) [3, 4] ⟨[3, 4], [3, 4], 2⟩ := by
  refine ⟨rfl, rfl, rfl, ?_⟩
  intro i _; rfl

/-! ### C20 -/

/-- **C20.** `range(start, stop)` with `start ≤ stop` (other calls are rejected) is
Python's range. -/
theorem C20_range (start stop : Int) (h : stop ≥ start) : IsPyRange start stop 1 (rangeVal start stop) := by
  unfold rangeVal
  constructor
  · intro i hi
    simp at hi ⊢
    omega
  · simp; omega

/-- **C20.** `range(start, stop, step)` with a positive step: the contract is
satisfiable and describes exactly Python's range. -/
theorem C20_range_step (start stop step : Int) (h : step ≥ 1) :
    (∃ val, rangeStepPost start stop step val) ∧
    ∀ val, rangeStepPost start stop step val ↔ IsPyRange start stop step val := by
  obtain ⟨v, hv⟩ := rangeStep_exists (start := start) (stop := stop) h
  refine ⟨⟨v, hv⟩, fun val => ⟨rangeStep_isPyRange h, fun h' => ?_⟩⟩
  rw [isPyRange_unique (by omega) h' (rangeStep_isPyRange h hv)]
  exact hv

/-- The specification determines the range. -/
theorem C20_range_unique {start stop step : Int} (hs : 0 < step) {l l' : List Int}
    (h : IsPyRange start stop step l) (h' : IsPyRange start stop step l') : l = l' := isPyRange_unique hs h h'

/-- **C20, membership, full claim**: `x in range(...)` for every accepted `x`. -/
def RangeContainsFaithful : Prop :=
  ∀ (val : List Int) (x : Obj) (i : Int), x.num = some i → rangeContains val x = decide (i ∈ val)

/-- C20 is violated for booleans: `True in range(3)` is taken to be false. -/
theorem C20_range_contains_fails : ¬ RangeContainsFaithful := by
  intro h
  have := h [0, 1, 2] (.bool true) 1 rfl
  revert this
  decide

/-- **C20, membership, exact proved part**: right iff the item is not a bool or is not in
the range. -/
theorem C20_range_contains_iff_partial (val : List Int) (x : Obj) (i : Int) (h : x.num = some i) :
    rangeContains val x = decide (i ∈ val) ↔ (x = .int i ∨ i ∉ val) := by
  cases x with
  | int j =>
    simp [Obj.num] at h
    subst h
    simp [rangeContains]
  | bool b => simp [rangeContains]
  | other n => simp [Obj.num] at h

/-- Bytearray membership is right for all accepted items. -/
theorem C20_bytearray_contains (val : List Int) (x : Obj) (i : Int) (h : x.num = some i) :
    bytearrayContains val x = some (decide (i ∈ val)) := by
  simp [bytearrayContains, h]

/-- **C20.** `enumerate(s, start)` pairs the elements with consecutive numbers. -/
theorem C20_enumerate (s : List α) (start : Int) (res : List (Int × α)) :
    enumeratePost s start res ↔ res = s.mapIdx fun i x => (start + i, x) := by
  unfold enumeratePost
  constructor
  · rintro ⟨hl, h⟩
    apply List.ext_getElem?
    intro i
    by_cases hi : i < res.length
    · rw [h i hi, List.getElem?_mapIdx]
    · rw [List.getElem?_eq_none (by omega), List.getElem?_eq_none (by simp; omega)]
  · rintro rfl
    refine ⟨by simp, ?_⟩
    intro i _
    rw [List.getElem?_mapIdx]

/-- Non-vacuity: `range(2, 9, 3)`. -/
example : rangeStepPost 2 9 3 [2, 5, 8] ∧ IsPyRange 2 9 3 [2, 5, 8] := by
  have : rangeStepPost 2 9 3 [2, 5, 8] := by unfold rangeStepPost; decide
  exact ⟨this, ((C20_range_step 2 9 3 (by decide)).2 _).1 this⟩

/-! ### C21 -/

/-- **C21.** `insert`, for every index. -/
theorem C21_insert (s : List α) (i : Int) (x : α) : insert s i x = pyInsert s i x := by
  unfold insert pyInsert pyStart vTake vDrop
  simp only [List.append_assoc, List.singleton_append]
  have : (if (if i < 0 then i + (s.length : Int) else i) < 0 then 0
      else if (if i < 0 then i + (s.length : Int) else i) > s.length then (s.length : Int)
      else (if i < 0 then i + (s.length : Int) else i)) =
      (if i < 0 then max (i + (s.length : Int)) 0 else min i s.length) := by
    split <;> split <;> (try split) <;> omega
  rw [this]

/-- Inserting puts the element before the given position and keeps the others: the
effect described without take and drop. -/
theorem C21_insert_position (s : List α) (i : Nat) (hi : i ≤ s.length) (x : α) :
    insert s i x = s.insertIdx i x := by
  rw [C21_insert]
  unfold pyInsert pyStart
  simp only [show ¬ ((i : Int) < 0) by omega, if_false]
  rw [show (min (i : Int) s.length).toNat = i by omega]
  exact insertIdx_take_drop s i hi x

/-- **C21.** `s[i] = x`: accepted indices are the non-negative valid ones; only that
element changes. -/
theorem C21_setitem (s : List α) (i : Int) (x : α) (h : setitemPre s i) :
    (pyIndex s i).isSome ∧ pyIndex (setitem s i x) i = some x ∧
    (setitem s i x).length = s.length ∧ ∀ j : Nat, (j : Int) ≠ i → (setitem s i x)[j]? = s[j]? := by
  obtain ⟨h1, h2⟩ := h
  unfold setitem
  refine ⟨?_, ?_, by simp, ?_⟩
  · rw [← (C18_getitem s i).1]
    exact ⟨by omega, fun _ => h2⟩
  · unfold pyIndex
    simp only [List.length_set]
    rw [if_neg (by omega), if_neg (by omega), List.getElem?_set_self (by omega)]
  · intro j hj
    rw [List.getElem?_set_ne (by omega)]

/-- **C21.** `append` and `extend`/`+`. -/
theorem C21_append_extend (s t : List α) (x : α) :
    (∀ i, i < s.length → (append s x)[i]? = s[i]?) ∧ (append s x)[s.length]? = some x ∧
    (append s x).length = s.length + 1 ∧ extend s [x] = append s x ∧ extend s (append t x) = append (extend s t) x := by
  unfold append extend
  refine ⟨?_, by simp, by simp, rfl, by simp⟩
  intro i h
  rw [List.getElem?_append_left h]

/-- **C21.** `s * k` for every `k`. -/
theorem C21_mul (s : List α) (k : Int) (res : List α) : mulPost s k res ↔ res = pyMul s k := by
  unfold mulPost pyMul
  constructor
  · rintro ⟨hl, h⟩
    by_cases hk : k > 0
    · rw [if_pos hk] at hl
      obtain ⟨n, rfl⟩ := Int.eq_ofNat_of_zero_le (show 0 ≤ k by omega)
      have hl : res.length = n * s.length := by exact_mod_cast hl
      apply List.ext_getElem?
      intro i
      simp only [Int.toNat_natCast]
      by_cases hi : i < res.length
      · rw [h hk i hi, pyMul_get s n i (by omega)]
      · rw [List.getElem?_eq_none (by omega), List.getElem?_eq_none (by rw [pyMul_length]; omega)]
    · rw [if_neg hk] at hl
      have : res = [] := List.eq_nil_of_length_eq_zero (by omega)
      rw [this, show k.toNat = 0 by omega]
      rfl
  · rintro rfl
    rw [pyMul_length]
    constructor
    · split
      · push_cast; rw [Int.toNat_of_nonneg (by omega)]
      · rw [show k.toNat = 0 by omega]; simp
    · intro hk i hi
      rw [pyMul_get s k.toNat i (by simpa using hi)]

/-- **C21.** bytes repetition and join. -/
theorem C21_bytes (s sep : List α) (n : Nat) (l : List (List α)) :
    bytesMul s n = pyMul s n ∧ bytesJoin sep l = sep.intercalate l := by
  refine ⟨?_, bytesJoin_eq sep l⟩
  rw [bytesMul_eq]
  unfold pyMul
  simp

/-- **C21, full claim for `reverse`**: afterwards the receiver is reversed. -/
def ReverseFaithful : Prop := ∀ (s self' res : List Nat), reversePost s self' res → self' = s.reverse

/-- C21 is violated: after `l.reverse()` the verifier believes `l` unchanged. -/
theorem C21_reverse_fails : ¬ ReverseFaithful := by
  intro h
  have : reversePost [1, 2] [1, 2] [2, 1] := by
    refine ⟨rfl, rfl, ?_⟩
    intro i hi
    simp at hi
    match i, hi with
    | 0, _ => rfl
    | 1, _ => rfl
  exact absurd (h _ _ _ this) (by decide)

/-- **C21, exact proved part for `reverse`**: the contract is right iff the list is a
palindrome; the returned (non-existent) list is the reversal. -/
theorem C21_reverse_iff_partial (s self' res : List α) (h : reversePost s self' res) :
    res = s.reverse ∧ (self' = s.reverse ↔ s = s.reverse) := by
  obtain ⟨rfl, hl, he⟩ := h
  exact ⟨reverse_of_getElem hl he, Iff.rfl⟩

/-- **C21.** `bytearray.reverse` reverses in place. -/
theorem C21_bytearray_reverse (s self' : List α) : bytearrayReversePost s self' ↔ self' = s.reverse := by
  unfold bytearrayReversePost
  constructor
  · rintro ⟨hl, h⟩
    refine reverse_of_getElem hl.symm ?_
    rw [hl]
    exact h
  · rintro rfl
    refine ⟨by simp, ?_⟩
    intro i hi
    rw [List.getElem?_reverse (by simpa using hi)]
    simp

/-- **C21, full claim for searching**: `in`, `index` and `remove` compare with `==`. -/
def SearchFaithful : Prop :=
  ∀ (s : List Obj) (x : Obj), contains s x = pyContains Obj.eq x s ∧
    (findPre s x → (∀ r, indexPost s x r → pyFind Obj.eq x s = some r) ∧
      ∀ s', removePost s x s' → pyRemove Obj.eq x s = some s')

/-- C21 is violated: `[True, 1].remove(1)` leaves `[1]` in Python, the verifier says
`[True]` is left. -/
theorem C21_search_fails : ¬ SearchFaithful := by
  intro h
  have := (h [.bool true, .int 1] (.int 1)).2 (by simp [findPre])
  have := this.2 [.bool true] ⟨by simp, 1, by simp, by simp, ?_, by simp⟩
  · revert this
    decide
  · intro j hj
    match j, hj with
    | 0, _ => decide

/-- Membership witness: `1 in [True]`. -/
theorem C21_contains_fails : contains [Obj.bool true] (Obj.int 1) = false ∧
    pyContains Obj.eq (Obj.int 1) [Obj.bool true] = true := by decide

/-- **C21, proved part for searching**: right whenever, for the elements of the list,
`==` with the item coincides with identity.  Missing: lists mixing bools and ints, or
objects with their own `__eq__`, where the claim is false. -/
theorem C21_search_partial [DecidableEq α] (eq : α → α → Bool) (s : List α) (x : α)
    (hid : ∀ y ∈ s, eq y x = true ↔ y = x) :
    contains s x = pyContains eq x s ∧
    (findPre s x ↔ (pyFind eq x s).isSome) ∧
    (∀ r, indexPost s x r ↔ pyFind eq x s = some r) ∧
    (∀ s', removePost s x s' ↔ pyRemove eq x s = some s') := by
  have hidx : ∀ r, indexPost s x r ↔ pyFind eq x s = some r := by
    intro r
    rw [pyFind_some]
    unfold indexPost
    constructor
    · rintro ⟨h1, h2, h3⟩
      refine ⟨⟨x, h2, (hid x (List.mem_of_getElem? h2)).2 rfl⟩, ?_⟩
      intro j hj y hy
      have := h3 j hj
      rw [hy] at this
      have hne : y ≠ x := fun h => this (by rw [h])
      rw [← Bool.not_eq_true, hid y (List.mem_of_getElem? hy)]
      exact hne
    · rintro ⟨⟨y, h1, h2⟩, h3⟩
      have hy := (hid y (List.mem_of_getElem? h1)).1 h2
      subst hy
      refine ⟨(List.getElem?_eq_some_iff.1 h1).1, h1, ?_⟩
      intro j hj hc
      have := h3 j hj y hc
      rw [h2] at this
      cases this
  have hfind : findPre s x ↔ (pyFind eq x s).isSome := by
    constructor
    · intro h
      unfold findPre at h
      obtain ⟨hh, hlt⟩ : ∃ i, (pyFind eq x s) = some i := by
        have hex : ∃ i : Nat, s[i]? = some x := List.mem_iff_getElem?.1 h
        classical
        let i := Nat.find hex
        have h1 := Nat.find_spec hex
        refine ⟨i, (hidx i).1 ⟨(List.getElem?_eq_some_iff.1 h1).1, h1, ?_⟩⟩
        intro j hj
        exact Nat.find_min hex hj
      rw [hlt]; rfl
    · intro h
      obtain ⟨i, hi⟩ := Option.isSome_iff_exists.1 h
      exact List.mem_of_getElem? ((hidx i).2 hi).2.1
  refine ⟨?_, hfind, hidx, ?_⟩
  · unfold contains pyContains
    rw [Bool.eq_iff_iff]
    simp only [decide_eq_true_eq, List.any_eq_true]
    constructor
    · intro h
      exact ⟨x, h, (hid x h).2 rfl⟩
    · rintro ⟨y, hy, he⟩
      rwa [(hid y hy).1 he] at hy
  · intro s'
    unfold removePost pyRemove
    rw [Option.map_eq_some_iff]
    constructor
    · rintro ⟨_, i, h1, h2, h3, rfl⟩
      exact ⟨i, (hidx i).1 ⟨h1, h2, h3⟩, rfl⟩
    · rintro ⟨i, hi, rfl⟩
      have ⟨h1, h2, h3⟩ := (hidx i).2 hi
      refine ⟨?_, i, h1, h2, h3, rfl⟩
      simp
      omega

/-- Non-vacuity: `[3, 5, 3].remove(5)` with integers. -/
example : (∀ y ∈ [Obj.int 3, .int 5, .int 3], Obj.eq y (.int 5) = true ↔ y = .int 5) ∧
    pyRemove Obj.eq (.int 5) [.int 3, .int 5, .int 3] = some [.int 3, .int 3] := by decide

/-- **C21, full claim for `bytearray(n)`.** -/
def InitFromIntFaithful : Prop := ∀ n : Int, ∃ res, initFromIntPost n res

/-- C21 is violated: `bytearray(-1)` is accepted (Python: ValueError) and assumed to have
length -1, which is contradictory. -/
theorem C21_bytearray_init_fails : ¬ InitFromIntFaithful := by
  intro h
  obtain ⟨res, h1, _⟩ := h (-1)
  omega

/-- **C21, exact proved part for `bytearray(n)`**: satisfiable iff `n ≥ 0`; then `n` zero bytes. -/
theorem C21_bytearray_init_iff_partial (n : Int) :
    ((∃ res, initFromIntPost n res) ↔ n ≥ 0) ∧ ∀ res, initFromIntPost n res → res = List.replicate n.toNat 0 := by
  constructor
  · constructor
    · rintro ⟨res, h, _⟩; omega
    · intro h
      refine ⟨List.replicate n.toNat 0, by simp; omega, ?_⟩
      intro i hi
      rw [List.getElem?_replicate, if_pos (by omega)]
  · rintro res ⟨h1, h2⟩
    apply List.ext_getElem?
    intro i
    rw [List.getElem?_replicate]
    by_cases hi : (i : Int) < n
    · rw [h2 i hi, if_pos (by omega)]
    · rw [if_neg (by omega), List.getElem?_eq_none (by omega)]

end Nagini.Seqs
