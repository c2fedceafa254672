import Verif.Lemmas.Members

/-!
C94: membership, sets and dictionaries behave as in Python.
-/
set_option linter.unusedVariables false
namespace Nagini.Members

variable {V : Type} [DecidableEq V]

/-- `in` and `not in` on lists and tuples have Python's value. -/
def ListAgree (eq : V → V → Bool) : Prop :=
  ∀ (l : List V) (x : V), translateContains false l x = pyIn eq l x ∧
    translateContains true l x = !pyIn eq l x

/-- After any operations on an initially empty set: either Python raises `KeyError` and a precondition
fails, or membership, length, truth value and iteration are as in Python. -/
def SetAgree (eq : V → V → Bool) : Prop :=
  ∀ ops : List (SetOp V),
    (pySetRun eq [] ops = none ∧ setRun ∅ ops = none) ∨
    ∃ l s, pySetRun eq [] ops = some l ∧ setRun ∅ ops = some s ∧
      (∀ x, setContains s x = pyIn eq l x) ∧ setLen s = l.length ∧ setBool s = !l.isEmpty ∧
      SetSeq s l

/-- After any assignments to an initially empty dictionary: membership, lookup, length, and the
sequences of keys and values are as in Python. -/
def DictAgree (eq : V → V → Bool) : Prop :=
  ∀ (us : List (V × V)) (dflt null : V),
    let d := pyStores eq [] us
    let m := dictStores (dictEmpty dflt) us
    (∀ k, dictContains m k = (pyLookup eq d k).isSome) ∧ (∀ k, dictGetitem m k = pyLookup eq d k) ∧
      (∀ k, dictGet null m k = (pyLookup eq d k).getD null) ∧ dictLen m = d.length ∧
      DictSeq m (d.map (·.1)) ∧ DictValues m (d.map (·.2))

/-- **C94** (full claim): for integers, booleans, `None` and objects, all of these agree. -/
def C94 : Prop := ListAgree Val.pyEq ∧ SetAgree Val.pyEq ∧ DictAgree Val.pyEq

/-- **C94, lists and tuples, exactly** (partial: the values that occur are equal only if identical). -/
theorem C94_list_iff_partial (eq : V → V → Bool) : ListAgree eq ↔ Canonical eq := by
  constructor
  · intro h x y hxy
    have := (h [x] y).1
    simp only [translateContains, contains, pyIn, same, List.any_cons, List.any_nil, hxy] at this
    simpa [eq_comm] using this
  · intro hc l x
    simp [translateContains, pyIn_eq hc]

/-- **C94, sets, exactly** (partial: the values that occur are equal only if identical). -/
theorem C94_set_iff_partial (eq : V → V → Bool) : SetAgree eq ↔ Canonical eq := by
  constructor
  · intro h x y hxy
    rcases h [.add x] with ⟨h1, -⟩ | ⟨l, s, h1, h2, h3, -⟩
    · simp [pySetRun, pySetStep] at h1
    · have hl : l = [x] := by simpa [pySetRun, pySetStep, pyIn, eq_comm] using h1
      have hs : s = {x} := by simpa [setRun, setStep, eq_comm] using h2
      have := h3 y
      rw [hl, hs] at this
      simp only [setContains, pyIn, same, List.any_cons, List.any_nil, hxy] at this
      simpa [eq_comm] using this
  · intro hc ops
    rcases run_sim hc ops [] ∅ (by simp [RSet]) with h | ⟨l, s, h1, h2, h3⟩
    · exact .inl h
    · refine .inr ⟨l, s, h1, h2, fun x => ?_, card_eq h3, ?_, (card_eq h3).symm, fun x => (h3.2 x).symm,
        fun i x => nodup_take h3.1 i x⟩
      · rw [pyIn_eq hc, contains, setContains]
        simp only [h3.2 x]
      · unfold setBool
        rw [card_eq h3]
        cases l <;> simp

/-- **C94, dictionaries, exactly** (partial: the keys that occur are equal only if identical). -/
theorem C94_dict_iff_partial (eq : V → V → Bool) : DictAgree eq ↔ Canonical eq := by
  constructor
  · intro h x y hxy
    have := (h [(x, x)] x x).1 y
    simp only [dictContains, dictStores, dictStore, dictEmpty, List.foldl_cons, List.foldl_nil,
      pyStores, pyStore, pyLookup, same, hxy, Bool.or_true, if_true, Option.isSome_some] at this
    simpa [eq_comm] using this
  · intro hc us dflt null d m
    have hr : RDict d m := stores_sim hc us [] _ (empty_sim dflt)
    have hl : ∀ k, pyLookup eq d k = dictGetitem m k := lookup_sim hc d m hr
    refine ⟨fun k => ?_, fun k => (hl k).symm, fun k => ?_, dict_card hr, ⟨?_, ?_⟩, ?_, ?_⟩
    · rw [hl]
      unfold dictGetitem
      cases dictContains m k <;> rfl
    · rw [hl]
      unfold dictGet dictGetitem
      cases dictContains m k <;> rfl
    · rw [List.length_map]; exact (dict_card hr).symm
    · exact fun k => (hr.2.1 k).symm
    · rw [List.length_map]; exact (dict_card hr).symm
    · intro r
      constructor
      · intro h
        obtain ⟨p, hp, rfl⟩ := List.mem_map.1 h
        exact ⟨p.1, (hr.2.1 p.1).1 (List.mem_map_of_mem hp), hr.2.2 p hp⟩
      · rintro ⟨k, hk, rfl⟩
        obtain ⟨p, hp, rfl⟩ := List.mem_map.1 ((hr.2.1 k).2 hk)
        exact List.mem_map.2 ⟨p, hp, (hr.2.2 p hp).symm⟩

/-- **C94, the order of keys**: whatever sequence satisfies the contract of iteration over a dictionary
visits every key exactly once. -/
theorem C94_keys_once (m : VMap V) (l : List V) (h : DictSeq m l) :
    l.Nodup ∧ l.toFinset = m.dom := by
  have he : l.toFinset = m.dom := by
    ext x
    rw [List.mem_toFinset, h.2]
  refine ⟨?_, he⟩
  have hlen : l.dedup.length = l.length := by
    rw [← List.card_toFinset, he, h.1]
  exact List.dedup_eq_self.1 ((List.dedup_sublist l).eq_of_length hlen)

/-- **C94, ranges** (partial: the item is not a `bool`): `in` has Python's value for integers. -/
theorem C94_range_partial (start stop : Int) (x : Val) (b : Bool) (hx : ∀ c, x ≠ .bool c)
    (h : rangeContains start stop x = some b) : b = pyInRange start stop x := by
  cases x <;> simp_all [rangeContains, pyInRange, Val.num?]

/-- **C94, where it fails**: `True in range(0, 2)` is `False` for the verifier. -/
theorem C94_range_fails :
    rangeContains 0 2 (.bool true) = some false ∧ pyInRange 0 2 (.bool true) = true := by
  decide

/-- **C94, where it fails**: `1 in [True]` and membership of an object that is equal to an element. -/
theorem C94_not_canonical : ¬ Canonical Val.pyEq :=
  fun h => absurd (h (.bool true) (.int 1) (by decide)) (by decide)

/-- **C94**: the full claim fails. -/
theorem C94_fails : ¬ C94 :=
  fun h => C94_not_canonical ((C94_list_iff_partial _).1 h.1)

/-- **C94, where it fails**: a set of two equal elements has two elements. -/
example : (setRun (∅ : Finset Val) [.add (.cell 0 5), .add (.cell 1 5)]).map setLen = some 2 ∧
    (pySetRun Val.pyEq [] [.add (.cell 0 5), .add (.cell 1 5)]).map List.length = some 1 := by
  decide

/-- Integers, `None` and objects without `__eq__` are equal only if identical: the partial theorems
apply to programs that use only these. -/
def Plain : Type := {v : Val // (∀ b, v ≠ .bool b) ∧ ∀ i f, v ≠ .cell i f}

instance : DecidableEq Plain := inferInstanceAs (DecidableEq {v : Val // _})

theorem plain_canonical : Canonical (V := Plain) fun a b => Val.pyEq a.1 b.1 := by
  rintro ⟨a, ha, ha'⟩ ⟨b, hb, hb'⟩ h
  apply Subtype.ext
  show a = b
  cases a <;> cases b <;> first
    | exact absurd rfl (ha _)
    | exact absurd rfl (hb _)
    | exact absurd rfl (ha' _ _)
    | exact absurd rfl (hb' _ _)
    | simp_all [Val.pyEq, Val.num?]

example : DictAgree (V := Plain) fun a b => Val.pyEq a.1 b.1 :=
  (C94_dict_iff_partial _).2 plain_canonical

/-- A set of integers: after adding 1, 2 and 1 again and removing 2, it contains only 1. -/
example : setRun (∅ : Finset Int) [.add 1, .add 2, .add 1, .remove 2] = some {1} ∧
    setRun (∅ : Finset Int) [.add 1, .remove 2] = none := by
  decide

end Nagini.Members
