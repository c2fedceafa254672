import Verif.Model.Members

set_option linter.unusedVariables false
set_option linter.unusedSimpArgs false
set_option linter.unusedSectionVars false
namespace Nagini.Members

variable {V : Type} [DecidableEq V] {eq : V → V → Bool}

theorem same_iff (hc : Canonical eq) (e x : V) : same eq e x = true ↔ e = x := by
  unfold same
  constructor
  · intro h
    rcases (Bool.or_eq_true_iff).1 h with h | h
    · exact by simpa using h
    · exact hc e x h
  · rintro rfl; simp

theorem pyIn_iff (hc : Canonical eq) (l : List V) (x : V) : pyIn eq l x = true ↔ x ∈ l := by
  unfold pyIn
  rw [List.any_eq_true]
  constructor
  · rintro ⟨e, he, h⟩
    exact (same_iff hc e x).1 h ▸ he
  · exact fun h => ⟨x, h, (same_iff hc x x).2 rfl⟩

theorem pyIn_eq (hc : Canonical eq) (l : List V) (x : V) : pyIn eq l x = contains l x := by
  rw [Bool.eq_iff_iff, pyIn_iff hc, contains, decide_eq_true_iff]

/-- A Python set and a Viper set have the same elements. -/
def RSet (s : List V) (f : Finset V) : Prop := s.Nodup ∧ ∀ x, x ∈ s ↔ x ∈ f

theorem step_sim (hc : Canonical eq) (s : List V) (f : Finset V) (h : RSet s f) (o : SetOp V) :
    (pySetStep eq s o = none ∧ setStep f o = none) ∨
    ∃ s' f', pySetStep eq s o = some s' ∧ setStep f o = some f' ∧ RSet s' f' := by
  obtain ⟨hn, hm⟩ := h
  cases o with
  | clear => exact .inr ⟨[], ∅, rfl, rfl, by simp [RSet]⟩
  | add x =>
    refine .inr ⟨_, _, rfl, rfl, ?_⟩
    by_cases hx : x ∈ s
    · rw [if_pos ((pyIn_iff hc s x).2 hx)]
      refine ⟨hn, fun y => ?_⟩
      rw [Finset.mem_union, Finset.mem_singleton, ← hm]
      constructor
      · exact .inl
      · rintro (h | rfl)
        · exact h
        · exact hx
    · rw [if_neg (fun h => hx ((pyIn_iff hc s x).1 h))]
      refine ⟨?_, fun y => ?_⟩
      · rw [List.nodup_append]
        refine ⟨hn, by simp, ?_⟩
        intro a ha b hb hab
        rw [List.mem_singleton] at hb
        exact hx (hb ▸ hab ▸ ha)
      · rw [Finset.mem_union, Finset.mem_singleton, ← hm, List.mem_append, List.mem_singleton]
  | remove x =>
    by_cases hx : x ∈ s
    · refine .inr ⟨_, _, if_pos ((pyIn_iff hc s x).2 hx), if_pos ((hm x).1 hx), hn.filter _, fun y => ?_⟩
      rw [List.mem_filter, Finset.mem_sdiff, Finset.mem_singleton, ← hm, Bool.not_eq_true',
        ← Bool.not_eq_true, same_iff hc]
    · exact .inl ⟨if_neg (fun h => hx ((pyIn_iff hc s x).1 h)), if_neg (fun h => hx ((hm x).2 h))⟩

theorem run_sim (hc : Canonical eq) (ops : List (SetOp V)) (s : List V) (f : Finset V) (h : RSet s f) :
    (pySetRun eq s ops = none ∧ setRun f ops = none) ∨
    ∃ s' f', pySetRun eq s ops = some s' ∧ setRun f ops = some f' ∧ RSet s' f' := by
  induction ops generalizing s f with
  | nil => exact .inr ⟨s, f, rfl, rfl, h⟩
  | cons o os ih =>
    rcases step_sim hc s f h o with ⟨h1, h2⟩ | ⟨s', f', h1, h2, h3⟩
    · exact .inl ⟨by simp [pySetRun, h1], by simp [setRun, h2]⟩
    · simp only [pySetRun, setRun, h1, h2, Option.bind_some]
      exact ih s' f' h3

theorem card_eq {s : List V} {f : Finset V} (h : RSet s f) : f.card = s.length := by
  have : f = s.toFinset := by
    ext x
    rw [List.mem_toFinset, h.2]
  rw [this, List.toFinset_card_of_nodup h.1]

theorem nodup_take {s : List V} (h : s.Nodup) (i : Nat) (x : V) (hx : s[i]? = some x) : x ∉ s.take i := by
  intro hm
  obtain ⟨j, hj, hjx⟩ := List.mem_take_iff_getElem.1 hm
  obtain ⟨hi, hix⟩ := List.getElem?_eq_some_iff.1 hx
  have hj' : j < i := by omega
  have := (List.nodup_iff_injective_getElem).1 h (a₁ := ⟨j, by omega⟩) (a₂ := ⟨i, hi⟩)
    (by simp only; rw [hjx, hix])
  have : j = i := congrArg Fin.val this
  omega

/-- A Python dictionary and a Viper map agree. -/
def RDict (d : List (V × V)) (m : VMap V) : Prop :=
  (d.map (·.1)).Nodup ∧ (∀ k, k ∈ d.map (·.1) ↔ k ∈ m.dom) ∧ ∀ p ∈ d, m.val p.1 = p.2

theorem store_keys (hc : Canonical eq) (d : List (V × V)) (k v : V) :
    (pyStore eq d k v).map (·.1) = if k ∈ d.map (·.1) then d.map (·.1) else d.map (·.1) ++ [k] := by
  induction d with
  | nil => simp [pyStore]
  | cons p d ih =>
    obtain ⟨k', v'⟩ := p
    unfold pyStore
    by_cases h : k' = k
    · rw [if_pos ((same_iff hc k' k).2 h)]
      simp [h]
    · rw [if_neg (fun h' => h ((same_iff hc k' k).1 h'))]
      simp only [List.map_cons, ih, List.mem_cons]
      by_cases hk : k ∈ d.map (·.1)
      · simp [hk]
      · simp [hk, Ne.symm h]

theorem mem_store (hc : Canonical eq) (d : List (V × V)) (hn : (d.map (·.1)).Nodup) (k v : V)
    (p : V × V) : p ∈ pyStore eq d k v ↔ p = (k, v) ∨ (p ∈ d ∧ p.1 ≠ k) := by
  induction d with
  | nil => simp [pyStore]
  | cons q d ih =>
    obtain ⟨k', v'⟩ := q
    simp only [List.map_cons, List.nodup_cons] at hn
    unfold pyStore
    by_cases h : k' = k
    · rw [if_pos ((same_iff hc k' k).2 h)]
      subst h
      simp only [List.mem_cons]
      constructor
      · rintro (h | h)
        · exact .inl h
        · refine .inr ⟨.inr h, fun hk => hn.1 ?_⟩
          exact hk ▸ List.mem_map_of_mem h
      · rintro (h | ⟨h | h, hk⟩)
        · exact .inl h
        · exact absurd (by rw [h]) hk
        · exact .inr h
    · rw [if_neg (fun h' => h ((same_iff hc k' k).1 h'))]
      simp only [List.mem_cons, ih hn.2]
      constructor
      · rintro (h' | h' | h')
        · exact .inr ⟨.inl h', by rw [h']; exact h⟩
        · exact .inl h'
        · exact .inr ⟨.inr h'.1, h'.2⟩
      · rintro (h' | ⟨h' | h', hk⟩)
        · exact .inr (.inl h')
        · exact .inl h'
        · exact .inr (.inr ⟨h', hk⟩)

theorem store_sim (hc : Canonical eq) (d : List (V × V)) (m : VMap V) (h : RDict d m) (k v : V) :
    RDict (pyStore eq d k v) (dictStore m k v) := by
  obtain ⟨hn, hk, hv⟩ := h
  refine ⟨?_, fun k' => ?_, fun p hp => ?_⟩
  · rw [store_keys hc]
    by_cases hm : k ∈ d.map (·.1)
    · rw [if_pos hm]; exact hn
    · rw [if_neg hm, List.nodup_append]
      refine ⟨hn, by simp, ?_⟩
      intro a ha b hb hab
      rw [List.mem_singleton] at hb
      exact hm (hb ▸ hab ▸ ha)
  · rw [store_keys hc]
    simp only [dictStore, Finset.mem_union, Finset.mem_singleton, ← hk]
    by_cases hm : k ∈ d.map (·.1)
    · rw [if_pos hm]
      constructor
      · exact .inl
      · rintro (h | rfl)
        · exact h
        · exact hm
    · rw [if_neg hm, List.mem_append, List.mem_singleton]
  · rcases (mem_store hc d hn k v p).1 hp with rfl | ⟨h1, h2⟩
    · simp [dictStore]
    · simp only [dictStore, if_neg h2]
      exact hv p h1

theorem stores_sim (hc : Canonical eq) (us : List (V × V)) (d : List (V × V)) (m : VMap V)
    (h : RDict d m) : RDict (pyStores eq d us) (dictStores m us) := by
  induction us generalizing d m with
  | nil => exact h
  | cons u us ih => exact ih _ _ (store_sim hc d m h u.1 u.2)

theorem empty_sim (dflt : V) : RDict ([] : List (V × V)) (dictEmpty dflt) := by
  simp [RDict, dictEmpty]

theorem lookup_sim (hc : Canonical eq) (d : List (V × V)) (m : VMap V) (h : RDict d m) (k : V) :
    pyLookup eq d k = dictGetitem m k := by
  obtain ⟨hn, hk, hv⟩ := h
  have key : ∀ d : List (V × V), (d.map (·.1)).Nodup → (∀ p ∈ d, m.val p.1 = p.2) →
      pyLookup eq d k = if k ∈ d.map (·.1) then some (m.val k) else none := by
    intro d
    induction d with
    | nil => intros; simp [pyLookup]
    | cons p d ih =>
      obtain ⟨k', v'⟩ := p
      intro hn hv
      unfold pyLookup
      by_cases h : k' = k
      · rw [if_pos ((same_iff hc k' k).2 h)]
        have this : m.val k' = v' := hv (k', v') List.mem_cons_self
        subst h
        simp [this]
      · rw [if_neg (fun h' => h ((same_iff hc k' k).1 h')),
          ih (List.nodup_cons.1 hn).2 (fun p hp => hv p (List.mem_cons_of_mem _ hp))]
        have hi : (k ∈ ((k', v') :: d).map (·.1)) ↔ k ∈ d.map (·.1) := by
          rw [List.map_cons, List.mem_cons]
          exact ⟨fun h' => h'.resolve_left (fun h'' => h h''.symm), .inr⟩
        by_cases hk : k ∈ d.map (·.1)
        · rw [if_pos hk, if_pos (hi.2 hk)]
        · rw [if_neg hk, if_neg (fun h' => hk (hi.1 h'))]
  rw [key d hn hv]
  unfold dictGetitem dictContains
  simp only [hk, decide_eq_true_iff]

theorem dict_card {d : List (V × V)} {m : VMap V} (h : RDict d m) : m.dom.card = d.length := by
  have : RSet (d.map (·.1)) m.dom := ⟨h.1, h.2.1⟩
  rw [card_eq this, List.length_map]

end Nagini.Members
