import Verif.Lemmas.Guards
/-!
C31: guards of obligations.
-/
namespace Nagini.Guards

/-- **C31**: for every contract and every state in which it holds, the collection succeeds and the
instances with true guards are the obligations reached when the contract is evaluated, in order
and with multiplicity. -/
theorem C31_guards_exact (contract : List A) :
    ∃ out, traverseAll [] contract = some out ∧
      ∀ σ, (∀ a ∈ contract, a.val σ = true) → active σ out = contract.flatMap (·.reach σ) := by
  refine ⟨contract.flatMap (coll []), by rw [traverseAll_eq]; rfl, fun σ h => ?_⟩
  induction contract with
  | nil => rfl
  | cons a as ih =>
    rw [List.flatMap_cons, List.flatMap_cons, active_append, active_coll,
      ih fun b hb => h b (List.mem_cons_of_mem _ hb), inhaled_reach σ a (h a List.mem_cons_self)]
    simp

/-- **C31, all states**: also in states in which the contract does not hold, the instances with
true guards are those that inhaling the contract adds, conjunct by conjunct. -/
theorem C31_guards_inhale (contract : List A) :
    ∃ out, traverseAll [] contract = some out ∧
      ∀ σ, active σ out = contract.flatMap (·.inhaled σ) := by
  refine ⟨contract.flatMap (coll []), by rw [traverseAll_eq]; rfl, fun σ => ?_⟩
  induction contract with
  | nil => rfl
  | cons a as ih => rw [List.flatMap_cons, List.flatMap_cons, active_append, active_coll, ih]; simp

/-- **C31, single occurrence**: if an obligation occurs once in assertion position of a contract
and not in its conditions, its recorded guard holds iff evaluation reaches it (in states in which
the contract holds). -/
theorem C31_occurrence (contract : List A) (out : List (Nat × List Cond))
    (h : traverseAll [] contract = some out) (k : Nat) (g : List Cond) (hk : lookup out k = some g)
    (h1 : (contract.flatMap (·.asserted)).count k = 1) (σ : Nat → Bool)
    (hσ : ∀ a ∈ contract, a.val σ = true) :
    g.all (·.holds σ) = true ↔ k ∈ contract.flatMap (·.reach σ) := by
  obtain ⟨out', ho, hr⟩ := C31_guards_exact contract
  cases h.symm.trans ho
  have hids : out.map (·.1) = contract.flatMap (·.asserted) := by
    rw [traverseAll_eq] at h
    cases h
    rw [List.nil_append]
    clear ho hr hk h1 hσ
    induction contract with
    | nil => rfl
    | cons a as ih => rw [List.flatMap_cons, List.flatMap_cons, List.map_append, coll_ids, ih]
  rw [← hr σ hσ]
  rw [← hids] at h1
  clear hr ho h hσ hids
  induction out with
  | nil => simp [lookup] at hk
  | cons p out ih =>
    rw [List.map_cons, List.count_cons] at h1
    by_cases hp : p.1 = k
    · have hkg : p.2 = g := by simpa [lookup, hp] using hk
      have h0 : (out.map (·.1)).count k = 0 := by simpa [hp] using h1
      have hni : k ∉ active σ out := fun hm => by
        obtain ⟨q, hq, hqk⟩ := List.mem_map.1 hm
        exact List.count_eq_zero.1 h0 (List.mem_map.2 ⟨q, (List.mem_filter.1 hq).1, hqk⟩)
      have : active σ (p :: out) = active σ [p] ++ active σ out := active_append σ [p] out
      rw [this]
      simp only [List.mem_append, hni, or_false]
      simp only [active, List.filter_cons, List.filter_nil, hkg]
      cases hg : g.all (·.holds σ) <;> simp [hp]
    · have hkg : lookup out k = some g := by simpa [lookup, hp] using hk
      have h0 : (out.map (·.1)).count k = 1 := by simpa [hp] using h1
      refine (ih hkg h0).trans ?_
      have : active σ (p :: out) = active σ [p] ++ active σ out := active_append σ [p] out
      rw [this, List.mem_append]
      constructor
      · exact Or.inr
      · rintro (hm | hm)
        · obtain ⟨q, hq, hqk⟩ := List.mem_map.1 hm
          have := (List.mem_filter.1 hq).1
          simp only [List.mem_singleton] at this
          exact absurd (this ▸ hqk) hp
        · exact hm

/-- **C31, nothing is collected without being asserted and conversely**: an obligation inside of
a condition is found by no lookup (translating it raises an error), every other one is. -/
theorem C31_collected (contract : List A) (out : List (Nat × List Cond))
    (h : traverseAll [] contract = some out) (k : Nat) :
    (lookup out k).isSome = true ↔ k ∈ contract.flatMap (·.asserted) := by
  rw [lookup_isSome]
  rw [traverseAll_eq] at h
  cases h
  rw [List.nil_append]
  induction contract with
  | nil => simp
  | cons a as ih =>
    rw [List.flatMap_cons, List.flatMap_cons, List.map_append, coll_ids, List.mem_append, ih,
      List.mem_append]

/-- **C31, promises**: the disjunction of the guards (`tcond` without measures) holds iff some
obligation is reached. -/
theorem C31_some_active (contract : List A) :
    ∃ out, traverseAll [] contract = some out ∧
      ∀ σ, (∀ a ∈ contract, a.val σ = true) →
        (out.any (fun p => p.2.all (·.holds σ)) = true ↔ ∃ a ∈ contract, a.reach σ ≠ []) := by
  obtain ⟨out, ho, h⟩ := C31_guards_exact contract
  refine ⟨out, ho, fun σ hσ => ?_⟩
  have h1 := h σ hσ
  constructor
  · intro ha
    obtain ⟨p, hp, hg⟩ := List.any_eq_true.1 ha
    have hm : p.1 ∈ active σ out := List.mem_map.2 ⟨p, List.mem_filter.2 ⟨hp, hg⟩, rfl⟩
    rw [h1] at hm
    obtain ⟨a, ha, hk⟩ := List.mem_flatMap.1 hm
    exact ⟨a, ha, fun e => by rw [e] at hk; cases hk⟩
  · rintro ⟨a, ha, hne⟩
    obtain ⟨k, hk⟩ := List.exists_mem_of_ne_nil _ hne
    have hm : k ∈ active σ out := h1 ▸ List.mem_flatMap.2 ⟨a, ha, hk⟩
    obtain ⟨p, hp, _⟩ := List.mem_map.1 hm
    obtain ⟨hp, hg⟩ := List.mem_filter.1 hp
    exact List.any_eq_true.2 ⟨p, hp, hg⟩

/-- Non-vacuity: `Implies(x0, MustTerminate(1) if x1 else MustRelease(l)) and x2`. -/
example :
    traverseAll [] [.and (.implies (.atom 0) (.ife (.atom 1) (.obl 10) (.obl 11))) (.atom 2)] =
      some [(10, [.pos (.atom 0), .pos (.atom 1)]), (11, [.pos (.atom 0), .neg (.atom 1)])] ∧
    (A.and (.implies (.atom 0) (.ife (.atom 1) (.obl 10) (.obl 11))) (.atom 2)).reach
      (fun x => x != 1) = [11] ∧
    (A.and (.implies (.atom 0) (.ife (.atom 1) (.obl 10) (.obl 11))) (.atom 2)).val
      (fun x => x != 1) = true := by decide

end Nagini.Guards
