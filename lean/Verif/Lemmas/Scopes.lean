import Verif.Spec.Scopes
import Mathlib.Tactic.Common

namespace Nagini.Scopes

theorem lookup_some {l : List (Nat × Ent)} {n : Nat} {e : Ent} (h : l.lookup n = some e) :
    (n, e) ∈ l := by
  induction l with
  | nil => cases h
  | cons p l ih =>
    rcases p with ⟨m, a⟩
    rw [List.lookup_cons] at h
    by_cases hm : n = m
    · subst hm
      simp at h
      subst h
      simp
    · have hb : (n == m) = false := by simpa using hm
      rw [hb] at h
      exact List.mem_cons_of_mem _ (ih h)

theorem lookup_of_mem {l : List (Nat × Ent)} {n : Nat} (h : ∃ e, (n, e) ∈ l) :
    ∃ e, l.lookup n = some e := by
  induction l with
  | nil => obtain ⟨e, he⟩ := h; cases he
  | cons p l ih =>
    rcases p with ⟨m, a⟩
    rw [List.lookup_cons]
    by_cases hm : n = m
    · subst hm
      exact ⟨a, by simp⟩
    · have hb : (n == m) = false := by simpa using hm
      rw [hb]
      obtain ⟨e, he⟩ := h
      refine ih ⟨e, ?_⟩
      rcases List.mem_cons.1 he with h' | h'
      · cases h'; exact absurd rfl hm
      · exact h'

theorem findEntry_append (n : Nat) (a b : List Contents) :
    findEntry n (a ++ b) = (findEntry n a).or (findEntry n b) := by
  induction a with
  | nil => simp [findEntry]
  | cons c a ih =>
    simp only [List.cons_append, findEntry]
    cases c n with
    | none => exact ih
    | some e => rfl

theorem bound_eq (p : Nat × Option Nat) : bound p = p.2.getD p.1 := by
  rcases p with ⟨a, _ | b⟩ <;> rfl

theorem foldl_names (ns : List (Nat × Option Nat)) (n : Nat) (r : Option Nat) :
    ns.foldl (fun r p => if p.2.getD p.1 = n then some p.1 else r) r = (pyNames ns n).or r := by
  induction ns generalizing r with
  | nil => simp [pyNames]
  | cons p ns ih =>
    rw [List.foldl_cons, ih]
    have : pyNames (p :: ns) n = (pyNames ns n).or (if p.2.getD p.1 = n then some p.1 else none) := by
      unfold pyNames
      rw [List.reverse_cons, List.find?_append]
      cases List.find? _ ns.reverse with
      | some x => rfl
      | none =>
        simp only [Option.none_or, List.find?_cons, List.find?_nil, Option.map_none, bound_eq p]
        by_cases h : p.2.getD p.1 = n <;> simp [h]
    rw [this]
    cases pyNames ns n with
    | some k => rfl
    | none =>
      by_cases h : p.2.getD p.1 = n <;> simp [h]

theorem viewNames_eq (ns : List (Nat × Option Nat)) (n : Nat) : viewNames ns n = pyNames ns n := by
  rw [viewNames, foldl_names, Option.or_none]

theorem pyNames_mem {ns : List (Nat × Option Nat)} {n k : Nat} (h : pyNames ns n = some k) :
    ∃ p ∈ ns, bound p = n := by
  unfold pyNames at h
  rw [Option.map_eq_some_iff] at h
  obtain ⟨p, hp, _⟩ := h
  refine ⟨p, by simpa using List.mem_of_find?_eq_some hp, ?_⟩
  have := List.find?_some hp
  simpa only [decide_eq_true_eq] using this

theorem viewContents_eq (ns : List (Nat × Option Nat)) (cs : List Contents) (n : Nat) :
    viewContents ns cs n = match pyNames ns n with | none => none | some k => findEntry k cs := by
  rw [viewContents, viewNames_eq]
  cases pyNames ns n <;> rfl

mutual
theorem Mod.occurs_of_find : (m : Mod) → (n : Nat) → ¬ m.occurs n → findEntry n m.included = none
  | .mk own imports, n, h => by
    rw [Mod.occurs, not_or] at h
    rw [Mod.included, findEntry]
    cases hl : own.lookup n with
    | some e => exact absurd ⟨e, lookup_some hl⟩ h.1
    | none => exact Imports.occurs_of_find imports n h.2
theorem Imports.occurs_of_find : (i : Imports) → (n : Nat) → ¬ i.occurs n →
    findEntry n i.included = none
  | .nil, n, _ => by rw [Imports.included, findEntry]
  | .cons none m rest, n, h => by
    rw [Imports.occurs, not_or] at h
    rw [Imports.included, findEntry_append, Mod.occurs_of_find m n h.1,
      Imports.occurs_of_find rest n h.2]
    rfl
  | .cons (some ns) (.mk own imports) rest, n, h => by
    rw [Imports.occurs, not_or, not_or, Mod.occurs, not_or] at h
    rw [Imports.included, findEntry, viewContents_eq]
    cases hp : pyNames ns n with
    | some k => exact absurd (pyNames_mem hp) h.1
    | none =>
      show findEntry n (imports.included ++ rest.included) = none
      rw [findEntry_append, Imports.occurs_of_find imports n h.2.1.2,
        Imports.occurs_of_find rest n h.2.2]
      rfl
end

mutual
theorem Mod.occurs_of_py : (m : Mod) → (n : Nat) → ¬ m.occurs n → m.py n = none
  | .mk own imports, n, h => by
    rw [Mod.occurs, not_or] at h
    rw [Mod.py]
    cases hl : own.lookup n with
    | some e => exact absurd ⟨e, lookup_some hl⟩ h.1
    | none => exact Imports.occurs_of_py imports n h.2
theorem Imports.occurs_of_py : (i : Imports) → (n : Nat) → ¬ i.occurs n → i.py n = none
  | .nil, n, _ => by rw [Imports.py]
  | .cons none m rest, n, h => by
    rw [Imports.occurs, not_or] at h
    rw [Imports.py, Imports.occurs_of_py rest n h.2]
    exact Mod.occurs_of_py m n h.1
  | .cons (some ns) m rest, n, h => by
    rw [Imports.occurs, not_or, not_or] at h
    rw [Imports.py, Imports.occurs_of_py rest n h.2.2]
    cases hp : pyNames ns n with
    | some k => exact absurd (pyNames_mem hp) h.1
    | none => rfl
end

mutual
/-- Clear names are found as in Python. -/
theorem Mod.find_eq : (m : Mod) → (n : Nat) → m.clear n → findEntry n m.included = m.py n
  | .mk own imports, n, h => by
    rw [Mod.included, findEntry, Mod.py]
    cases hl : own.lookup n with
    | some e => rfl
    | none =>
      rw [Mod.clear] at h
      rcases h with h | h
      · obtain ⟨e, he⟩ := lookup_of_mem h
        rw [hl] at he
        cases he
      · exact Imports.find_eq imports n h
theorem Imports.find_eq : (i : Imports) → (n : Nat) → i.clear n → findEntry n i.included = i.py n
  | .nil, n, _ => by rw [Imports.included, Imports.py, findEntry]
  | .cons none m rest, n, h => by
    rw [Imports.clear] at h
    rw [Imports.included, findEntry_append, Mod.find_eq m n h.1, Imports.find_eq rest n h.2.1,
      Imports.py]
    by_cases hm : m.occurs n
    · rw [Imports.occurs_of_py rest n (fun hr => h.2.2 ⟨hm, hr⟩), Option.or_none]
    · rw [Mod.occurs_of_py m n hm, Option.none_or]
      cases rest.py n <;> rfl
  | .cons (some ns) (.mk own imports) rest, n, h => by
    rw [Imports.included, findEntry, viewContents_eq, Imports.py]
    rw [Imports.clear] at h
    cases hp : pyNames ns n with
    | some k =>
      rw [hp] at h
      obtain ⟨h1, h2, h3⟩ := h
      have he := Mod.find_eq (.mk own imports) k h1
      rw [Mod.included] at he
      rw [Imports.occurs_of_py rest n h3]
      simp only
      rw [he]
      obtain ⟨e, h2⟩ := Option.isSome_iff_exists.1 h2
      rw [h2]
    | none =>
      rw [hp] at h
      obtain ⟨h1, h2⟩ := h
      show findEntry n (imports.included ++ rest.included) = _
      rw [findEntry_append, Imports.occurs_of_find imports n h1, Option.none_or,
        Imports.find_eq rest n h2]
      cases rest.py n <;> rfl
end

/-- The search in the containers. -/
theorem getTarget_eq (p : Place) (n : Nat) :
    getTarget p n = (p.aliases n).or (((p.cls.bind (· n)).or ((p.function.bind (· n)).or
      ((findEntry n p.module.included).or (p.builtins n))))) := by
  have one : ∀ c : Contents, findEntry n [c] = c n := by
    intro c
    unfold findEntry
    cases c n <;> rfl
  have opt : ∀ o : Option Contents, findEntry n o.toList = o.bind (· n) := by
    intro o
    cases o with
    | none => rfl
    | some c => exact one c
  rw [getTarget]
  simp only [findEntry_append, one, opt, Option.or_assoc]

/-- Python's resolution as a chain. -/
theorem pyResolve_eq (p : Place) (n : Nat) :
    pyResolve p n = (p.aliases n).or (((if p.function.isSome then none else p.cls.bind (· n))).or
      ((p.function.bind (· n)).or ((p.module.py n).or (p.builtins n)))) := by
  unfold pyResolve
  cases p.aliases n with
  | some e => rfl
  | none =>
    cases p.function with
    | some f =>
      cases hf : f n <;> cases p.module.py n <;> simp [hf]
    | none =>
      cases p.cls with
      | none => cases p.module.py n <;> simp
      | some c => cases hc : c n <;> cases p.module.py n <;> simp [hc]

end Nagini.Scopes
