import Verif.Spec.Body
set_option linter.unusedVariables false
set_option linter.unusedSimpArgs false
namespace Nagini.Body

theorem lead_le {p : Stmt → Option Bool} {ss : List Stmt} {k : Nat} (h : lead p ss = some k) :
    k ≤ ss.length := by
  induction ss generalizing k with
  | nil => cases h; exact Nat.le_refl _
  | cons s ss ih =>
    rw [lead] at h
    split at h
    · cases h
    · cases h; exact Nat.zero_le _
    · obtain ⟨k', h1, rfl⟩ := Option.map_eq_some_iff.1 h
      have := ih h1
      simp only [List.length_cons]
      omega

theorem lead_true {p : Stmt → Option Bool} {ss : List Stmt} {k : Nat} (h : lead p ss = some k)
    (i : Nat) (hi : i < k) (s : Stmt) (hs : ss[i]? = some s) : p s = some true := by
  induction ss generalizing k i with
  | nil => simp at hs
  | cons a ss ih =>
    rw [lead] at h
    split at h
    · cases h
    · cases h; omega
    · rename_i hp
      obtain ⟨k', h1, rfl⟩ := Option.map_eq_some_iff.1 h
      cases i with
      | zero => simp only [List.getElem?_cons_zero, Option.some.injEq] at hs; rw [← hs]; exact hp
      | succ i => exact ih h1 i (by omega) (by simpa using hs)

theorem lead_stop {p : Stmt → Option Bool} {ss : List Stmt} {k : Nat} (h : lead p ss = some k)
    (s : Stmt) (hs : ss[k]? = some s) : p s = some false := by
  induction ss generalizing k with
  | nil => simp at hs
  | cons a ss ih =>
    rw [lead] at h
    split at h
    · cases h
    · rename_i hp
      cases h
      simp only [List.getElem?_cons_zero, Option.some.injEq] at hs
      rw [← hs]; exact hp
    · rename_i hp
      obtain ⟨k', h1, rfl⟩ := Option.map_eq_some_iff.1 h
      exact ih h1 (by simpa using hs)

theorem lead_append {p : Stmt → Option Bool} {a b : List Stmt} (ha : ∀ s ∈ a, p s = some true) :
    lead p (a ++ b) = (lead p b).map (a.length + ·) := by
  induction a with
  | nil => simp
  | cons s a ih =>
    rw [List.cons_append, lead, ha s (by simp)]
    simp only []
    rw [ih (fun x hx => ha x (by simp [hx]))]
    cases lead p b with
    | none => rfl
    | some k => simp; omega

theorem lead_cons_false {p : Stmt → Option Bool} {s : Stmt} {b : List Stmt}
    (h : p s = some false) : lead p (s :: b) = some 0 := by rw [lead, h]

theorem phases_le {ps : List (Stmt → Option Bool)} {ss : List Stmt} {k : Nat}
    (h : phases ps ss = some k) : k ≤ ss.length := by
  induction ps generalizing ss k with
  | nil => cases h; exact Nat.zero_le _
  | cons p ps ih =>
    rw [phases] at h
    cases hl : lead p ss with
    | none => rw [hl] at h; cases h
    | some j =>
      rw [hl] at h
      obtain ⟨k', h1, rfl⟩ := Option.map_eq_some_iff.1 h
      have := ih h1
      have := lead_le hl
      rw [List.length_drop] at *
      omega

theorem phases_true {ps : List (Stmt → Option Bool)} {ss : List Stmt} {k : Nat}
    (h : phases ps ss = some k) (i : Nat) (hi : i < k) (s : Stmt) (hs : ss[i]? = some s) :
    ∃ p ∈ ps, p s = some true := by
  induction ps generalizing ss k i with
  | nil => cases h; omega
  | cons p ps ih =>
    rw [phases] at h
    cases hl : lead p ss with
    | none => rw [hl] at h; cases h
    | some j =>
      rw [hl] at h
      obtain ⟨k', h1, rfl⟩ := Option.map_eq_some_iff.1 h
      by_cases hij : i < j
      · exact ⟨p, by simp, lead_true hl i hij s hs⟩
      · obtain ⟨q, hq, h2⟩ := ih h1 (i - j) (by omega)
          (by rw [List.getElem?_drop, show j + (i - j) = i by omega]; exact hs)
        exact ⟨q, by simp [hq], h2⟩

/-- The last two phases: what precedes the start is not a postcondition, or what follows is
not. -/
theorem phases_last {ps : List (Stmt → Option Bool)} {p q : Stmt → Option Bool} {ss : List Stmt}
    {k : Nat} (hpq : ∀ s, q s = some true → p s = some false)
    (h : phases (ps ++ [p, q]) ss = some k) (s : Stmt) (hs : ss[k]? = some s) :
    p s = some false ∨ ∃ s', 0 < k ∧ ss[k - 1]? = some s' ∧ p s' = some false := by
  induction ps generalizing ss k with
  | nil =>
    simp only [List.nil_append] at h
    rw [phases] at h
    cases hl : lead p ss with
    | none => rw [hl] at h; cases h
    | some j =>
      rw [hl] at h
      obtain ⟨k', h1, rfl⟩ := Option.map_eq_some_iff.1 h
      rw [phases] at h1
      cases hl2 : lead q (ss.drop j) with
      | none => rw [hl2] at h1; cases h1
      | some j2 =>
        rw [hl2] at h1
        simp only [phases, Option.map_some, Option.some.injEq, Nat.add_zero] at h1
        subst h1
        cases j2 with
        | zero => exact .inl (lead_stop hl s hs)
        | succ j2 =>
          have hlen : j + (j2 + 1) < ss.length := by
            rw [List.getElem?_eq_some_iff] at hs
            exact hs.1
          right
          have hx : ss[j + j2]? = some (ss[j + j2]'(by omega)) := List.getElem?_eq_getElem _
          refine ⟨_, by omega, by rw [show j + (j2 + 1) - 1 = j + j2 by omega]; exact hx, hpq _ ?_⟩
          exact lead_true hl2 j2 (by omega) _ (by rw [List.getElem?_drop]; exact hx)
  | cons r ps ih =>
    rw [List.cons_append, phases] at h
    cases hl : lead r ss with
    | none => rw [hl] at h; cases h
    | some j =>
      rw [hl] at h
      obtain ⟨k', h1, rfl⟩ := Option.map_eq_some_iff.1 h
      rcases ih h1 (by rw [List.getElem?_drop]; exact hs) with h2 | ⟨s', h2, h3, h4⟩
      · exact .inl h2
      · refine .inr ⟨s', by omega, ?_, h4⟩
        rw [List.getElem?_drop] at h3
        rw [show j + k' - 1 = j + (k' - 1) by omega]
        exact h3

theorem exsures_not_ensures (s : Stmt) (h : isNamed .exsures s = some true) :
    isNamed .ensures s = some false := by
  unfold isNamed at *
  cases hf : funcName s with
  | none => rw [hf] at h; cases h
  | some o =>
    rw [hf] at h
    simp only [Option.map_some, Option.some.injEq, beq_iff_eq] at h
    subst h
    rfl

/-- Trailing postconditions never reach into the contract. -/
theorem indices_le {ss : List Stmt} {a b : Nat} (h : bodyIndices ss = some (a, b)) :
    a ≤ b ∧ b ≤ ss.length := by
  unfold bodyIndices at h
  cases hp : phases order ss with
  | none => rw [hp] at h; cases h
  | some start =>
    rw [hp] at h
    simp only [] at h
    have hle := phases_le hp
    split at h
    · rename_i hne
      obtain ⟨k, hk, he⟩ := Option.map_eq_some_iff.1 h
      obtain ⟨rfl, rfl⟩ := Prod.mk.injEq .. ▸ he
      refine ⟨?_, by omega⟩
      have hk' := lead_le hk
      rw [List.length_reverse] at hk'
      refine Classical.byContradiction fun hcon => ?_
      have hlt : start < ss.length := by omega
      have hget : ss[start]? = some (ss[start]'hlt) := List.getElem?_eq_getElem _
      have tl : ∀ i, ss.length - k ≤ i → i < ss.length → ∀ s, ss[i]? = some s →
          isNamed .ensures s = some true := by
        intro i h1 h2 s hs
        refine lead_true hk (ss.length - 1 - i) (by omega) s ?_
        rw [List.getElem?_reverse (by omega), show ss.length - 1 - (ss.length - 1 - i) = i by omega]
        exact hs
      rcases phases_last (ps := [isDoc, isGlobal, isIO, isNamed .invariant, isNamed .requires,
        isNamed .decreases]) exsures_not_ensures hp _ hget with h1 | ⟨s', h0, h1, h2⟩
      · have := tl start (by omega) hlt _ hget
        rw [h1] at this
        cases this
      · have := tl (start - 1) (by omega) (by omega) s' h1
        rw [h2] at this
        cases this
    · cases h
      exact ⟨hle, Nat.le_refl _⟩

/-- What lies outside of the window satisfies one of the predicates. -/
theorem indices_outside {ss : List Stmt} {a b : Nat} (h : bodyIndices ss = some (a, b)) (i : Nat)
    (hi : i < a ∨ b ≤ i) (s : Stmt) (hs : ss[i]? = some s) : ∃ p ∈ order, p s = some true := by
  have hil : i < ss.length := (List.getElem?_eq_some_iff.1 hs).1
  unfold bodyIndices at h
  cases hp : phases order ss with
  | none => rw [hp] at h; cases h
  | some start =>
    rw [hp] at h
    simp only [] at h
    split at h
    · obtain ⟨k, hk, he⟩ := Option.map_eq_some_iff.1 h
      cases he
      rcases hi with hi | hi
      · exact phases_true hp i hi s hs
      · refine ⟨isNamed .ensures, by simp [order], lead_true hk (ss.length - 1 - i) (by omega) s ?_⟩
        have hk' := lead_le hk
        rw [List.length_reverse] at hk'
        rw [List.getElem?_reverse (by omega), show ss.length - 1 - (ss.length - 1 - i) = i by omega]
        exact hs
    · cases h
      rcases hi with hi | hi
      · exact phases_true hp i hi s hs
      · omega

theorem fnName_last {f : Fn} {n : Nm} (h : fnName f = some (some n)) : lastName f = some n := by
  induction f with
  | name m => simpa [fnName, lastName] using h
  | attr m => simpa [fnName, lastName] using h
  | call f ih => exact ih h
  | subscript => simp [fnName] at h
  | weird => simp [fnName] at h

theorem genuine_of_order {s : Stmt} (hd : Disguised s = false) {p} (hp : p ∈ order)
    (h : p s = some true) : Genuine s := by
  have named : ∀ n, contractName n = true → isNamed n s = some true → s = .call (.name n) := by
    intro n hn hs
    unfold isNamed at hs
    cases s with
    | str => simp [funcName] at hs
    | glob => simp [funcName] at hs
    | other k => simp [funcName] at hs
    | call f =>
      simp only [funcName] at hs
      obtain ⟨o, h1, h2⟩ := Option.map_eq_some_iff.1 hs
      simp only [beq_iff_eq] at h2
      subst h2
      have hl := fnName_last h1
      cases f with
      | name m => simp [lastName] at hl; rw [hl]
      | attr m => simp [Disguised, lastName] at hd hl; rw [hl, hn] at hd; cases hd
      | call g => simp only [Disguised, hl, hn] at hd; cases hd
      | subscript => simp [lastName] at hl
      | weird => simp [lastName] at hl
  simp only [order, List.mem_cons, List.not_mem_nil, or_false] at hp
  rcases hp with rfl | rfl | rfl | rfl | rfl | rfl | rfl | rfl
  · simp [isDoc] at h; rw [h]; trivial
  · simp [isGlobal] at h; rw [h]; trivial
  · simp [isIO] at h; rw [h]; trivial
  · rw [named _ rfl h]; trivial
  · rw [named _ rfl h]; trivial
  · rw [named _ rfl h]; trivial
  · rw [named _ rfl h]; trivial
  · rw [named _ rfl h]; trivial

/-- A canonical contract is recognised completely. -/
theorem phases_canonical : ∀ (ps : List (Stmt → Option Bool)) (blocks : List (List Stmt))
    (rest : List Stmt), blocks.length = ps.length →
    (∀ (i : Nat) p b, ps[i]? = some p → blocks[i]? = some b → ∀ s ∈ b, p s = some true) →
    (∀ (i j : Nat) p b, i < j → ps[i]? = some p → blocks[j]? = some b → ∀ s ∈ b, p s = some false) →
    (∀ p ∈ ps, ∀ s, rest.head? = some s → p s = some false) →
    phases ps (blocks.flatten ++ rest) = some blocks.flatten.length := by
  intro ps
  induction ps with
  | nil =>
    intro blocks rest hl _ _ _
    cases blocks with
    | nil => rfl
    | cons b bs => simp at hl
  | cons p ps ih =>
    intro blocks rest hl h1 h2 h3
    cases blocks with
    | nil => simp at hl
    | cons b bs =>
      have hb : ∀ s ∈ b, p s = some true := h1 0 p b rfl rfl
      have hrest : lead p (bs.flatten ++ rest) = some 0 := by
        cases hr : bs.flatten ++ rest with
        | nil => rfl
        | cons s t =>
          apply lead_cons_false
          have hs : s ∈ bs.flatten ∨ (rest.head? = some s) := by
            cases hf : bs.flatten with
            | nil => rw [hf, List.nil_append] at hr; right; rw [hr]; rfl
            | cons x y => rw [hf] at hr; cases hr; left; simp
          rcases hs with hs | hs
          · obtain ⟨c, hc, hsc⟩ := List.mem_flatten.1 hs
            obtain ⟨j, hj⟩ := List.getElem?_of_mem hc
            exact h2 0 (j + 1) p c (by omega) rfl (by simpa using hj) s hsc
          · exact h3 p (by simp) s hs
      rw [List.flatten_cons, List.append_assoc, phases, lead_append hb, hrest]
      simp only [Option.map_some, Nat.add_zero]
      rw [List.drop_left, ih bs rest (by simpa using hl)
        (fun i q c hq hc => h1 (i + 1) q c (by simpa using hq) (by simpa using hc))
        (fun i j q c hij hq hc => h2 (i + 1) (j + 1) q c (by omega) (by simpa using hq) (by simpa using hc))
        (fun q hq => h3 q (by simp [hq]))]
      simp

end Nagini.Body
