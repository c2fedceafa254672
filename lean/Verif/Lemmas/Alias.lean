import Verif.Spec.Alias

set_option linter.unusedVariables false
set_option linter.unusedSimpArgs false

namespace Nagini.Alias
variable {V : Type}

/-- All values of a name, the visible one first. -/
def stk (σ : State V) (n : Nat) : List V := (σ.var n).toList ++ σ.old n

/-- A name without alias has no older aliases. -/
def Inv (σ : State V) : Prop := ∀ n, σ.var n = none → σ.old n = []

mutual
/-- Number of `set`s of a name outside of nested scopes. -/
def sets (n : Nat) : Cmd V → Nat
  | .look _ => 0
  | .set k _ => if k = n then 1 else 0
  | .additional _ body => setsList n body
  | .scope _ => 0
def setsList (n : Nat) : List (Cmd V) → Nat
  | [] => 0
  | c :: cs => sets n c + setsList n cs
end

theorem var_eq_head {σ : State V} (h : Inv σ) (n : Nat) : σ.var n = (stk σ n).head? := by
  unfold stk
  cases hv : σ.var n with
  | none => simp [h n hv]
  | some v => simp

theorem stk_set (σ : State V) (h : Inv σ) (n : Nat) (v : V) (k : Nat) :
    stk (setAlias σ n v) k = if k = n then v :: stk σ k else stk σ k := by
  unfold stk setAlias
  by_cases hk : k = n
  · subst hk
    cases hv : σ.var k with
    | none => simp [h k hv]
    | some o => simp
  · cases hv : σ.var n <;> simp [hk]

theorem inv_set (σ : State V) (h : Inv σ) (n : Nat) (v : V) : Inv (setAlias σ n v) := by
  intro k hk
  unfold setAlias at hk ⊢
  by_cases hkn : k = n
  · simp [hkn] at hk
  · simp only [hkn, if_false] at hk
    cases hv : σ.var n <;> simp [hkn, h k hk]

theorem stk_remove (σ : State V) (h : Inv σ) (n k : Nat) :
    stk (removeAlias σ n) k = if k = n then (stk σ k).drop 1 else stk σ k := by
  unfold stk removeAlias
  by_cases hk : k = n
  · subst hk
    cases ho : σ.old k with
    | nil =>
      cases hv : σ.var k <;> simp [ho]
    | cons o os =>
      cases hv : σ.var k with
      | none => rw [h k hv] at ho; cases ho
      | some v => simp
  · cases ho : σ.old n <;> simp [hk]

theorem inv_remove (σ : State V) (h : Inv σ) (n : Nat) : Inv (removeAlias σ n) := by
  intro k hk
  unfold removeAlias at hk ⊢
  by_cases hkn : k = n
  · subst hkn
    cases ho : σ.old k with
    | nil => simp [ho]
    | cons o os => rw [ho] at hk; simp at hk
  · cases ho : σ.old n with
    | nil => rw [ho] at hk; simp only [hkn, if_false] at hk ⊢; exact h k hk
    | cons o os => rw [ho] at hk; simp only [hkn, if_false] at hk ⊢; exact h k hk

theorem cur_remove (σ : State V) (n : Nat) : (removeAlias σ n).cur = σ.cur ∧ (removeAlias σ n).stack = σ.stack := by
  unfold removeAlias
  cases σ.old n <;> simp

theorem cur_set (σ : State V) (n : Nat) (v : V) :
    (setAlias σ n v).cur = σ.cur ++ [n] ∧ (setAlias σ n v).stack = σ.stack := ⟨rfl, rfl⟩

theorem fold_remove (L : List Nat) (σ : State V) (h : Inv σ) :
    Inv (L.foldl removeAlias σ) ∧ (L.foldl removeAlias σ).cur = σ.cur ∧ (L.foldl removeAlias σ).stack = σ.stack ∧
    ∀ k, stk (L.foldl removeAlias σ) k = (stk σ k).drop (L.count k) := by
  induction L generalizing σ with
  | nil => exact ⟨h, rfl, rfl, fun k => by simp⟩
  | cons n L ih =>
    obtain ⟨h1, h2, h3, h4⟩ := ih (removeAlias σ n) (inv_remove σ h n)
    refine ⟨h1, h2.trans (cur_remove σ n).1, h3.trans (cur_remove σ n).2, ?_⟩
    intro k
    rw [List.foldl_cons, h4 k, stk_remove σ h n k, List.count_cons]
    by_cases hk : k = n
    · subst hk; simp [Nat.add_comm]
    · have : ¬ n = k := fun e => hk e.symm
      simp [hk, this]

theorem fold_set (as : List (Nat × V)) (σ : State V) (h : Inv σ) :
    Inv (as.foldl (fun s p => setAlias s p.1 p.2) σ) ∧
    (as.foldl (fun s p => setAlias s p.1 p.2) σ).cur = σ.cur ++ as.map (·.1) ∧
    (as.foldl (fun s p => setAlias s p.1 p.2) σ).stack = σ.stack ∧
    (∀ k, (stk (as.foldl (fun s p => setAlias s p.1 p.2) σ) k).drop ((as.map (·.1)).count k) = stk σ k) ∧
    (as.foldl (fun s p => setAlias s p.1 p.2) σ).var = extend σ.var as := by
  induction as generalizing σ with
  | nil => exact ⟨h, by simp, rfl, fun k => by simp, rfl⟩
  | cons p as ih =>
    obtain ⟨h1, h2, h3, h4, h5⟩ := ih (setAlias σ p.1 p.2) (inv_set σ h p.1 p.2)
    refine ⟨h1, ?_, h3, ?_, ?_⟩
    · rw [List.foldl_cons, h2]; simp [setAlias]
    · intro k
      rw [List.foldl_cons, List.map_cons, List.count_cons, Nat.add_comm, Nat.add_comm, ← List.drop_drop, h4 k,
        stk_set σ h]
      by_cases hk : k = p.1
      · simp [hk]
      · have : ¬ p.1 = k := fun e => hk e.symm
        simp [hk, this]
    · rw [List.foldl_cons, h5]; rfl

theorem count_filter (as : List (Nat × V)) (n : Nat) :
    (as.map (·.1)).count n = (as.filter fun p => p.1 = n).length := by
  induction as with
  | nil => rfl
  | cons p as ih =>
    rw [List.map_cons, List.count_cons, ih, List.filter_cons]
    by_cases h : p.1 = n <;> simp [h]

theorem foldl_remove_map (as : List (Nat × V)) (σ : State V) :
    as.foldl (fun s p => removeAlias s p.1) σ = (as.map (·.1)).foldl removeAlias σ := by
  induction as generalizing σ with
  | nil => rfl
  | cons p as ih => simp [ih]

/-- Effect of a command on the stacks. -/
structure Eff (σ σ' : State V) (m d e : Nat → Nat) : Prop where
  inv : Inv σ'
  cur : ∃ L, σ'.cur = σ.cur ++ L ∧ ∀ n, L.count n = m n + d n
  stack : σ'.stack = σ.stack
  stk : ∀ n, (stk σ' n).drop (m n) = (stk σ n).drop (e n)

mutual
theorem exec_eff (σ : State V) (h : Inv σ) (c : Cmd V) :
    Eff σ (exec σ c).1 (fun n => sets n c) (fun n => direct n c) (fun n => inScopes n c) := by
  match c with
  | .look n => exact ⟨h, ⟨[], by simp [exec], by simp [sets, direct]⟩, rfl, by simp [exec, sets, inScopes]⟩
  | .set n v =>
    refine ⟨inv_set σ h n v, ⟨[n], rfl, ?_⟩, rfl, ?_⟩
    · intro k
      simp only [sets, direct]
      by_cases hk : n = k <;> simp [hk]
    · intro k
      simp only [exec, sets, inScopes, stk_set σ h]
      by_cases hk : k = n
      · simp [hk]
      · have : ¬ n = k := fun e => hk e.symm
        simp [hk, this]
  | .additional as body =>
    obtain ⟨i1, c1, s1, k1, _⟩ := fold_set as σ h
    obtain ⟨i2, ⟨L, c2, l2⟩, s2, k2⟩ := execList_eff _ i1 body
    obtain ⟨i3, c3, s3, k3⟩ := fold_remove (as.map (·.1)) _ i2
    rw [exec]
    dsimp only
    rw [foldl_remove_map]
    refine ⟨i3, ⟨as.map (·.1) ++ L, ?_, ?_⟩, ?_, ?_⟩
    · rw [c3, c2, c1, List.append_assoc]
    · intro n
      rw [List.count_append, l2 n, count_filter]
      simp only [sets, direct]
      omega
    · rw [s3, s2, s1]
    · intro n
      rw [k3 n, List.drop_drop]
      simp only [sets, inScopes]
      rw [Nat.add_comm, ← List.drop_drop, k2 n, List.drop_drop, Nat.add_comm, ← List.drop_drop, k1 n]
  | .scope body =>
    have h1 : Inv { σ with stack := σ.cur :: σ.stack, cur := [] } := h
    obtain ⟨i2, ⟨L, c2, l2⟩, s2, k2⟩ := execList_eff _ h1 body
    obtain ⟨i3, c3, s3, k3⟩ := fold_remove (execList { σ with stack := σ.cur :: σ.stack, cur := [] } body).1.cur _ i2
    rw [exec]
    dsimp only
    refine ⟨i3, ⟨[], ?_, by simp [sets, direct]⟩, ?_, ?_⟩
    · rw [s3, s2]; simp
    · rw [s3, s2]; rfl
    · intro n
      have e : stk { (execList { σ with stack := σ.cur :: σ.stack, cur := [] } body).1.cur.foldl removeAlias
          (execList { σ with stack := σ.cur :: σ.stack, cur := [] } body).1 with
          cur := ((execList { σ with stack := σ.cur :: σ.stack, cur := [] } body).1.cur.foldl removeAlias
            (execList { σ with stack := σ.cur :: σ.stack, cur := [] } body).1).stack.headD []
          stack := ((execList { σ with stack := σ.cur :: σ.stack, cur := [] } body).1.cur.foldl removeAlias
            (execList { σ with stack := σ.cur :: σ.stack, cur := [] } body).1).stack.tail } n =
          stk ((execList { σ with stack := σ.cur :: σ.stack, cur := [] } body).1.cur.foldl removeAlias
            (execList { σ with stack := σ.cur :: σ.stack, cur := [] } body).1) n := rfl
      rw [e, k3 n, c2, List.nil_append, l2 n]
      have k2n : ((stk (execList { σ with stack := σ.cur :: σ.stack, cur := [] } body).1 n).drop (setsList n body)) =
        (stk σ n).drop (inScopesList n body) := k2 n
      simp only [sets, inScopes]
      rw [List.drop_zero, ← List.drop_drop, k2n, List.drop_drop, Nat.add_comm]
theorem execList_eff (σ : State V) (h : Inv σ) (cs : List (Cmd V)) :
    Eff σ (execList σ cs).1 (fun n => setsList n cs) (fun n => directList n cs) (fun n => inScopesList n cs) := by
  match cs with
  | [] => exact ⟨h, ⟨[], by simp [execList], by simp [setsList, directList]⟩, rfl, by simp [execList, setsList, inScopesList]⟩
  | c :: cs =>
    obtain ⟨i1, ⟨L1, c1, l1⟩, s1, k1⟩ := exec_eff σ h c
    obtain ⟨i2, ⟨L2, c2, l2⟩, s2, k2⟩ := execList_eff _ i1 cs
    rw [execList]
    dsimp only
    refine ⟨i2, ⟨L1 ++ L2, by rw [c2, c1, List.append_assoc], ?_⟩, by rw [s2, s1], ?_⟩
    · intro n
      rw [List.count_append, l1 n, l2 n]
      simp only [setsList, directList]
      omega
    · intro n
      simp only [setsList, inScopesList]
      rw [Nat.add_comm (sets n c), ← List.drop_drop, k2 n, List.drop_drop, Nat.add_comm, ← List.drop_drop, k1 n, List.drop_drop]
end

mutual
theorem noSet_sets (n : Nat) (c : Cmd V) (h : noSet c = true) : sets n c = 0 := by
  match c with
  | .look _ => rfl
  | .set _ _ => simp [noSet] at h
  | .additional _ body => simp only [noSet] at h; simp only [sets]; exact noSet_setsList n body h
  | .scope _ => rfl
theorem noSet_setsList (n : Nat) (cs : List (Cmd V)) (h : noSetList cs = true) : setsList n cs = 0 := by
  match cs with
  | [] => rfl
  | c :: cs =>
    simp only [noSetList, Bool.and_eq_true] at h
    simp only [setsList, noSet_sets n c h.1, noSet_setsList n cs h.2]
end

mutual
theorem cleanScope_facts (n : Nat) (c : Cmd V) (h : cleanScope c = true) :
    clean c = true ∧ direct n c = 0 ∧ inScopes n c = 0 := by
  match c with
  | .look _ => exact ⟨rfl, rfl, rfl⟩
  | .set _ _ => exact ⟨rfl, rfl, rfl⟩
  | .additional _ _ => simp [cleanScope] at h
  | .scope body =>
    simp only [cleanScope] at h
    have := cleanScopeList_facts n body h
    refine ⟨by simp only [clean]; exact h, rfl, by simp only [inScopes]; omega⟩
theorem cleanScopeList_facts (n : Nat) (cs : List (Cmd V)) (h : cleanScopeList cs = true) :
    cleanList cs = true ∧ directList n cs = 0 ∧ inScopesList n cs = 0 := by
  match cs with
  | [] => exact ⟨rfl, rfl, rfl⟩
  | c :: cs =>
    simp only [cleanScopeList, Bool.and_eq_true] at h
    have h1 := cleanScope_facts n c h.1
    have h2 := cleanScopeList_facts n cs h.2
    exact ⟨by simp [cleanList, h1.1, h2.1], by simp [directList, h1.2.1, h2.2.1], by simp [inScopesList, h1.2.2, h2.2.2]⟩
end

mutual
theorem clean_inScopes (n : Nat) (c : Cmd V) (h : clean c = true) : inScopes n c = 0 := by
  match c with
  | .look _ => rfl
  | .set _ _ => rfl
  | .additional _ body =>
    simp only [clean, Bool.and_eq_true] at h
    simp only [inScopes]
    exact cleanList_inScopes n body h.2
  | .scope body =>
    simp only [clean] at h
    have := cleanScopeList_facts n body h
    simp only [inScopes]
    omega
theorem cleanList_inScopes (n : Nat) (cs : List (Cmd V)) (h : cleanList cs = true) : inScopesList n cs = 0 := by
  match cs with
  | [] => rfl
  | c :: cs =>
    simp only [cleanList, Bool.and_eq_true] at h
    simp only [inScopesList, clean_inScopes n c h.1, cleanList_inScopes n cs h.2]
end

/-- Blocks without damage keep all names. -/
theorem var_restored {σ : State V} (h : Inv σ) (c : Cmd V) (hs : ∀ n, sets n c = 0) (hi : ∀ n, inScopes n c = 0) :
    (exec σ c).1.var = σ.var := by
  obtain ⟨i, _, _, k⟩ := exec_eff σ h c
  funext n
  have := k n
  rw [hs n, hi n] at this
  rw [var_eq_head i, var_eq_head h]
  simpa using congrArg List.head? this

mutual
theorem exec_lex (σ : State V) (h : Inv σ) (c : Cmd V) (hc : clean c = true) :
    (exec σ c).2 = (lex σ.var c).2 ∧ (exec σ c).1.var = (lex σ.var c).1 := by
  match c with
  | .look n => exact ⟨rfl, rfl⟩
  | .set n v => exact ⟨rfl, rfl⟩
  | .additional as body =>
    have hc' := hc
    simp only [clean, Bool.and_eq_true] at hc
    obtain ⟨i1, _, _, _, v1⟩ := fold_set as σ h
    have hb := execList_lex _ i1 body hc.2
    rw [v1] at hb
    constructor
    · rw [exec, lex]; exact hb.1
    · rw [var_restored h _ (fun n => by simp only [sets]; exact noSet_setsList n body hc.1) (fun n => clean_inScopes n _ hc')]
      rw [lex]
  | .scope body =>
    have hc' := hc
    simp only [clean] at hc
    have hb := execList_lex { σ with stack := σ.cur :: σ.stack, cur := [] } h body (cleanScopeList_facts 0 body hc).1
    constructor
    · rw [exec, lex]; exact hb.1
    · rw [var_restored h _ (fun n => rfl) (fun n => clean_inScopes n _ hc')]
      rw [lex]
theorem execList_lex (σ : State V) (h : Inv σ) (cs : List (Cmd V)) (hc : cleanList cs = true) :
    (execList σ cs).2 = (lexList σ.var cs).2 ∧ (execList σ cs).1.var = (lexList σ.var cs).1 := by
  match cs with
  | [] => exact ⟨rfl, rfl⟩
  | c :: cs =>
    simp only [cleanList, Bool.and_eq_true] at hc
    have h1 := exec_lex σ h c hc.1
    have h2 := execList_lex _ (exec_eff σ h c).inv cs hc.2
    rw [h1.2] at h2
    rw [execList, lexList]
    exact ⟨by dsimp only; rw [h1.1, h2.1], h2.2⟩
end

theorem inv_init : Inv (init : State V) := fun _ _ => rfl

end Nagini.Alias
