import Verif.Lemmas.Ghost
set_option linter.unusedVariables false
set_option linter.unusedSimpArgs false
namespace Nagini.Ghost

variable {P : Prog} {Γ : Nat → Bool}

/-! ### Expressions -/

theorem plainAll_raw : ∀ es : List Expr, AExpr.plainAll (es.map .raw) = es
  | [] => rfl
  | e :: es => by simp [AExpr.plainAll, AExpr.plain, plainAll_raw es]

theorem convert_plain (a : AExpr) (g p : Bool) : (convert a g p).plain = a.plain := by
  unfold convert
  split
  · cases a <;> rfl
  · rfl

mutual
theorem isGhost_plain (ctx : Bool) : ∀ (e : Expr) {a : AExpr} {g : Bool}, isGhost P Γ ctx e = some (a, g) → a.plain = e
  | .node h es, a, g, hh => by
    unfold isGhost at hh
    split at hh
    · split at hh
      · cases hh
      · rename_i as has
        cases hh
        simp [AExpr.plain, isGhostAll_plain ctx es has]
    · cases hh; simp [AExpr.plain, plainAll_raw]
    · split at hh
      · cases hh
      · rename_i as has
        cases hh
        simp [AExpr.plain, isGhostAll_plain ctx es has]
    · split at hh
      · cases hh
      · split at hh
        · cases hh
        · rename_i as has
          split at hh
          · cases hh
          · cases hh
            simp [AExpr.plain, isGhostAll_plain ctx es has]
    · split at hh
      · cases hh
      · split at hh
        · cases hh
        · split at hh
          · split at hh
            · cases hh
            · cases hh; rfl
          · split at hh
            · cases hh
            · cases hh; rfl
            · rename_i as has
              cases hh
              simp [AExpr.plain, checkArgs_plain _ _ es has]
    · split at hh
      · cases hh
      · rename_i as has
        cases hh
        simp [AExpr.plain, isGhostAll_plain ctx es has]

theorem isGhostAll_plain (ctx : Bool) : ∀ (es : List Expr) {as : List (AExpr × Bool)}, isGhostAll P Γ ctx es = some as →
    AExpr.plainAll (as.map (·.1)) = es
  | [], as, h => by simp [isGhostAll] at h; subst h; rfl
  | e :: es, as, h => by
    unfold isGhostAll at h
    split at h
    · cases h
    · rename_i a ha
      split at h
      · cases h
      · rename_i as' has
        cases h
        obtain ⟨a, g⟩ := a
        simp [AExpr.plainAll, isGhost_plain ctx e ha, isGhostAll_plain ctx es has]

theorem checkArgs_plain (pure : Bool) : ∀ (ps : List Bool) (es : List Expr) {as : List AExpr},
    checkArgs P Γ pure ps es = some (some as) → AExpr.plainAll as = es
  | [], [], as, h => by simp [checkArgs] at h; subst h; rfl
  | _ :: _, [], as, h => by simp [checkArgs] at h
  | [], _ :: _, as, h => by simp [checkArgs] at h
  | p :: ps, e :: es, as, h => by
    unfold checkArgs at h
    split at h
    · cases h
    · rename_i a g ha
      split at h
      · split at h
        · split at h <;> cases h
        · cases h
      · split at h
        · cases h
        · split at h <;> cases h
        · rename_i as' has
          cases h
          simp [AExpr.plainAll, convert_plain, isGhost_plain p e ha, checkArgs_plain pure ps es has]
end

mutual
/-- In ghost code the checker finds impure calls. -/
theorem isGhost_true : ∀ (e : Expr) {a : AExpr} {g : Bool}, isGhost P Γ true e = some (a, g) → quiet P e = true →
    noImpure P e = true ∧ a.fl.ghost = g ∧ a.impureCall = false
  | .node h es, a, g, hh, hq => by
    unfold isGhost at hh
    unfold quiet at hq
    rw [Bool.and_eq_true] at hq
    have hl : ∀ {as : List (AExpr × Bool)}, isGhostAll P Γ true es = some as → noImpures P es = true :=
      fun has => isGhostAll_true es has hq.2
    split at hh
    · split at hh
      · cases hh
      · rename_i as has
        cases hh
        simp only [noImpure, hl has, AExpr.fl, AExpr.impureCall, Head.isCall, Bool.true_and, Bool.false_and, and_self]
    · cases hh
      simp only [noImpure, hq.1, Bool.true_and, AExpr.fl, AExpr.impureCall, Head.isCall, Bool.false_and, and_self]
    · split at hh
      · cases hh
      · rename_i as has
        cases hh
        simp only [noImpure, hl has, AExpr.fl, AExpr.impureCall, Head.isCall, Bool.true_and, Bool.not_true, and_self]
    · simp at hh
    · split at hh
      · cases hh
      · rename_i fn hf
        split at hh
        · cases hh
        · rename_i hn
          simp only [Bool.true_or, if_true] at hh
          split at hh
          · cases hh
          · rename_i as has
            cases hh
            refine ⟨?_, rfl, rfl⟩
            simp only [noImpure, hl has, hf, Bool.and_true]
            revert hn
            cases fn.ghost <;> cases fn.pure <;> simp
    · rename_i h3 h4 h5 h6 h7
      split at hh
      · cases hh
      · rename_i as has
        cases hh
        refine ⟨?_, rfl, ?_⟩
        · unfold noImpure
          split
          · exact absurd rfl (h6 _)
          · exact absurd rfl (h7 _)
          · simpa using hl has
        · simp [AExpr.impureCall]

theorem isGhostAll_true : ∀ (es : List Expr) {as : List (AExpr × Bool)}, isGhostAll P Γ true es = some as →
    quiets P es = true → noImpures P es = true
  | [], as, h, _ => by simp [noImpures]
  | e :: es, as, h, hq => by
    unfold quiets at hq
    rw [Bool.and_eq_true] at hq
    unfold isGhostAll at h
    split at h
    · cases h
    · rename_i a ha
      split at h
      · cases h
      · rename_i as' has
        obtain ⟨a, g⟩ := a
        simp [noImpures, (isGhost_true e ha hq.1).1, isGhostAll_true es has hq.2]
end
theorem assignable_arg {p g : Bool} : assignable p g p true = (!g || p) := by cases p <;> cases g <;> rfl

mutual
/-- The checker finds out whether a value is ghost. -/
theorem isGhost_ghostly : ∀ (e : Expr) {a : AExpr} {g : Bool}, isGhost P Γ false e = some (a, g) →
    g = ghostly P Γ e ∧ (a.fl.ghost = true → g = true)
  | .node h es, a, g, hh => by
    unfold isGhost at hh
    unfold ghostly
    split at hh
    · split at hh
      · cases hh
      · rename_i as has
        cases hh
        exact ⟨by rw [isGhostAll_ghostly es has], id⟩
    · cases hh; exact ⟨rfl, id⟩
    · split at hh
      · cases hh
      · rename_i as has
        cases hh
        exact ⟨by rw [isGhostAll_ghostly es has]; rfl, id⟩
    · simp only [Bool.false_eq_true, if_false] at hh
      split at hh
      · cases hh
      · split at hh
        · cases hh
        · cases hh; exact ⟨rfl, id⟩
    · split at hh
      · cases hh
      · rename_i fn hf
        simp only [Bool.false_and, Bool.false_eq_true, if_false, Bool.false_or] at hh
        simp only [hf]
        split at hh
        · rename_i hg
          split at hh
          · cases hh
          · cases hh; exact ⟨by simp [hg], fun _ => rfl⟩
        · rename_i hg
          simp only [Bool.not_eq_true] at hg
          split at hh
          · cases hh
          · rename_i hc
            cases hh
            exact ⟨by simp [checkArgs_ghostly _ _ es hc], fun _ => rfl⟩
          · rename_i as hc
            cases hh
            refine ⟨by simp [hg, checkArgs_ghostly _ _ es hc], fun h => by simp [AExpr.fl] at h⟩
    · rename_i h1 h2 h3 h4 h5
      split at hh
      · cases hh
      · rename_i as has
        cases hh
        refine ⟨?_, id⟩
        rw [isGhostAll_ghostly es has]
        split
        · exact absurd rfl (h1 _)
        · exact absurd rfl (h2 _)
        · exact absurd rfl (h4 _)
        · exact absurd rfl (h5 _)
        · rfl

theorem isGhostAll_ghostly : ∀ (es : List Expr) {as : List (AExpr × Bool)}, isGhostAll P Γ false es = some as →
    as.any (·.2) = ghostlys P Γ es
  | [], as, h => by simp [isGhostAll] at h; subst h; simp [ghostlys]
  | e :: es, as, h => by
    unfold isGhostAll at h
    split at h
    · cases h
    · rename_i a ha
      split at h
      · cases h
      · rename_i as' has
        cases h
        obtain ⟨a, g⟩ := a
        simp [ghostlys, (isGhost_ghostly e ha).1, isGhostAll_ghostly es has]

theorem checkArgs_ghostly (pure : Bool) : ∀ (ps : List Bool) (es : List Expr) {o : Option (List AExpr)},
    checkArgs P Γ pure ps es = some o → ghostlyArgs P Γ ps es = o.isNone
  | [], [], o, h => by simp [checkArgs] at h; subst h; simp [ghostlyArgs]
  | _ :: _, [], o, h => by simp [checkArgs] at h
  | [], _ :: _, o, h => by simp [checkArgs] at h
  | p :: ps, e :: es, o, h => by
    unfold checkArgs at h
    split at h
    · cases h
    · rename_i a g ha
      rw [assignable_arg] at h
      unfold ghostlyArgs
      have key : p = false → g = ghostly P Γ e := by
        intro hp; subst hp; exact (isGhost_ghostly e ha).1
      split at h
      · rename_i hm
        simp only [Bool.not_or, Bool.not_not, Bool.and_eq_true, Bool.not_eq_eq_eq_not, Bool.not_true] at hm
        split at h
        · split at h
          · cases h
          · cases h
            simp [hm.2, ← key hm.2, hm.1]
        · cases h
      · rename_i hm
        simp only [Bool.not_or, Bool.not_not, Bool.and_eq_true, Bool.not_eq_eq_eq_not, Bool.not_true, not_and,
          Bool.not_eq_false] at hm
        have hz : (!p && ghostly P Γ e) = false := by
          cases hp : p with
          | true => rfl
          | false =>
            rw [← key hp]
            cases hg : g with
            | false => rfl
            | true => exact absurd (hm hg) (by simp [hp])
        rw [hz, Bool.false_or]
        split at h
        · cases h
        · rename_i hc
          split at h
          · cases h; exact checkArgs_ghostly pure ps es hc
          · cases h
        · rename_i hc
          cases h
          exact (checkArgs_ghostly pure ps es hc).trans rfl
end

/-! ### Regular expressions are copied -/

theorem relA_of : ∀ {es es' : List Expr} {ps : List Bool}, RelEs P Γ es es' → es.length = ps.length →
    (ps.take es.length).any id = false → RelA P Γ ps es es'
  | [], _, [], h, _, _ => by cases h; exact .nil
  | [], _, _ :: _, h, hl, _ => by simp at hl
  | e :: es, _, [], h, hl, _ => by simp at hl
  | e :: es, _, p :: ps, h, hl, hp => by
    cases h with
    | cons h1 h2 =>
      simp only [List.length_cons, List.take_succ_cons, List.any_cons, Bool.or_eq_false_iff, id] at hp
      obtain ⟨rfl, hp⟩ := hp
      exact .keep h1 (relA_of h2 (by simpa using hl) hp)

theorem checkArgs_len (pure : Bool) : ∀ (ps : List Bool) (es : List Expr) {as : List AExpr},
    checkArgs P Γ pure ps es = some (some as) → es.length = ps.length
  | [], [], as, h => by simp
  | _ :: _, [], as, h => by simp [checkArgs] at h
  | [], _ :: _, as, h => by simp [checkArgs] at h
  | p :: ps, e :: es, as, h => by
    unfold checkArgs at h
    split at h
    · cases h
    · split at h
      · split at h
        · split at h <;> cases h
        · cases h
      · split at h
        · cases h
        · split at h <;> cases h
        · rename_i hc
          simpa using checkArgs_len pure ps es hc

mutual
theorem relE_regular : ∀ (e : Expr), regular P Γ e = true → RelE P Γ .reg e e
  | .node h es, hr => by
    unfold regular at hr
    rw [Bool.and_eq_true] at hr
    have hes := relEs_regular es hr.2
    cases h with
    | const n => exact .const
    | none => exact .none
    | var x => exact .var (by simpa using hr.1)
    | call f =>
      cases hf : P f with
      | none => simp [hf] at hr
      | some fn =>
        simp only [hf, Bool.and_eq_true, Bool.not_eq_eq_eq_not, Bool.not_true, beq_iff_eq] at hr
        obtain ⟨⟨⟨⟨h1, h2⟩, h3⟩, h5⟩, h4⟩ := hr
        rw [← h2]
        refine .call hf h1 (relA_of hes (by simpa using h5) ?_)
        rw [List.any_eq_false]
        intro b hb
        have hb' := List.mem_of_mem_take hb
        rw [List.mem_map] at hb'
        obtain ⟨x, hx, rfl⟩ := hb'
        rw [List.all_eq_true] at h3
        simpa using h3 x hx
    | _ => exact .node rfl hes

theorem relEs_regular : ∀ (es : List Expr), regulars P Γ es = true → RelEs P Γ es es
  | [], _ => .nil
  | e :: es, h => by
    unfold regulars at h
    rw [Bool.and_eq_true] at h
    exact .cons (relE_regular e h.1) (relEs_regular es h.2)
end

theorem convert_true {e : Expr} {a : AExpr} {g : Bool} (h : isGhost P Γ true e = some (a, g)) (hq : quiet P e = true) :
    extractE (convert a g true) = none := by
  obtain ⟨_, h1, h2⟩ := isGhost_true e h hq
  unfold convert
  cases g with
  | true =>
    simp only [Bool.not_true, Bool.false_and, Bool.false_eq_true, if_false]
    cases a with
    | raw e => simp [extractE]
    | node h es fl => simp only [AExpr.fl] at h1; simp [extractE, h1]
  | false =>
    simp only [h2, Bool.not_false, Bool.and_self, if_true]
    cases a with
    | raw e => simp [AExpr.setGhost, extractE]
    | node h es fl => simp [AExpr.setGhost, extractE]

theorem convert_id (a : AExpr) (g : Bool) : convert a g false = a := by simp [convert]

theorem extract_plain {a : AExpr} (hg : a.fl.ghost = false) (hc : a.fl.contains = false) :
    extractE a = some a.plain := by
  cases a with
  | raw e => simp [AExpr.fl] at hg
  | node h es fl => simp only [AExpr.fl] at hg hc; simp [extractE, hg, hc]

/-- A regular value is extracted. -/
def kept (P : Prog) (Γ : Nat → Bool) (k : Ret) (e : Expr) (a : AExpr) : Prop :=
  ∃ e', extractE a = some e' ∧ RelE P Γ k e e'

theorem retOf_noncall {h : Head} {es : List Expr} (hh : ∀ f, h ≠ .call f) : retOf P (.node h es) = .reg := by
  cases h <;> first | rfl | exact absurd rfl (hh _)

/-- A regular expression is not the call of a function with a ghost result. -/
theorem retOf_reg {e : Expr} {a : AExpr} (h : isGhost P Γ false e = some (a, false)) : retOf P e = .reg := by
  have := (isGhost_ghostly e h).1
  obtain ⟨hd, es⟩ := e
  cases hd with
  | call f =>
    unfold retOf
    unfold ghostly at this
    cases hf : P f with
    | none => simp [hf]
    | some fn =>
      simp only [hf] at this
      cases hg : fn.ghost with
      | true => simp [hg] at this
      | false =>
        simp only [hg, Bool.false_or] at this
        simp only [hf, hg, Bool.false_eq_true, if_false]
        cases hr : fn.ret <;> simp [hr] at this ⊢
  | _ => rfl

theorem gen_kept {h : Head} {es : List Expr} {as : List (AExpr × Bool)} (hg : as.any (·.2) = false)
    (hplain : AExpr.plainAll (as.map (·.1)) = es)
    (hr : RelEs P Γ es (extractEs (as.map (·.1))) ∧ (as.any (·.1.fl.contains) = false → RelEs P Γ es es))
    (hk : ∀ es', RelEs P Γ es es' → RelE P Γ .reg (.node h es) (.node h es')) :
    kept P Γ .reg (.node h es)
      (.node h (as.map (·.1)) ⟨as.any (·.2), as.any (·.2) || as.any (·.1.fl.contains), true⟩) := by
  unfold kept extractE
  simp only [hg, Bool.false_or, Bool.false_eq_true, if_false]
  split
  · rename_i hc
    refine ⟨_, rfl, ?_⟩
    rw [AExpr.plain, hplain]
    exact hk _ (hr.2 (by simpa using hc))
  · exact ⟨_, rfl, hk _ hr.1⟩

mutual
theorem extract_rel : ∀ (e : Expr) {a : AExpr} {g : Bool}, isGhost P Γ false e = some (a, g) → tidy P Γ e = true →
    a.fl.ghost = false → kept P Γ (retOf P e) e a
  | .node h es, a, g, hh, ht, hg => by
    have hplain := isGhost_plain false _ hh
    cases h with
    | attr k =>
      unfold isGhost at hh
      unfold tidy at ht
      simp only [Option.some.injEq, Prod.mk.injEq] at hh
      obtain ⟨rfl, rfl⟩ := hh
      refine ⟨_, extract_plain rfl rfl, ?_⟩
      rw [hplain]
      exact .node rfl (relEs_regular es ht)
    | builtin k =>
      unfold isGhost at hh
      unfold tidy at ht
      simp only at hh
      split at hh
      · cases hh
      · cases hh
        refine ⟨_, extract_plain hg hg, ?_⟩
        rw [hplain]
        exact .node rfl (relEs_regular es ht)
    | prim k =>
      unfold isGhost at hh
      unfold tidy at ht
      simp only [Bool.false_eq_true, if_false] at hh
      split at hh
      · cases hh
      · split at hh
        · cases hh
        · cases hh
          refine ⟨_, extract_plain rfl rfl, ?_⟩
          rw [hplain]
          exact .node rfl (relEs_regular es ht)
    | call f =>
      unfold isGhost at hh
      unfold tidy at ht
      cases hf : P f with
      | none => simp [hf] at hh
      | some fn =>
        simp only [hf, Bool.false_and, Bool.false_eq_true, if_false, Bool.false_or] at hh ht
        split at hh
        · split at hh
          · cases hh
          · cases hh; simp [AExpr.fl] at hg
        · rename_i hfg
          simp only [Bool.not_eq_true] at hfg
          split at hh
          · cases hh
          · cases hh; simp [AExpr.fl] at hg
          · rename_i as hc
            cases hh
            have hret : retOf P (.node (.call f) es) = fn.ret := by simp [retOf, hf, hfg]
            have hany : (List.take es.length (fn.params.map fn.gvar)).any id = (fn.params.take es.length).any fn.gvar := by
              rw [← List.map_take, List.any_map]; rfl
            rw [hret]
            split at ht
            · rename_i hp
              refine ⟨.node (.call f) (extractEs as), by unfold extractE; rw [hany]; simp only [hp, Bool.false_eq_true, if_false, Bool.not_true], ?_⟩
              exact .call hf hfg (extractArgs_rel _ _ es hc ht)
            · rename_i hp
              simp only [Bool.not_eq_true] at hp
              refine ⟨_, extract_plain rfl (by simp only [AExpr.fl]; rw [hany]; exact hp), ?_⟩
              rw [hplain]
              exact .call hf hfg (relA_of (relEs_regular es ht) (checkArgs_len _ _ _ hc) (by rw [hany]; exact hp))
    | var x =>
      unfold isGhost at hh
      unfold tidy at ht
      simp only at hh ht
      split at hh
      · cases hh
      · cases hh
        simp only [AExpr.fl, Bool.or_eq_false_iff] at hg
        unfold kept extractE
        simp only [hg.1, hg.2, Bool.or_self, Bool.false_eq_true, if_false, Bool.false_or]
        split
        · exact ⟨_, rfl, by rw [AExpr.plain]; exact .var hg.1⟩
        · exact ⟨_, rfl, .var hg.1⟩
    | const n =>
      unfold isGhost at hh
      unfold tidy at ht
      simp only at hh ht
      split at hh
      · cases hh
      · rename_i as has
        cases hh
        exact gen_kept hg (isGhostAll_plain false es has) (extractAll_rel es has ht hg) (fun _ _ => .const)
    | none =>
      unfold isGhost at hh
      unfold tidy at ht
      simp only at hh ht
      split at hh
      · cases hh
      · rename_i as has
        cases hh
        exact gen_kept hg (isGhostAll_plain false es has) (extractAll_rel es has ht hg) (fun _ _ => .none)
    | op k =>
      unfold isGhost at hh
      unfold tidy at ht
      simp only at hh ht
      split at hh
      · cases hh
      · rename_i as has
        cases hh
        exact gen_kept hg (isGhostAll_plain false es has) (extractAll_rel es has ht hg) (fun _ h => .node rfl h)
    | cond =>
      unfold isGhost at hh
      unfold tidy at ht
      simp only at hh ht
      split at hh
      · cases hh
      · rename_i as has
        cases hh
        exact gen_kept hg (isGhostAll_plain false es has) (extractAll_rel es has ht hg) (fun _ h => .node rfl h)
    | tuple =>
      unfold isGhost at hh
      unfold tidy at ht
      simp only at hh ht
      split at hh
      · cases hh
      · rename_i as has
        cases hh
        exact gen_kept hg (isGhostAll_plain false es has) (extractAll_rel es has ht hg) (fun _ h => .node rfl h)

theorem extractAll_rel : ∀ (es : List Expr) {as : List (AExpr × Bool)}, isGhostAll P Γ false es = some as →
    tidys P Γ es = true → as.any (·.2) = false → RelEs P Γ es (extractEs (as.map (·.1))) ∧
      (as.any (·.1.fl.contains) = false → RelEs P Γ es es)
  | [], as, h, _, _ => by simp [isGhostAll] at h; subst h; exact ⟨.nil, fun _ => .nil⟩
  | e :: es, as, h, ht, hg => by
    unfold isGhostAll at h
    unfold tidys at ht
    rw [Bool.and_eq_true] at ht
    split at h
    · cases h
    · rename_i a ha
      split at h
      · cases h
      · rename_i as' has
        cases h
        obtain ⟨a, g⟩ := a
        simp only [List.any_cons, Bool.or_eq_false_iff] at hg
        obtain ⟨rfl, hg⟩ := hg
        have ih := extractAll_rel es has ht.2 hg
        have hfl : a.fl.ghost = false := by
          have := (isGhost_ghostly e ha).2
          cases hx : a.fl.ghost with
          | false => rfl
          | true => exact absurd (this hx) (by simp)
        obtain ⟨e', he, hr⟩ := extract_rel e ha ht.1 hfl
        rw [retOf_reg ha] at hr
        refine ⟨?_, fun hc => ?_⟩
        · simp only [List.map_cons, extractEs, he]
          exact .cons hr ih.1
        · simp only [List.any_cons, Bool.or_eq_false_iff] at hc
          rw [extract_plain hfl hc.1, isGhost_plain false e ha] at he
          cases he
          exact .cons hr (ih.2 hc.2)

theorem extractArgs_rel (pure : Bool) : ∀ (ps : List Bool) (es : List Expr) {as : List AExpr},
    checkArgs P Γ pure ps es = some (some as) → tidyArgs P Γ ps es = true → RelA P Γ ps es (extractEs as)
  | [], [], as, h, _ => by simp [checkArgs] at h; subst h; exact .nil
  | _ :: _, [], as, h, _ => by simp [checkArgs] at h
  | [], _ :: _, as, h, _ => by simp [checkArgs] at h
  | p :: ps, e :: es, as, h, ht => by
    unfold checkArgs at h
    unfold tidyArgs at ht
    rw [Bool.and_eq_true] at ht
    split at h
    · cases h
    · rename_i a g ha
      rw [assignable_arg] at h
      split at h
      · split at h
        · split at h <;> cases h
        · cases h
      · rename_i hm
        split at h
        · cases h
        · split at h <;> cases h
        · rename_i as' hc
          cases h
          have ih := extractArgs_rel pure ps es hc ht.2
          cases p with
          | true =>
            simp only [if_true] at ht
            simp only [extractEs, convert_true ha ht.1]
            exact .drop (isGhost_true e ha ht.1).1 ih
          | false =>
            simp only [Bool.false_eq_true, if_false] at ht
            have hg : g = false := by cases g <;> simp at hm ⊢
            subst hg
            have hfl : a.fl.ghost = false := by
              have := (isGhost_ghostly e ha).2
              cases hx : a.fl.ghost with
              | false => rfl
              | true => exact absurd (this hx) (by simp)
            obtain ⟨e', he, hr⟩ := extract_rel e ha ht.1 hfl
            rw [retOf_reg ha] at hr
            simp only [extractEs, convert_id, he]
            exact .keep hr ih
end

/-! ### Ghost code -/

theorem unpacked_true {e : Expr} {a : AExpr} {g : Bool} (h : isGhost P Γ true e = some (a, g)) (cur : Bool) (n : Nat) :
    (unpacked P e a cur n).length = n := by
  unfold unpacked
  split
  · rename_i hc
    obtain ⟨hd, es⟩ := e
    cases hd with
    | builtin k =>
      unfold isGhost at h
      simp only at h
      split at h
      · cases h
      · cases h; simp [AExpr.fl]
    | prim k => simp [isGhost] at h
    | call f =>
      unfold isGhost at h
      simp only at h
      split at h
      · cases h
      · split at h
        · cases h
        · simp only [Bool.true_or, if_true] at h
          split at h
          · cases h
          · cases h; simp [AExpr.fl]
    | _ => simp [Expr.head, Head.isCall] at hc
  · simp

theorem checkUnpack_true : ∀ {gs vs : List Bool} {c : Bool}, vs.length = gs.length →
    ((vs.zip gs).all fun (v, g) => assignable true v g c) = true → gs.all id = true
  | [], _, _, _, _ => rfl
  | g :: gs, [], _, h, _ => by simp at h
  | g :: gs, v :: vs, c, h, ha => by
    simp only [List.zip_cons_cons, List.all_cons, Bool.and_eq_true] at ha ⊢
    refine ⟨?_, checkUnpack_true (by simpa using h) ha.2⟩
    have := ha.1
    simp only [assignable, Bool.not_true, Bool.false_or, Bool.and_eq_true] at this
    exact this.2

theorem checkTargets_true {e : Expr} {a0 : AExpr} (hl : ∀ cur n, (unpacked P e a0 cur n).length = n) :
    ∀ {ts : List Target} {a a' : AExpr} {cur : Bool}, checkTargets P Γ true e a0 a cur ts = some a' →
      (ts.flatMap Target.vars).all Γ = true
  | [], _, _, _, _ => rfl
  | .var x :: ts, a, a', cur, h => by
    unfold checkTargets at h
    split at h
    · rename_i ha
      simp only [assignable, Bool.not_true, Bool.false_or, Bool.and_eq_true] at ha
      simp [List.flatMap_cons, Target.vars, ha.2, checkTargets_true hl h]
    · cases h
  | .tup xs :: ts, a, a', cur, h => by
    unfold checkTargets at h
    simp only at h
    split at h
    · rename_i ha
      have := checkUnpack_true (by simp [hl]) ha
      simp only [List.flatMap_cons, Target.vars, List.all_append, Bool.and_eq_true]
      exact ⟨by simpa using this, checkTargets_true hl h⟩
    · cases h

theorem mark_eq {x : Nat} (h : Γ x = true) : mark Γ x = Γ := by
  funext y
  simp only [mark]
  split
  · rename_i hy; rw [hy, h]
  · rfl

mutual
/-- What is checked as ghost code in a regular function is silent. -/
theorem visit_true {fn : Fn} {r : Ret} (hfn : fn.ghost = false) : ∀ (s : Stmt) {a : AStmt} {Γ' : Nat → Bool},
    visit P fn Γ true s = some (a, Γ') → clean P r Γ true s = true → Γ = Γ' ∧ silent P Γ s = true
  | .assign ts e, a, Γ', h, hc => by
    unfold visit at h
    obtain ⟨a', ha, hx⟩ := Option.map_eq_some_iff.1 h
    cases hx
    refine ⟨rfl, ?_⟩
    unfold visitAssign at ha
    simp only [Bool.true_or] at ha
    split at ha
    · cases ha
    · rename_i a0 g0 he
      split at ha
      · cases ha
      · rename_i a1 ht
        have htg := checkTargets_true (unpacked_true he) ht
        unfold clean at hc
        rw [if_pos htg] at hc
        simp only [Bool.and_eq_true] at hc
        simp [silent, htg, (isGhost_true e he hc.1.2).1]
  | .aug x k e, a, Γ', h, hc => by
    unfold visit at h
    obtain ⟨a', ha, hx⟩ := Option.map_eq_some_iff.1 h
    cases hx
    refine ⟨rfl, ?_⟩
    unfold visitAug at ha
    simp only [Bool.true_or] at ha
    split at ha
    · cases ha
    · rename_i a0 g0 he
      split at ha
      · rename_i hx
        simp only [assignable, Bool.not_true, Bool.false_or, Bool.and_eq_true] at hx
        unfold clean at hc
        simp only [hx.2, if_true, Bool.and_eq_true] at hc
        simp [silent, hx.2, (isGhost_true e he hc.2).1]
      · cases ha
  | .expr e, a, Γ', h, hc => by
    unfold visit at h
    obtain ⟨a', ha, hx⟩ := Option.map_eq_some_iff.1 h
    cases hx
    refine ⟨rfl, ?_⟩
    unfold visitExpr at ha
    split at ha
    · cases ha
    · rename_i a0 g0 he
      unfold clean at hc
      simp only [fine, Bool.and_eq_true] at hc
      simp [silent, (isGhost_true e he hc.1.1).1]
  | .ite e b c, a, Γ', h, hc => by
    unfold visit at h
    unfold clean at hc
    simp only [Bool.true_or, Bool.and_eq_true, fine] at h hc
    split at h
    · cases h
    · rename_i a0 g0 he
      split at h
      · cases h
      · split at h
        · cases h
        · rename_i b' Γ1 hb
          obtain ⟨rfl, hb'⟩ := visitAll_true hfn b hb hc.1.2
          split at h
          · cases h
          · rename_i c' Γ2 hcc
            obtain ⟨rfl, hc'⟩ := visitAll_true hfn c hcc hc.2
            cases h
            exact ⟨rfl, by simp [silent, hb', hc', (isGhost_true e he hc.1.1.1).1]⟩
  | .whil e b c, a, Γ', h, hc => by
    unfold visit at h
    unfold clean at hc
    simp only [Bool.true_or, Bool.and_eq_true, fine] at h hc
    split at h
    · cases h
    · rename_i a0 g0 he
      split at h
      · cases h
      · split at h
        · cases h
        · rename_i b' Γ1 hb
          obtain ⟨rfl, hb'⟩ := visitAll_true hfn b hb hc.1.2
          split at h
          · cases h
          · rename_i c' Γ2 hcc
            obtain ⟨rfl, hc'⟩ := visitAll_true hfn c hcc hc.2
            cases h
            exact ⟨rfl, by simp [silent, hb', hc', (isGhost_true e he hc.1.1.1).1]⟩
  | .forr x e b c, a, Γ', h, hc => by
    unfold visit at h
    unfold clean at hc
    simp only [Bool.true_or, Bool.and_eq_true, fine, Bool.not_true, Bool.false_or] at h hc
    have hx := hc.1.1.2
    split at h
    · cases h
    · rename_i a0 g0 he
      split at h
      · cases h
      · rw [mark_eq hx, ite_self] at h
        split at h
        · cases h
        · rename_i b' Γ1 hb
          obtain ⟨rfl, hb'⟩ := visitAll_true hfn b hb hc.1.2
          split at h
          · cases h
          · rename_i c' Γ2 hcc
            obtain ⟨rfl, hc'⟩ := visitAll_true hfn c hcc hc.2
            cases h
            exact ⟨rfl, by simp [silent, hb', hc', hx, (isGhost_true e he hc.1.1.1.1).1]⟩
  | .ret e, a, Γ', h, hc => by
    unfold visit at h
    obtain ⟨a', ha, hx⟩ := Option.map_eq_some_iff.1 h
    simp [visitReturn, hfn] at ha
  | .brk, a, Γ', h, hc => by simp [visit] at h
  | .cont, a, Γ', h, hc => by simp [visit] at h
  | .pass, a, Γ', h, hc => by simp [visit] at h; simp [h.2, silent]

theorem visitAll_true {fn : Fn} {r : Ret} (hfn : fn.ghost = false) : ∀ (ss : List Stmt) {a : List AStmt} {Γ' : Nat → Bool},
    visitAll P fn Γ true ss = some (a, Γ') → cleanB P r Γ true ss = true → Γ = Γ' ∧ silentB P Γ ss = true
  | [], a, Γ', h, hc => by simp [visitAll] at h; simp [h.2, silentB]
  | s :: ss, a, Γ', h, hc => by
    unfold visitAll at h
    unfold cleanB at hc
    rw [Bool.and_eq_true] at hc
    split at h
    · cases h
    · rename_i s' Γ1 hs
      obtain ⟨rfl, h1⟩ := visit_true hfn s hs hc.1
      split at h
      · cases h
      · rename_i ss' Γ2 hss
        obtain ⟨rfl, h2⟩ := visitAll_true hfn ss hss hc.2
        cases h
        exact ⟨rfl, by simp [silentB, h1, h2]⟩
end

mutual
/-- Ghost functions call no impure functions. -/
theorem visit_ghost {fn : Fn} (hfn : fn.ghost = true) : ∀ (s : Stmt) {Γ : Nat → Bool} {a : AStmt} {Γ' : Nat → Bool},
    visit P fn Γ true s = some (a, Γ') → quietS P s = true → noImpureS P s = true
  | .assign ts e, Γ, a, Γ', h, hc => by
    unfold visit at h
    obtain ⟨a', ha, hx⟩ := Option.map_eq_some_iff.1 h
    unfold visitAssign at ha
    simp only [Bool.true_or] at ha
    split at ha
    · cases ha
    · rename_i a0 g0 he
      exact (isGhost_true e he hc).1
  | .aug x k e, Γ, a, Γ', h, hc => by
    unfold visit at h
    obtain ⟨a', ha, hx⟩ := Option.map_eq_some_iff.1 h
    unfold visitAug at ha
    simp only [Bool.true_or] at ha
    split at ha
    · cases ha
    · rename_i a0 g0 he
      exact (isGhost_true e he hc).1
  | .expr e, Γ, a, Γ', h, hc => by
    unfold visit at h
    obtain ⟨a', ha, hx⟩ := Option.map_eq_some_iff.1 h
    unfold visitExpr at ha
    split at ha
    · cases ha
    · rename_i a0 g0 he
      exact (isGhost_true e he hc).1
  | .ite e b c, Γ, a, Γ', h, hc => by
    unfold visit at h
    unfold quietS at hc
    simp only [Bool.true_or, Bool.and_eq_true] at h hc
    split at h
    · cases h
    · rename_i a0 g0 he
      split at h
      · cases h
      · split at h
        · cases h
        · rename_i b' Γ1 hb
          split at h
          · cases h
          · rename_i c' Γ2 hcc
            simp [noImpureS, (isGhost_true e he hc.1.1).1, visitAll_ghost hfn b hb hc.1.2, visitAll_ghost hfn c hcc hc.2]
  | .whil e b c, Γ, a, Γ', h, hc => by
    unfold visit at h
    unfold quietS at hc
    simp only [Bool.true_or, Bool.and_eq_true] at h hc
    split at h
    · cases h
    · rename_i a0 g0 he
      split at h
      · cases h
      · split at h
        · cases h
        · rename_i b' Γ1 hb
          split at h
          · cases h
          · rename_i c' Γ2 hcc
            simp [noImpureS, (isGhost_true e he hc.1.1).1, visitAll_ghost hfn b hb hc.1.2, visitAll_ghost hfn c hcc hc.2]
  | .forr x e b c, Γ, a, Γ', h, hc => by
    unfold visit at h
    unfold quietS at hc
    simp only [Bool.true_or, Bool.and_eq_true] at h hc
    split at h
    · cases h
    · rename_i a0 g0 he
      split at h
      · cases h
      · split at h
        · cases h
        · rename_i b' Γ1 hb
          split at h
          · cases h
          · rename_i c' Γ2 hcc
            simp [noImpureS, (isGhost_true e he hc.1.1).1, visitAll_ghost hfn b hb hc.1.2, visitAll_ghost hfn c hcc hc.2]
  | .ret none, Γ, a, Γ', h, hc => by simp [noImpureS]
  | .ret (some e), Γ, a, Γ', h, hc => by
    unfold visit at h
    obtain ⟨a', ha, hx⟩ := Option.map_eq_some_iff.1 h
    unfold visitReturn at ha
    simp only [hfn, if_true] at ha
    split at ha
    · cases ha
    · rename_i a0 g0 he
      exact (isGhost_true e he hc).1
  | .brk, Γ, a, Γ', h, hc => by simp [noImpureS]
  | .cont, Γ, a, Γ', h, hc => by simp [noImpureS]
  | .pass, Γ, a, Γ', h, hc => by simp [noImpureS]

theorem visitAll_ghost {fn : Fn} (hfn : fn.ghost = true) : ∀ (ss : List Stmt) {Γ : Nat → Bool} {a : List AStmt}
    {Γ' : Nat → Bool}, visitAll P fn Γ true ss = some (a, Γ') → quietB P ss = true → noImpureB P ss = true
  | [], Γ, a, Γ', h, hc => by simp [noImpureB]
  | s :: ss, Γ, a, Γ', h, hc => by
    unfold visitAll at h
    unfold quietB at hc
    rw [Bool.and_eq_true] at hc
    split at h
    · cases h
    · rename_i s' Γ1 hs
      split at h
      · cases h
      · rename_i ss' Γ2 hss
        simp [noImpureB, visit_ghost hfn s hs hc.1, visitAll_ghost hfn ss hss hc.2]
end

end Nagini.Ghost
