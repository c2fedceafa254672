import Verif.Lemmas.GhostCheck

set_option linter.unusedVariables false
set_option linter.unusedSimpArgs false

/-! What remains of the statements of an accepted program. -/
namespace Nagini.Ghost

variable {P : Prog} {Γ : Nat → Bool}

theorem checkArgs_impure : ∀ (ps : List Bool) (es : List Expr), checkArgs P Γ false ps es ≠ some none
  | ps, [], h => by cases ps <;> simp [checkArgs] at h
  | [], _ :: _, h => by simp [checkArgs] at h
  | p :: ps, e :: es, h => by
    unfold checkArgs at h
    split at h
    · cases h
    · split at h
      · simp at h
      · split at h
        · cases h
        · rename_i hh; exact checkArgs_impure ps es hh
        · cases h

/-- The flags after `is_ghost` of an expression in a regular context. -/
theorem isGhost_flag : ∀ (e : Expr) {a : AExpr} {g : Bool}, isGhost P Γ false e = some (a, g) →
    (retOf P e = .reg → a.fl.ghost = g) ∧ (a.fl.ghost = true → a.fl.contains = true) ∧
    (noImpure P e = true → a.impureCall = false) ∧
    (impureCall P e = true → a.impureCall = true ∧ a.fl.ghost = false)
  | .node h es, a, g, hh => by
    cases h with
    | attr k => simp [isGhost] at hh; obtain ⟨rfl, rfl⟩ := hh; simp [AExpr.fl, AExpr.impureCall, Head.isCall, impureCall]
    | prim k =>
      unfold isGhost at hh
      simp only [Bool.false_eq_true, if_false] at hh
      split at hh
      · cases hh
      · split at hh
        · cases hh
        · cases hh; simp [AExpr.fl, AExpr.impureCall, Head.isCall, noImpure]
    | call f =>
      unfold isGhost at hh
      simp only [Bool.false_eq_true, if_false, Bool.false_and, Bool.false_or] at hh
      split at hh
      · cases hh
      · rename_i fn hf
        split at hh
        · rename_i hfg
          split at hh
          · cases hh
          · cases hh; simp [AExpr.fl, AExpr.impureCall, impureCall, hf, hfg]
        · rename_i hfg
          split at hh
          · cases hh
          · rename_i hca
            cases hh
            cases hp : fn.pure with
            | true => simp [AExpr.fl, AExpr.impureCall, impureCall, hf, hp]
            | false => rw [hp] at hca; exact absurd hca (checkArgs_impure _ _)
          · cases hh
            cases hp : fn.pure <;> simp [AExpr.fl, AExpr.impureCall, impureCall, hf, hp, retOf, hfg, Head.isCall, noImpure]
            all_goals intro hr; rw [hr]; rfl
    | _ =>
      unfold isGhost at hh
      simp only [Bool.false_or] at hh
      split at hh
      · cases hh
      · cases hh
        refine ⟨fun _ => rfl, fun hg => ?_, fun _ => rfl, fun hi => by simp [impureCall] at hi⟩
        simp only [AExpr.fl] at hg ⊢
        first | exact hg | (rw [hg]; rfl)

theorem setGhost_fl (a : AExpr) : a.setGhost.fl.ghost = true ∧ a.setGhost.fl.contains = true ∧
    a.setGhost.impureCall = a.impureCall := by
  cases a <;> simp [AExpr.setGhost, AExpr.fl, AExpr.impureCall]

theorem extractE_ghost {a : AExpr} (h : a.fl.ghost = true) : extractE a = none := by
  cases a with
  | raw e => simp [extractE]
  | node hd es fl => simp only [AExpr.fl] at h; simp [extractE, h]

/-- What happens to the value of an assignment. -/
theorem checkTargets_flags {ctx : Bool} {e : Expr} {a0 : AExpr} : ∀ {ts : List Target} {a a' : AExpr} {cur : Bool},
    checkTargets P Γ ctx e a0 a cur ts = some a' → (a = a0 ∨ (a = a0.setGhost ∧ a0.impureCall = false)) →
      (a' = a0 ∨ (a' = a0.setGhost ∧ a0.impureCall = false))
  | [], a, a', cur, h, ha => by simp [checkTargets] at h; subst h; exact ha
  | .var x :: ts, a, a', cur, h, ha => by
    unfold checkTargets at h
    split at h
    · refine checkTargets_flags h ?_
      unfold convert
      split
      · rename_i hc
        simp only [Bool.and_eq_true, Bool.not_eq_true'] at hc
        right
        rcases ha with rfl | ⟨rfl, h2⟩
        · exact ⟨rfl, hc.2⟩
        · refine ⟨?_, h2⟩
          cases a0 <;> simp [AExpr.setGhost]
      · exact ha
    · cases h
  | .tup xs :: ts, a, a', cur, h, ha => by
    unfold checkTargets at h
    simp only at h
    split at h
    · refine checkTargets_flags h ?_
      split
      · exact .inl rfl
      · exact ha
    · cases h

/-- With regular targets the value keeps its flags. -/
theorem checkTargets_reg {ctx : Bool} {e : Expr} {a0 : AExpr} : ∀ {ts : List Target} {a' : AExpr} {cur : Bool},
    checkTargets P Γ ctx e a0 a0 cur ts = some a' → (ts.flatMap Target.vars).all (!Γ ·) = true → a' = a0
  | [], a', cur, h, ha => by simp [checkTargets] at h; exact h.symm
  | .var x :: ts, a', cur, h, ha => by
    unfold checkTargets at h
    simp only [List.flatMap_cons, Target.vars, List.all_append, Bool.and_eq_true, List.all_cons, List.all_nil,
      Bool.not_eq_true'] at ha
    rw [ha.1.1, convert_id] at h
    split at h
    · exact checkTargets_reg h ha.2
    · cases h
  | .tup xs :: ts, a', cur, h, ha => by
    unfold checkTargets at h
    simp only [List.flatMap_cons, List.all_append, Bool.and_eq_true] at ha
    simp only [ite_self] at h
    split at h
    · exact checkTargets_reg h ha.2
    · cases h

theorem assignable_false {g : Bool} {c : Bool} : assignable false g false c = !g := by
  cases g <;> cases c <;> rfl

/-- What becomes of a statement. -/
def keptS (P : Prog) (Γ : Nat → Bool) (r : Ret) (s : Stmt) (a : AStmt) : Prop :=
  ((extractS a = some [] ∧ silent P Γ s = true) ∨ ∃ s', extractS a = some [s'] ∧ RelS P Γ r s s') ∧
  (a.fl.contains = false → a.plain = s ∧ RelS P Γ r s s)

/-- What becomes of a block. -/
def keptB (P : Prog) (Γ : Nat → Bool) (r : Ret) (ss : List Stmt) (as : List AStmt) : Prop :=
  (∃ ss', extractAll as = some ss' ∧ RelB P Γ r ss ss') ∧
  (as.any (·.fl.contains) = false → AStmt.plainAll as = ss ∧ RelB P Γ r ss ss)

theorem kept_plain {k : Ret} {e : Expr} {a : AExpr} {g : Bool} (h : isGhost P Γ false e = some (a, g))
    (hk : kept P Γ k e a) (hg : a.fl.ghost = false) (hc : a.fl.contains = false) : RelE P Γ k e e := by
  obtain ⟨e', h1, h2⟩ := hk
  rw [extract_plain hg hc, isGhost_plain false e h] at h1
  cases h1
  exact h2

theorem markTarget_plain (t : Target) : (markTarget Γ t).plain = t := by
  cases t with
  | var x => rfl
  | tup xs => simp [markTarget, ATarget.plain, Function.comp_def]

theorem markTargets_plain (ts : List Target) : (ts.map (markTarget Γ)).map ATarget.plain = ts := by
  induction ts with
  | nil => rfl
  | cons t ts ih => simp only [List.map_cons, markTarget_plain, ih]

theorem mem_contains {t : Target} {ts : List Target} (h : t ∈ ts) (hc : (markTarget Γ t).contains = true) :
    (ts.map (markTarget Γ)).any ATarget.contains = true :=
  List.any_eq_true.2 ⟨_, List.mem_map_of_mem h, hc⟩

theorem allGhost_contains {t : Target} (h : t.vars.all Γ = true) : (markTarget Γ t).contains = true := by
  cases t with
  | var x => simpa [Target.vars, markTarget, ATarget.contains] using h
  | tup xs =>
    simp only [Target.vars] at h
    simp only [markTarget, ATarget.contains, Bool.or_eq_true]
    left
    simpa [List.all_map, Function.comp_def] using h

theorem allGhost_target {t : Target} (h : t.vars.all Γ = true) : extractTarget (markTarget Γ t) = none := by
  cases t with
  | var x => simp [Target.vars] at h; simp [markTarget, extractTarget, h]
  | tup xs =>
    simp only [Target.vars, List.all_eq_true] at h
    have : (xs.map fun x => (x, Γ x)).filter (!·.2) = [] := by
      rw [List.filter_eq_nil_iff]
      intro p hp
      obtain ⟨x, hx, rfl⟩ := List.mem_map.1 hp
      simp [h x hx]
    simp [markTarget, extractTarget, this]

theorem allGhost_targets {ts : List Target} (h : (ts.flatMap Target.vars).all Γ = true) :
    (ts.map (markTarget Γ)).filterMap extractTarget = [] := by
  rw [List.filterMap_eq_nil_iff]
  intro t ht
  obtain ⟨t', ht', rfl⟩ := List.mem_map.1 ht
  refine allGhost_target ?_
  rw [List.all_eq_true] at h ⊢
  intro x hx
  exact h x (List.mem_flatMap.2 ⟨t', ht', hx⟩)

theorem regular_target {t : Target} (h : t.vars.all (!Γ ·) = true) (hw : t.wide = true) :
    extractTarget (markTarget Γ t) = some t := by
  cases t with
  | var x => simp [Target.vars] at h; simp [markTarget, extractTarget, h]
  | tup xs =>
    simp only [Target.vars, List.all_eq_true] at h
    have : (xs.map fun x => (x, Γ x)).filter (!·.2) = xs.map fun x => (x, Γ x) := by
      rw [List.filter_eq_self]
      intro p hp
      obtain ⟨x, hx, rfl⟩ := List.mem_map.1 hp
      exact h x hx
    simp only [markTarget, extractTarget, this, List.map_map, Function.comp_def, List.map_id']
    match xs, hw with
    | [], hw => simp [Target.wide] at hw
    | [x], hw => simp [Target.wide] at hw
    | x :: y :: xs, hw => rfl

theorem regular_targets : ∀ {ts : List Target}, (ts.flatMap Target.vars).all (!Γ ·) = true → ts.all Target.wide = true →
    (ts.map (markTarget Γ)).filterMap extractTarget = ts
  | [], _, _ => rfl
  | t :: ts, h, hw => by
    simp only [List.flatMap_cons, List.all_append, Bool.and_eq_true, List.all_cons] at h hw
    simp [List.filterMap_cons, regular_target h.1 hw.1, regular_targets h.2 hw.2]

theorem checkUnpack_regular {v : Bool} : ∀ {xs : List Nat}, xs ≠ [] → xs.all (!Γ ·) = true →
    checkUnpack false (xs.map Γ) (List.replicate xs.length v) = true → v = false
  | [], h, _, _ => absurd rfl h
  | x :: xs, _, h, hc => by
    simp only [List.all_cons, Bool.and_eq_true, Bool.not_eq_true'] at h
    simp only [checkUnpack, List.map_cons, List.length_cons, List.replicate_succ, List.zip_cons_cons, List.all_cons,
      Bool.and_eq_true, h.1, assignable_false, Bool.not_eq_true'] at hc
    exact hc.1

/-- The value assigned to a regular tuple is not ghost. -/
theorem checkUnpack_value {e : Expr} {a0 : AExpr} {g0 : Bool} (he : isGhost P Γ false e = some (a0, g0)) {xs : List Nat}
    (hx : xs ≠ []) (hr : xs.all (!Γ ·) = true) (h : checkUnpack false (xs.map Γ) (unpacked P e a0 g0 xs.length) = true) :
    a0.fl.ghost = false := by
  unfold unpacked at h
  split at h
  · cases hg : a0.fl.ghost with
    | false => rfl
    | true =>
      rw [hg] at h
      simp only [if_true] at h
      exact checkUnpack_regular hx hr h
  · cases hg : a0.fl.ghost with
    | false => rfl
    | true =>
      have := (isGhost_ghostly e he).2 hg
      rw [this] at h
      exact checkUnpack_regular hx hr h

theorem regular_value {e : Expr} {a0 a : AExpr} {g0 : Bool} (he : isGhost P Γ false e = some (a0, g0)) {ts : List Target}
    (hne : ts ≠ []) (hr : (ts.flatMap Target.vars).all (!Γ ·) = true) (hw : ts.all Target.wide = true)
    (h : checkTargets P Γ false e a0 a0 g0 ts = some a) : a0.fl.ghost = false := by
  match ts, hne with
  | .var x :: ts, _ =>
    unfold checkTargets at h
    simp only [List.flatMap_cons, Target.vars, List.all_append, Bool.and_eq_true, List.all_cons, List.all_nil,
      Bool.not_eq_true'] at hr
    rw [hr.1.1, assignable_false] at h
    split at h
    · rename_i hg
      cases hf : a0.fl.ghost with
      | false => rfl
      | true => rw [(isGhost_ghostly e he).2 hf] at hg; cases hg
    · cases h
  | .tup xs :: ts, _ =>
    unfold checkTargets at h
    simp only [List.flatMap_cons, Target.vars, List.all_append, Bool.and_eq_true, List.all_cons] at hr hw
    simp only at h
    split at h
    · rename_i hu
      refine checkUnpack_value he ?_ hr.1 hu
      intro hx
      subst hx
      simp [Target.wide] at hw
    · cases h

theorem not_all_regular {ts : List Target} (h : ¬ (ts.flatMap Target.vars).all Γ = true) : ts ≠ [] := by
  intro h'
  subst h'
  simp at h

theorem extractS_assign {ts : List ATarget} {a : AExpr} {c : Bool} {e : Expr} (he : extractE a = some e)
    (hc : c = false → ts.map ATarget.plain = ts.filterMap extractTarget ∧ a.plain = e) {ts' : List Target}
    (ht : ts.filterMap extractTarget = ts') (hn : ts' ≠ []) :
    extractS (.assign ts a ⟨false, c⟩) = some [.assign ts' e] := by
  subst ht
  unfold extractS
  cases c with
  | false =>
    obtain ⟨h1, h2⟩ := hc rfl
    simp [AStmt.plain, h1, h2]
  | true =>
    simp only [Bool.false_eq_true, if_false, Bool.not_true, he]

theorem unpack_two {e : Expr} {a0 : AExpr} {g0 : Bool} (he : isGhost P Γ false e = some (a0, g0)) {x y : Nat}
    (hxy : ¬ ([Target.tup [x, y]].flatMap Target.vars).all Γ = true)
    (h : checkUnpack false ([x, y].map Γ) (unpacked P e a0 g0 2) = true) :
    a0.fl.ghost = false ∧ ((Γ x = false ∧ Γ y = false ∧ retOf P e = .reg) ∨
      (Γ x = false ∧ Γ y = true ∧ retOf P e = .mixed)) := by
  have hfl := isGhost_flag e he
  have hgg := isGhost_ghostly e he
  simp only [List.flatMap_cons, Target.vars, List.flatMap_nil, List.append_nil, List.all_cons, List.all_nil,
    Bool.and_true, Bool.and_eq_true, not_and, Bool.not_eq_true] at hxy
  have key : ∀ v, checkUnpack false ([x, y].map Γ) (List.replicate 2 v) = true →
      v = false ∧ Γ x = false ∧ Γ y = false := by
    intro v hv
    revert hxy hv
    simp only [List.map_cons, List.map_nil]
    generalize Γ x = gx
    generalize Γ y = gy
    cases gx <;> cases gy <;> cases v <;> decide
  unfold unpacked at h
  split at h
  · rename_i hcall
    split at h
    · obtain ⟨h1, _⟩ := key _ h
      cases h1
    · rename_i hg
      rw [Bool.not_eq_true] at hg
      refine ⟨hg, ?_⟩
      split at h
      · rename_i f hf
        obtain ⟨hd, es⟩ := e
        simp only [Expr.head] at hf
        subst hf
        split at h
        · rename_i fn hfn
          have hng : fn.ghost = false := by
            unfold isGhost at he
            simp only [hfn, Bool.false_and, Bool.false_eq_true, if_false, Bool.false_or] at he
            cases hfg : fn.ghost with
            | false => rfl
            | true =>
              simp only [hfg, if_true] at he
              split at he
              · cases he
              · cases he; simp [AExpr.fl] at hg
          simp only [retOf, hfn, hng, Bool.false_eq_true, if_false]
          split at h
          · rename_i hret
            right
            rw [hret]
            revert hxy h
            simp only [List.map_cons, List.map_nil]
            generalize Γ x = gx
            generalize Γ y = gy
            cases gx <;> cases gy <;> simp [checkUnpack, mixedElems, assignable]
          · obtain ⟨h1, _⟩ := key _ h
            cases h1
          · rename_i hret
            left
            exact ⟨(key _ h).2.1, (key _ h).2.2, hret⟩
        · rename_i hfn
          left
          exact ⟨(key _ h).2.1, (key _ h).2.2, by simp [retOf, hfn]⟩
      · rename_i hf
        left
        refine ⟨(key _ h).2.1, (key _ h).2.2, ?_⟩
        obtain ⟨hd, es⟩ := e
        exact retOf_noncall fun f hh => hf f hh
  · rename_i hcall
    obtain ⟨h1, h2, h3⟩ := key _ h
    subst h1
    refine ⟨?_, .inl ⟨h2, h3, retOf_reg he⟩⟩
    cases hf : a0.fl.ghost with
    | false => rfl
    | true => exact absurd (hgg.2 hf) (by simp)

/-- What remains of an assignment. -/
theorem visit_assign {r : Ret} {ts : List Target} {e : Expr} {a : AStmt} (h : visitAssign P Γ false ts e = some a)
    (hc : clean P r Γ false (.assign ts e) = true) : keptS P Γ r (.assign ts e) a := by
  unfold visitAssign at h
  unfold clean at hc
  simp only [Bool.false_or] at h
  by_cases htg : (ts.flatMap Target.vars).all Γ = true
  · rw [if_pos htg] at hc
    simp only [htg, Bool.true_and] at h
    simp only [Bool.and_eq_true, Bool.not_eq_true'] at hc
    obtain ⟨t, ts', rfl⟩ : ∃ t ts', ts = t :: ts' := by
      cases ts with
      | nil => simp at hc
      | cons t ts' => exact ⟨t, ts', rfl⟩
    have hcont : ((t :: ts').map (markTarget Γ)).any ATarget.contains = true := by
      refine mem_contains (t := t) (by simp) (allGhost_contains ?_)
      rw [List.flatMap_cons, List.all_append, Bool.and_eq_true] at htg
      exact htg.1
    split at h
    · cases h
    · rename_i a0 g0 he
      split at h
      · cases h
      · rename_i a1 ht
        cases h
        refine ⟨?_, fun hh => by simp only [AStmt.fl, hcont, Bool.or_true] at hh; cases hh⟩
        cases hcall : e.head.isCall with
        | false =>
          simp only [hcall, Bool.not_false] at he
          left
          simp only [extractS, silent, htg, (isGhost_true e he hc.1.2).1, Bool.not_false, Bool.true_or, if_true, Bool.and_self,
            and_self]
        | true =>
          simp only [hcall, Bool.not_true] at he ht
          simp only [hcall, Bool.not_true, Bool.false_or, fineGhost, Bool.and_eq_true] at hc
          have hfl := isGhost_flag e he
          have hcase := checkTargets_flags ht (.inl rfl)
          cases hg : a1.fl.ghost with
          | true =>
            left
            have hni : noImpure P e = true := by
              have := hc.2.2
              split at this
              · rename_i hi
                obtain ⟨h1, h2⟩ := hfl.2.2.2 hi
                rcases hcase with rfl | ⟨_, h3⟩
                · rw [h2] at hg; cases hg
                · rw [h1] at h3; cases h3
              · rw [Bool.and_eq_true] at this; exact this.1
            simp only [extractS, silent, htg, hni, hg, Bool.or_true, if_true, Bool.and_self, and_self]
          | false =>
            right
            obtain rfl : a1 = a0 := by
              rcases hcase with h1 | ⟨h1, _⟩
              · exact h1
              · rw [h1, (setGhost_fl a0).1] at hg; cases hg
            have htidy : tidy P Γ e = true := by
              have := hc.2.2
              split at this
              · exact this
              · simp only [hcall, Bool.and_eq_true, Bool.or_eq_true, Bool.not_true, Bool.false_eq_true, false_or,
                  beq_iff_eq] at this
                rcases this.2 with ⟨h1, h2⟩ | h1
                · rw [hfl.1 h2, (isGhost_ghostly e he).1, h1] at hg; cases hg
                · exact h1
            obtain ⟨e', h1, h2⟩ := extract_rel e he htidy hg
            refine ⟨.expr e', ?_, .asgCall htg h2⟩
            simp only [extractS, Bool.not_true, Bool.false_or, Bool.true_and, hg, hcont, Bool.or_true,
              Bool.false_eq_true, if_false, h1, allGhost_targets htg, Bool.true_or]
  · rw [if_neg htg] at hc
    rw [Bool.not_eq_true] at htg
    simp only [htg, Bool.false_and, Bool.false_or] at h
    rw [← Bool.not_eq_true] at htg
    simp only [Bool.and_eq_true] at hc
    split at h
    · cases h
    · rename_i a0 g0 he
      have hplain := isGhost_plain false e he
      split at h
      · cases h
      · rename_i a1 ht
        cases h
        -- the common end of the cases with regular targets
        have fin : (ts.flatMap Target.vars).all (!Γ ·) = true → ts.all Target.wide = true → a1 = a0 →
            a0.fl.ghost = false → retOf P e = .reg →
            keptS P Γ r (.assign ts e) (.assign (ts.map (markTarget Γ)) a1
              ⟨false, a1.fl.contains || (ts.map (markTarget Γ)).any ATarget.contains⟩) := by
          intro hr hw h1 h2 h3
          subst h1
          have hk := extract_rel e he hc.1.2 h2
          have hk' := hk
          obtain ⟨e', h4, h5⟩ := hk
          rw [h3] at h5 hk'
          refine ⟨.inr ⟨.assign ts e', extractS_assign h4 ?_ (regular_targets hr hw) (not_all_regular htg), .asg h5⟩, ?_⟩
          · intro hcc
            rw [Bool.or_eq_false_iff] at hcc
            refine ⟨by rw [markTargets_plain, regular_targets hr hw], ?_⟩
            rw [extract_plain h2 hcc.1] at h4
            exact Option.some.inj h4
          · intro hcc
            simp only [AStmt.fl, Bool.or_eq_false_iff] at hcc
            exact ⟨by simp only [AStmt.plain, markTargets_plain, hplain], .asg (kept_plain he hk' h2 hcc.1)⟩
        have hm := hc.2
        split at hm
        · rename_i x y
          simp only [checkTargets, ite_self] at ht
          split at ht
          · rename_i hu
            cases ht
            obtain ⟨h1, h2⟩ := unpack_two he htg hu
            rcases h2 with ⟨h2, h3, h4⟩ | ⟨h2, h3, h4⟩
            · exact fin (by simp [Target.vars, h2, h3]) (by simp [Target.wide]) rfl h1 h4
            · obtain ⟨e', h5, h6⟩ := extract_rel e he hc.1.2 h1
              rw [h4] at h6
              refine ⟨.inr ⟨.assign [.var x] e', ?_, .asgMixed h3 h6⟩, ?_⟩
              · simp [extractS, markTarget, ATarget.contains, h2, h3, h5, extractTarget]
              · intro hcc
                simp [AStmt.fl, markTarget, ATarget.contains, h2, h3] at hcc
          · cases ht
        · rename_i x
          have hx : Γ x = false := by simpa [Target.vars] using htg
          simp only [checkTargets, hx, assignable_false, convert_id] at ht
          split at ht
          · rename_i hg
            cases ht
            rw [Bool.not_eq_true'] at hg
            subst hg
            refine fin (by simp [Target.vars, hx]) (by simp [Target.wide]) rfl ?_ (retOf_reg he)
            cases hf : a0.fl.ghost with
            | false => rfl
            | true => exact absurd ((isGhost_ghostly e he).2 hf) (by simp)
          · cases ht
        · simp only [Bool.and_eq_true, beq_iff_eq] at hm
          exact fin hm.1.1 hm.1.2 (checkTargets_reg ht hm.1.1) (regular_value he (not_all_regular htg) hm.1.1 hm.1.2 ht) hm.2

theorem flag_of_regular {e : Expr} {a : AExpr} (he : isGhost P Γ false e = some (a, false)) : a.fl.ghost = false := by
  cases hf : a.fl.ghost with
  | false => rfl
  | true => exact absurd ((isGhost_ghostly e he).2 hf) (by simp)

/-- A regular expression that is kept. -/
theorem regular_kept {e : Expr} {a : AExpr} (he : isGhost P Γ false e = some (a, false)) (ht : tidy P Γ e = true) :
    a.fl.ghost = false ∧ a.plain = e ∧ (∃ e', extractE a = some e' ∧ RelE P Γ .reg e e') ∧
      (a.fl.contains = false → RelE P Γ .reg e e) := by
  have hg := flag_of_regular he
  have hk := extract_rel e he ht hg
  rw [retOf_reg he] at hk
  exact ⟨hg, isGhost_plain false e he, hk, kept_plain he hk hg⟩

theorem visit_aug {r : Ret} {x k : Nat} {e : Expr} {a : AStmt} (h : visitAug P Γ false x k e = some a)
    (hc : clean P r Γ false (.aug x k e) = true) : keptS P Γ r (.aug x k e) a := by
  unfold visitAug at h
  unfold clean at hc
  cases hx : Γ x with
  | true =>
    simp only [hx, if_true, Bool.and_eq_true, Bool.not_eq_true'] at hc
    simp only [hx, hc.1, Bool.not_false, Bool.and_self, Bool.or_true, Bool.true_or] at h
    split at h
    · cases h
    · rename_i a0 g0 he
      split at h
      · cases h
        refine ⟨.inl ?_, fun hh => by simp [AStmt.fl] at hh⟩
        simp [extractS, silent, hx, (isGhost_true e he hc.2).1]
      · cases h
  | false =>
    simp only [hx, Bool.false_eq_true, if_false, Bool.and_eq_true] at hc
    simp only [hx, Bool.false_and, Bool.or_self, assignable_false, Bool.false_or, Bool.or_false] at h
    split at h
    · cases h
    · rename_i a0 g0 he
      split at h
      · rename_i hg
        cases h
        rw [Bool.not_eq_true'] at hg
        subst hg
        obtain ⟨h1, h2, ⟨e', h3, h4⟩, h5⟩ := regular_kept he hc.2
        refine ⟨.inr ?_, fun hh => ⟨by simp [AStmt.plain, h2], .aug hx (h5 hh)⟩⟩
        cases hcon : a0.fl.contains with
        | false => exact ⟨.aug x k e, by simp [extractS, AStmt.plain, h2], .aug hx (h5 hcon)⟩
        | true => exact ⟨.aug x k e', by simp [extractS, h3], .aug hx h4⟩
      · cases h

mutual
/-- What `check_for_call` finds. -/
theorem recheck_noImpure : ∀ (e : Expr), recheck P e = true → hush P e = true → noImpure P e = true
  | .node h es, hr, hh => by
    cases h with
    | prim k => simp [recheck] at hr
    | call f =>
      simp only [recheck] at hr
      simp only [hush] at hh
      split at hr
      · rename_i fn hf
        rw [Bool.and_eq_true] at hr
        simp only [noImpure, hf, hr.1, recheckAll_noImpure es hr.2 hh, Bool.and_self]
      · cases hr
    | builtin k => simpa [hush, noImpure] using hh
    | attr k => simpa [hush, noImpure] using hh
    | _ =>
      simp only [recheck] at hr
      simp only [hush] at hh
      simp [noImpure, recheckAll_noImpure es hr hh]

theorem recheckAll_noImpure : ∀ (es : List Expr), recheckAll P es = true → hushs P es = true → noImpures P es = true
  | [], _, _ => by simp [noImpures]
  | e :: es, hr, hh => by
    simp only [recheckAll, hushs, Bool.and_eq_true] at hr hh
    simp [noImpures, recheck_noImpure e hr.1 hh.1, recheckAll_noImpure es hr.2 hh.2]
end

theorem rescan_noImpure {ctx : Bool} {e : Expr} {a : AExpr} {g : Bool} (he : isGhost P Γ ctx e = some (a, g))
    (hr : ¬ (true && !rescan P e) = true) (h : (!impureCall P e && hush P e) = true) : noImpure P e = true := by
  obtain ⟨hd, es⟩ := e
  simp only [Bool.true_and, Bool.not_eq_true', Bool.not_eq_false, rescan] at hr
  rw [Bool.and_eq_true, Bool.not_eq_true'] at h
  cases hd with
  | prim k => simp [impureCall] at h
  | call f =>
    simp only [impureCall, hush] at h
    unfold isGhost at he
    simp only at he
    split at he
    · cases he
    · rename_i fn hf
      simp only [hf] at h
      have := recheckAll_noImpure es hr h.2
      simp only [noImpure, hf, this, Bool.and_true]
      cases hg : fn.ghost <;> cases hp : fn.pure <;> simp [hg, hp] at h ⊢
  | builtin k => simpa [hush, noImpure] using h.2
  | attr k => simpa [hush, noImpure] using h.2
  | _ =>
    simp only [hush] at h
    simp [noImpure, recheckAll_noImpure es hr h.2]

theorem visit_expr {r : Ret} {e : Expr} {a : AStmt} (h : visitExpr P Γ false e = some a)
    (hc : clean P r Γ false (.expr e) = true) : keptS P Γ r (.expr e) a := by
  unfold visitExpr at h
  unfold clean at hc
  simp only [fine, Bool.and_eq_true, Bool.or_eq_true, beq_iff_eq] at hc
  split at h
  · cases h
  · rename_i a0 g0 he
    split at h
    · cases h
    · rename_i hres
      cases h
      have hfl := isGhost_flag e he
      have hgh := isGhost_ghostly e he
      have hplain := isGhost_plain false e he
      cases g0 with
      | true =>
        rw [← hgh.1] at hc
        simp only [if_true] at hc
        refine ⟨.inl (by simp [extractS, silent, rescan_noImpure he hres hc.1.2]), fun hh => ⟨by simp [AStmt.plain, hplain], ?_⟩⟩
        simp only [AStmt.fl] at hh
        have hg : a0.fl.ghost = false := by
          cases hg : a0.fl.ghost with
          | false => rfl
          | true => rw [hfl.2.1 hg] at hh; cases hh
        rcases hc.2 with h1 | h1
        · rw [hfl.1 h1] at hg; cases hg
        · exact .expr (kept_plain he (extract_rel e he h1 hg) hg hh)
      | false =>
        rw [← hgh.1] at hc
        simp only [Bool.false_eq_true, if_false] at hc
        obtain ⟨h1, h2, ⟨e', h3, h4⟩, h5⟩ := regular_kept he hc.1.2
        refine ⟨.inr ?_, fun hh => ⟨by simp [AStmt.plain, h2], .expr (h5 hh)⟩⟩
        cases hcon : a0.fl.contains with
        | false => exact ⟨.expr e, by simp [extractS, AStmt.plain, h2], .expr (h5 hcon)⟩
        | true => exact ⟨.expr e', by simp [extractS, h3], .expr h4⟩

theorem extractEs_two {a b : AExpr} : extractEs [a, b] = (extractE a).toList ++ (extractE b).toList := by
  simp only [extractEs]
  cases extractE a <;> cases extractE b <;> rfl

/-- `extract_Return` does not change a regular value any further. -/
theorem extractRet_regular {e e' : Expr} {a : AExpr} (hp : a.plain = e) (hg : a.fl.ghost = false)
    (hc : a.fl.contains = true) (h : extractE a = some e') (hr : RelE P Γ .reg e e') : extractRet (some a) = some e' := by
  unfold extractRet
  split
  · rename_i h'; cases h'
  · rename_i a1 a2 fl heq
    obtain rfl : a = _ := Option.some.inj heq
    simp only [AExpr.fl] at hg hc
    simp only [extractE, hg, hc, Bool.false_eq_true, if_false, Bool.not_true, Option.some.injEq] at h
    subst h
    subst hp
    simp only [AExpr.plain, AExpr.plainAll] at hr
    generalize hk0 : Ret.reg = k at hr
    cases hr with
    | node _ hs =>
      generalize extractEs [a1, a2] = es' at hs
      cases hs with
      | cons _ hs =>
        cases hs with
        | cons _ hs =>
          cases hs
          rfl
    | fst hk _ _ => exact absurd hk0.symm hk
    | snd _ _ => cases hk0
  · rename_i _ heq
    cases heq
    exact h

theorem isGhost_nottuple {e : Expr} {a : AExpr} {g : Bool} (h : isGhost P Γ false e = some (a, g))
    (hn : ∀ e1 e2, e ≠ .node .tuple [e1, e2]) : ∀ a1 a2 fl, a ≠ .node .tuple [a1, a2] fl := by
  intro a1 a2 fl ha
  subst ha
  have := isGhost_plain false e h
  simp only [AExpr.plain, AExpr.plainAll] at this
  exact hn _ _ this.symm

theorem extractRet_other {a : AExpr} (hn : ∀ a1 a2 fl, a ≠ .node .tuple [a1, a2] fl) : extractRet (some a) = extractE a := by
  unfold extractRet
  split
  · rename_i h'; cases h'
  · rename_i heq; exact absurd (Option.some.inj heq) (hn _ _ _)
  · rename_i _ heq; cases heq; rfl

theorem convert_not_tuple {a : AExpr} {g p : Bool} (hn : ∀ a1 a2 fl, a ≠ .node .tuple [a1, a2] fl) :
    ∀ a1 a2 fl, convert a g p ≠ .node .tuple [a1, a2] fl := by
  intro a1 a2 fl h
  unfold convert at h
  split at h
  · cases a with
    | raw e => cases h
    | node hd es fl' =>
      simp only [AExpr.setGhost, AExpr.node.injEq] at h
      exact hn a1 a2 fl' (by rw [h.1, h.2.1])
  · exact hn _ _ _ h

/-- A part of a returned ghost tuple is dropped or kept. -/
theorem finePart_kept {e : Expr} {a : AExpr} {g : Bool} (he : isGhost P Γ false e = some (a, g))
    (hf : finePart P Γ e = true) : noImpure P e = true ∧
      (extractE a = none ∨ ∃ e', extractE a = some e' ∧ RelE P Γ .reg e e') := by
  simp only [finePart, Bool.and_eq_true, beq_iff_eq, Bool.or_eq_true] at hf
  obtain ⟨⟨⟨hq, hn⟩, hret⟩, hgt⟩ := hf
  refine ⟨hn, ?_⟩
  have hfl := (isGhost_flag e he).1 hret
  cases hg : a.fl.ghost with
  | true => exact .inl (extractE_ghost hg)
  | false =>
    right
    rw [hg] at hfl
    subst hfl
    rcases hgt with h1 | h1
    · rw [← (isGhost_ghostly e he).1] at h1; cases h1
    · exact (regular_kept he h1).2.2.1

theorem isGhost_tuple {e1 e2 : Expr} {a : AExpr} {g : Bool} (h : isGhost P Γ false (.node .tuple [e1, e2]) = some (a, g)) :
    ∃ a1 g1 a2 g2 fl, isGhost P Γ false e1 = some (a1, g1) ∧ isGhost P Γ false e2 = some (a2, g2) ∧
      a = .node .tuple [a1, a2] fl := by
  unfold isGhost at h
  simp only at h
  split at h
  · cases h
  · rename_i as has
    cases h
    unfold isGhostAll at has
    split at has
    · cases has
    · rename_i p1 h1
      obtain ⟨a1, g1⟩ := p1
      split at has
      · cases has
      · rename_i as' has'
        cases has
        unfold isGhostAll at has'
        split at has'
        · cases has'
        · rename_i p2 h2
          obtain ⟨a2, g2⟩ := p2
          simp only [isGhostAll] at has'
          cases has'
          exact ⟨a1, g1, a2, g2, _, h1, h2, rfl⟩

theorem convert_tuple {a1 a2 : AExpr} {fl : Fl} {g p : Bool} : ∃ fl', convert (.node .tuple [a1, a2] fl) g p = .node .tuple [a1, a2] fl' := by
  unfold convert
  split
  · exact ⟨_, rfl⟩
  · exact ⟨_, rfl⟩

/-- What remains of a returned ghost value. -/
theorem ret_ghost {e : Expr} {a : AExpr} {g : Bool} (he : isGhost P Γ false e = some (a, g))
    (hc : clean P .ghost Γ false (.ret (some e)) = true) (ha : assignable false g true true = true) :
    RelS P Γ .ghost (.ret (some e)) (.ret (extractRet (some (convert a g true)))) := by
  unfold clean at hc
  simp only at hc
  split at hc
  · rename_i e1 e2
    rw [Bool.and_eq_true] at hc
    obtain ⟨a1, g1, a2, g2, fl, h1, h2, rfl⟩ := isGhost_tuple he
    obtain ⟨fl', hcv⟩ := convert_tuple (a1 := a1) (a2 := a2) (fl := fl) (g := g) (p := true)
    rw [hcv]
    obtain ⟨hn1, hk1⟩ := finePart_kept h1 hc.1
    obtain ⟨hn2, hk2⟩ := finePart_kept h2 hc.2
    have hn : noImpure P (.node .tuple [e1, e2]) = true := by simp [noImpure, noImpures, hn1, hn2]
    simp only [extractRet, extractEs_two]
    rcases hk1 with hk1 | ⟨e1', hk1, hr1⟩ <;> rcases hk2 with hk2 | ⟨e2', hk2, hr2⟩ <;>
      simp only [hk1, hk2, Option.toList, List.nil_append, List.append_nil, List.cons_append]
    · exact .retDrop rfl hn
    · exact .ret (.snd hr2 hn1)
    · exact .ret (.fst (by simp) hr1 hn2)
    · exact .retCall rfl (.node rfl (.cons hr1 (.cons hr2 .nil)))
  · rename_i hnt
    have hn := isGhost_nottuple he (fun e1 e2 h => hnt e1 e2 h)
    rw [extractRet_other (convert_not_tuple hn)]
    have hfl := isGhost_flag e he
    simp only [fineGhost, Bool.and_eq_true] at hc
    cases hg : (convert a g true).fl.ghost with
    | true =>
      rw [extractE_ghost hg]
      refine .retDrop rfl ?_
      have := hc.2
      split at this
      · rename_i hi
        obtain ⟨h1, h2⟩ := hfl.2.2.2 hi
        simp [convert, h1, h2] at hg
      · rw [Bool.and_eq_true] at this; exact this.1
    | false =>
      have hcv : convert a g true = a := by
        unfold convert at hg ⊢
        split at hg
        · rw [(setGhost_fl a).1] at hg; cases hg
        · rename_i hh; rw [if_neg hh]
      rw [hcv] at hg ⊢
      have htidy : tidy P Γ e = true := by
        have := hc.2
        split at this
        · exact this
        · simp only [Bool.and_eq_true, Bool.or_eq_true, Bool.not_eq_true', beq_iff_eq] at this
          rcases this.2 with (h1 | ⟨h1, h2⟩) | h1
          · exfalso
            have hret : retOf P e = .reg := by
              obtain ⟨hd, es⟩ := e
              refine retOf_noncall ?_
              rintro f rfl
              simp [Expr.head, Head.isCall] at h1
            have h2 := hfl.1 hret
            have h3 := hfl.2.2.1 this.1
            rw [hg] at h2
            subst h2
            unfold convert at hcv
            simp only [h3, Bool.not_false, Bool.and_self, if_true] at hcv
            have := (setGhost_fl a).1
            rw [hcv, hg] at this
            cases this
          · rw [hfl.1 h2, (isGhost_ghostly e he).1, h1] at hg; cases hg
          · exact h1
      obtain ⟨e', h1, h2⟩ := extract_rel e he htidy hg
      rw [h1]
      exact .retCall rfl h2

/-- What remains of a returned value with a regular and a ghost part. -/
theorem ret_mixed {e : Expr} {a : AExpr} (he : visitMixed P Γ e = some a)
    (hc : clean P .mixed Γ false (.ret (some e)) = true) :
    RelS P Γ .mixed (.ret (some e)) (.ret (extractRet (some a))) := by
  unfold visitMixed at he
  unfold clean at hc
  simp only at hc
  split at he
  · rename_i e1 e2
    simp only [Bool.and_eq_true, beq_iff_eq] at hc
    obtain ⟨⟨⟨⟨hq1, ht1⟩, hq2⟩, hn2⟩, hret⟩ := hc
    split at he
    · rename_i a1 g1 a2 g2 h1 h2
      split at he
      · rename_i hh
        cases he
        simp only [assignable_false, Bool.and_eq_true, Bool.not_eq_true'] at hh
        obtain ⟨rfl, _⟩ := hh
        obtain ⟨_, _, ⟨e1', h3, h4⟩, _⟩ := regular_kept h1 ht1
        have hfl := isGhost_flag e2 h2
        have hnone : extractE (convert a2 g2 true) = none := by
          have h5 := hfl.1 hret
          have h6 := hfl.2.2.1 hn2
          unfold convert
          cases g2 with
          | true => simp only [Bool.not_true, Bool.false_and, Bool.false_eq_true, if_false]; exact extractE_ghost h5
          | false => simp only [h6, Bool.not_false, Bool.and_self, if_true]; exact extractE_ghost (setGhost_fl a2).1
        simp only [extractRet, extractEs_two, convert_id, h3, hnone, Option.toList, List.append_nil]
        exact .ret (.fst (by simp) h4 hn2)
      · cases he
    · cases he
  · rename_i f es
    split at he
    · rename_i a' g' fn h1 hf
      split at he
      · rename_i hh
        cases he
        simp only [Bool.and_eq_true, Bool.not_eq_true', beq_iff_eq] at hh hc
        obtain ⟨e', h3, h4⟩ := extract_rel _ h1 hc.2 hh.1
        rw [extractRet_other (isGhost_nottuple h1 (by simp)), h3]
        have hng : fn.ghost = false := by
          unfold isGhost at h1
          simp only [hf, Bool.false_and, Bool.false_eq_true, if_false, Bool.false_or] at h1
          cases hfg : fn.ghost with
          | false => rfl
          | true =>
            simp only [hfg, if_true] at h1
            split at h1
            · cases h1
            · cases h1; simp [AExpr.fl] at hh
        simp only [retOf, hf, hng, Bool.false_eq_true, if_false, hh.2] at h4
        exact .ret h4
      · cases he
    · cases he
  · cases he

theorem visit_return {fn : Fn} {e : Option Expr} {a : AStmt} (hfn : fn.ghost = false)
    (h : visitReturn P fn Γ false e = some a) (hc : clean P fn.ret Γ false (.ret e) = true) :
    keptS P Γ fn.ret (.ret e) a := by
  unfold visitReturn at h
  simp only [hfn, Bool.false_eq_true, if_false] at h
  split at h
  · cases h
    exact ⟨.inr ⟨.ret none, by simp [extractS, AStmt.plain], .retN⟩, fun _ => ⟨rfl, .retN⟩⟩
  · rename_i e
    split at h
    · rename_i hret
      rw [hret] at hc ⊢
      split at h
      · cases h
      · rename_i a' hm
        cases h
        exact ⟨.inr ⟨_, rfl, ret_mixed hm hc⟩, fun hh => by cases hh⟩
    · rename_i r hr
      split at h
      · cases h
      · rename_i a0 g0 he
        split at h
        · rename_i hg
          cases h
          cases hret : fn.ret with
          | mixed => exact absurd hret hr
          | ghost =>
            rw [hret] at hc hg
            refine ⟨.inr ⟨_, ?_, ret_ghost he hc hg⟩, fun hh => by simp [AStmt.fl] at hh⟩
            simp [extractS]
          | reg =>
            rw [hret] at hc hg
            simp only [show (Ret.reg == Ret.ghost) = false from rfl, assignable_false, Bool.not_eq_true'] at hg
            subst hg
            unfold clean at hc
            simp only [Bool.and_eq_true] at hc
            simp only [show (Ret.reg == Ret.ghost) = false from rfl, convert_id, Bool.false_or]
            obtain ⟨h1, h2, ⟨e', h3, h4⟩, h5⟩ := regular_kept he hc.2
            refine ⟨.inr ?_, fun hh => ⟨by simp [AStmt.plain, h2], .ret (h5 hh)⟩⟩
            cases hcon : a0.fl.contains with
            | false => exact ⟨.ret (some e), by simp [extractS, AStmt.plain, h2], .ret (h5 hcon)⟩
            | true => exact ⟨.ret (some e'), by simp [extractS, extractRet_regular h2 h1 hcon h3 h4], .ret h4⟩
        · cases h

theorem keptB_nil {r : Ret} : keptB P Γ r [] [] :=
  ⟨⟨[], by simp [extractAll], .nil⟩, fun _ => ⟨by simp [AStmt.plainAll], .nil⟩⟩

theorem keptB_cons {r : Ret} {s : Stmt} {ss : List Stmt} {a : AStmt} {as : List AStmt} (h : keptS P Γ r s a)
    (h' : keptB P Γ r ss as) : keptB P Γ r (s :: ss) (a :: as) := by
  obtain ⟨h1, h2⟩ := h
  obtain ⟨⟨ss', h3, h4⟩, h5⟩ := h'
  refine ⟨?_, fun hh => ?_⟩
  · rcases h1 with ⟨h1, hs⟩ | ⟨s', h1, hs⟩
    · exact ⟨ss', by simp [extractAll, h1, h3], .drop hs h4⟩
    · exact ⟨s' :: ss', by simp [extractAll, h1, h3], .cons hs h4⟩
  · rw [List.any_cons, Bool.or_eq_false_iff] at hh
    obtain ⟨h6, h7⟩ := h2 hh.1
    obtain ⟨h8, h9⟩ := h5 hh.2
    exact ⟨by simp [AStmt.plainAll, h6, h8], .cons h7 h9⟩

mutual
/-- What remains of a statement of a regular function. -/
theorem visit_false {fn : Fn} (hfn : fn.ghost = false) : ∀ (s : Stmt) {a : AStmt} {Γ' : Nat → Bool},
    visit P fn Γ false s = some (a, Γ') → clean P fn.ret Γ false s = true → Γ = Γ' ∧ keptS P Γ fn.ret s a
  | .assign ts e, a, Γ', h, hc => by
    unfold visit at h
    obtain ⟨a', ha, hx⟩ := Option.map_eq_some_iff.1 h
    cases hx
    exact ⟨rfl, visit_assign ha hc⟩
  | .aug x k e, a, Γ', h, hc => by
    unfold visit at h
    obtain ⟨a', ha, hx⟩ := Option.map_eq_some_iff.1 h
    cases hx
    exact ⟨rfl, visit_aug ha hc⟩
  | .expr e, a, Γ', h, hc => by
    unfold visit at h
    obtain ⟨a', ha, hx⟩ := Option.map_eq_some_iff.1 h
    cases hx
    exact ⟨rfl, visit_expr ha hc⟩
  | .ret e, a, Γ', h, hc => by
    unfold visit at h
    obtain ⟨a', ha, hx⟩ := Option.map_eq_some_iff.1 h
    cases hx
    exact ⟨rfl, visit_return hfn ha hc⟩
  | .brk, a, Γ', h, hc => by
    simp [visit] at h
    obtain ⟨rfl, rfl⟩ := h
    exact ⟨rfl, .inr ⟨.brk, by simp [extractS], .brk⟩, fun _ => ⟨by simp [AStmt.plain], .brk⟩⟩
  | .cont, a, Γ', h, hc => by
    simp [visit] at h
    obtain ⟨rfl, rfl⟩ := h
    exact ⟨rfl, .inr ⟨.cont, by simp [extractS], .cont⟩, fun _ => ⟨by simp [AStmt.plain], .cont⟩⟩
  | .pass, a, Γ', h, hc => by
    simp [visit] at h
    obtain ⟨rfl, rfl⟩ := h
    exact ⟨rfl, .inr ⟨.pass, by simp [extractS], .pass⟩, fun _ => ⟨by simp [AStmt.plain], .pass⟩⟩
  | .ite e b c, a, Γ', h, hc => by
    unfold visit at h
    unfold clean at hc
    simp only [Bool.false_or, Bool.and_eq_true, fine] at h hc
    split at h
    · cases h
    · rename_i a0 g0 he
      rw [← (isGhost_ghostly e he).1] at hc
      split at h
      · cases h
      · rename_i hres
        cases g0 with
        | true =>
          split at h
          · cases h
          · rename_i b' Γ1 hb
            obtain ⟨rfl, hb'⟩ := visitAll_true hfn b hb hc.1.2
            split at h
            · cases h
            · rename_i c' Γ2 hcc
              obtain ⟨rfl, hc'⟩ := visitAll_true hfn c hcc hc.2
              cases h
              refine ⟨rfl, .inl ?_, fun hh => by simp [AStmt.fl] at hh⟩
              simp only [if_true] at hc
              simp [extractS, silent, rescan_noImpure he (by simpa using hres) hc.1.1.2, hb', hc']
        | false =>
          split at h
          · cases h
          · rename_i b' Γ1 hb
            obtain ⟨rfl, ⟨b1, hb1, hb2⟩, hb3⟩ := visitAll_false hfn b hb hc.1.2
            split at h
            · cases h
            · rename_i c' Γ2 hcc
              obtain ⟨rfl, ⟨c1, hc1, hc2⟩, hc3⟩ := visitAll_false hfn c hcc hc.2
              cases h
              simp only [Bool.false_eq_true, if_false] at hc
              obtain ⟨h1, h2, ⟨e', h3, h4⟩, h5⟩ := regular_kept he hc.1.1.2
              have hflat : (a0.fl.contains || b'.any (·.fl.contains) || c'.any (·.fl.contains)) = false →
                  (AStmt.ite a0 b' c' ⟨false, false⟩).plain = .ite e b c ∧ RelS P Γ fn.ret (.ite e b c) (.ite e b c) := by
                intro hh
                rw [Bool.or_eq_false_iff, Bool.or_eq_false_iff] at hh
                obtain ⟨q1, q2⟩ := hb3 hh.1.2
                obtain ⟨q3, q4⟩ := hc3 hh.2
                exact ⟨by simp only [AStmt.plain, h2, q1, q3], .ite (h5 hh.1.1) q2 q4⟩
              refine ⟨rfl, .inr ?_, fun hh => hflat hh⟩
              simp only [Bool.false_or]
              cases hcon : (a0.fl.contains || b'.any (·.fl.contains) || c'.any (·.fl.contains)) with
              | false => exact ⟨_, by simp only [extractS, Bool.false_eq_true, if_false, Bool.not_false, if_true]; rw [(hflat hcon).1], (hflat hcon).2⟩
              | true => exact ⟨.ite e' b1 c1, by simp [extractS, h3, hb1, hc1], .ite h4 hb2 hc2⟩
  | .whil e b c, a, Γ', h, hc => by
    unfold visit at h
    unfold clean at hc
    simp only [Bool.false_or, Bool.and_eq_true, fine] at h hc
    split at h
    · cases h
    · rename_i a0 g0 he
      rw [← (isGhost_ghostly e he).1] at hc
      split at h
      · cases h
      · rename_i hres
        cases g0 with
        | true =>
          split at h
          · cases h
          · rename_i b' Γ1 hb
            obtain ⟨rfl, hb'⟩ := visitAll_true hfn b hb hc.1.2
            split at h
            · cases h
            · rename_i c' Γ2 hcc
              obtain ⟨rfl, hc'⟩ := visitAll_true hfn c hcc hc.2
              cases h
              refine ⟨rfl, .inl ?_, fun hh => by simp [AStmt.fl] at hh⟩
              simp only [if_true] at hc
              simp [extractS, silent, rescan_noImpure he (by simpa using hres) hc.1.1.2, hb', hc']
        | false =>
          split at h
          · cases h
          · rename_i b' Γ1 hb
            obtain ⟨rfl, ⟨b1, hb1, hb2⟩, hb3⟩ := visitAll_false hfn b hb hc.1.2
            split at h
            · cases h
            · rename_i c' Γ2 hcc
              obtain ⟨rfl, ⟨c1, hc1, hc2⟩, hc3⟩ := visitAll_false hfn c hcc hc.2
              cases h
              simp only [Bool.false_eq_true, if_false] at hc
              obtain ⟨h1, h2, ⟨e', h3, h4⟩, h5⟩ := regular_kept he hc.1.1.2
              have hflat : (a0.fl.contains || b'.any (·.fl.contains) || c'.any (·.fl.contains)) = false →
                  (AStmt.whil a0 b' c' ⟨false, false⟩).plain = .whil e b c ∧ RelS P Γ fn.ret (.whil e b c) (.whil e b c) := by
                intro hh
                rw [Bool.or_eq_false_iff, Bool.or_eq_false_iff] at hh
                obtain ⟨q1, q2⟩ := hb3 hh.1.2
                obtain ⟨q3, q4⟩ := hc3 hh.2
                exact ⟨by simp only [AStmt.plain, h2, q1, q3], .whil (h5 hh.1.1) q2 q4⟩
              refine ⟨rfl, .inr ?_, fun hh => hflat hh⟩
              simp only [Bool.false_or]
              cases hcon : (a0.fl.contains || b'.any (·.fl.contains) || c'.any (·.fl.contains)) with
              | false => exact ⟨_, by simp only [extractS, Bool.false_eq_true, if_false, Bool.not_false, if_true]; rw [(hflat hcon).1], (hflat hcon).2⟩
              | true => exact ⟨.whil e' b1 c1, by simp [extractS, h3, hb1, hc1], .whil h4 hb2 hc2⟩
  | .forr x e b c, a, Γ', h, hc => by
    unfold visit at h
    unfold clean at hc
    simp only [Bool.false_or, Bool.and_eq_true, fine] at h hc
    split at h
    · cases h
    · rename_i a0 g0 he
      rw [← (isGhost_ghostly e he).1] at hc
      split at h
      · cases h
      · rename_i hres
        cases g0 with
        | true =>
          simp only [Bool.not_true, Bool.false_or] at hc
          have hx := hc.1.1.2
          simp only [if_true, mark_eq hx] at h
          split at h
          · cases h
          · rename_i b' Γ1 hb
            obtain ⟨rfl, hb'⟩ := visitAll_true hfn b hb hc.1.2
            split at h
            · cases h
            · rename_i c' Γ2 hcc
              obtain ⟨rfl, hc'⟩ := visitAll_true hfn c hcc hc.2
              cases h
              refine ⟨rfl, .inl ?_, fun hh => by simp [AStmt.fl] at hh⟩
              simp only [if_true] at hc
              simp [extractS, silent, rescan_noImpure he (by simpa using hres) hc.1.1.1.2, hb', hc', hx]
        | false =>
          simp only [Bool.false_eq_true, if_false] at h
          split at h
          · cases h
          · rename_i b' Γ1 hb
            obtain ⟨rfl, ⟨b1, hb1, hb2⟩, hb3⟩ := visitAll_false hfn b hb hc.1.2
            split at h
            · cases h
            · rename_i c' Γ2 hcc
              obtain ⟨rfl, ⟨c1, hc1, hc2⟩, hc3⟩ := visitAll_false hfn c hcc hc.2
              cases h
              simp only [Bool.false_eq_true, if_false] at hc
              obtain ⟨h1, h2, ⟨e', h3, h4⟩, h5⟩ := regular_kept he hc.1.1.1.2
              have hflat : (a0.fl.contains || b'.any (·.fl.contains) || c'.any (·.fl.contains)) = false →
                  (AStmt.forr x a0 b' c' ⟨false, false⟩).plain = .forr x e b c ∧
                    RelS P Γ fn.ret (.forr x e b c) (.forr x e b c) := by
                intro hh
                rw [Bool.or_eq_false_iff, Bool.or_eq_false_iff] at hh
                obtain ⟨q1, q2⟩ := hb3 hh.1.2
                obtain ⟨q3, q4⟩ := hc3 hh.2
                exact ⟨by simp only [AStmt.plain, h2, q1, q3], .forr (h5 hh.1.1) q2 q4⟩
              refine ⟨rfl, .inr ?_, fun hh => hflat hh⟩
              simp only [Bool.false_or]
              cases hcon : (a0.fl.contains || b'.any (·.fl.contains) || c'.any (·.fl.contains)) with
              | false => exact ⟨_, by simp only [extractS, Bool.false_eq_true, if_false, Bool.not_false, if_true]; rw [(hflat hcon).1], (hflat hcon).2⟩
              | true => exact ⟨.forr x e' b1 c1, by simp [extractS, h3, hb1, hc1], .forr h4 hb2 hc2⟩

theorem visitAll_false {fn : Fn} (hfn : fn.ghost = false) : ∀ (ss : List Stmt) {a : List AStmt} {Γ' : Nat → Bool},
    visitAll P fn Γ false ss = some (a, Γ') → cleanB P fn.ret Γ false ss = true → Γ = Γ' ∧ keptB P Γ fn.ret ss a
  | [], a, Γ', h, hc => by
    simp [visitAll] at h
    obtain ⟨rfl, rfl⟩ := h
    exact ⟨rfl, keptB_nil⟩
  | s :: ss, a, Γ', h, hc => by
    unfold visitAll at h
    unfold cleanB at hc
    rw [Bool.and_eq_true] at hc
    split at h
    · cases h
    · rename_i s' Γ1 hs
      obtain ⟨rfl, h1⟩ := visit_false hfn s hs hc.1
      split at h
      · cases h
      · rename_i ss' Γ2 hss
        obtain ⟨rfl, h2⟩ := visitAll_false hfn ss hss hc.2
        cases h
        exact ⟨rfl, keptB_cons h1 h2⟩
end

/-! ### Programs -/

theorem noEffect_of (ha : Accepted P) (hc : Clean P) (hp : PureOk P) : NoEffect P := by
  intro f fn hf hgp
  have h1 := ha f fn hf
  have h2 := hc f fn hf
  cases hg : fn.ghost with
  | true =>
    rw [hg] at h2
    simp only [if_true] at h2
    obtain ⟨as, has⟩ := Option.isSome_iff_exists.1 h1
    unfold checkFn at has
    obtain ⟨⟨as', Γ'⟩, hv, _⟩ := Option.map_eq_some_iff.1 has
    rw [hg] at hv
    exact visitAll_ghost hg fn.body hv h2
  | false =>
    rw [hg] at hgp
    exact hp f fn hf hg (by simpa using hgp)

theorem remains_of (ha : Accepted P) (hc : Clean P) : Remains P (extract P) := by
  intro f fn hf hg
  have h1 := ha f fn hf
  have h2 := hc f fn hf
  rw [hg] at h2
  simp only [Bool.false_eq_true, if_false] at h2
  obtain ⟨as, has⟩ := Option.isSome_iff_exists.1 h1
  have hchk := has
  unfold checkFn at has
  obtain ⟨⟨as', Γ'⟩, hv, rfl⟩ := Option.map_eq_some_iff.1 has
  rw [hg] at hv
  obtain ⟨-, ⟨ss', h3, h4⟩, -⟩ := visitAll_false hg fn.body hv h2
  refine ⟨{ fn with params := fn.params.filter (!fn.gvar ·), body := ss' }, ?_, rfl, h4⟩
  simp [extract, hf, extractFn, hg, hchk, h3]

end Nagini.Ghost
