import Verif.Lemmas.Ghost
set_option linter.unusedVariables false
set_option linter.unusedSimpArgs false
namespace Nagini.Ghost

/-! ### Every run of what remains has a corresponding run of the original program, or harmless code fails -/

variable {W : Type} {L : Lib W} {P Q : Prog}

/-- The original expression has a corresponding run or fails. -/
def BackE (L : Lib W) (P : Prog) (Γ : Nat → Bool) (k : Ret) (ρ : Env) (w : W) (e : Expr) (w' : W) (v' : Val) : Prop :=
  (∃ v, Run L P (.expr ρ w e) (.val w' v) ∧ RetRel k v v') ∨ Fails L P Γ (.expr ρ w e)

def BackEs (L : Lib W) (P : Prog) (Γ : Nat → Bool) (ρ : Env) (w : W) (es : List Expr) (w' : W) (vs : List Val) : Prop :=
  Run L P (.args ρ w es) (.vals w' vs) ∨ Fails L P Γ (.args ρ w es)

def BackA (L : Lib W) (P : Prog) (Γ : Nat → Bool) (ρ : Env) (w : W) (ps : List Bool) (es : List Expr) (w' : W)
    (vs' : List Val) : Prop :=
  (∃ vs, Run L P (.args ρ w es) (.vals w' vs) ∧ vs' = keep ps vs ∧ vs.length = ps.length) ∨
    Fails L P Γ (.args ρ w es)

def BackS (L : Lib W) (P : Prog) (Γ : Nat → Bool) (r : Ret) (j : Job W) (ρ1' : Env) (w1 : W) (o' : Out) : Prop :=
  (∃ ρ1 o, Run L P j (.done ρ1 w1 o) ∧ Agree Γ ρ1 ρ1' ∧ OutRel r o o') ∨ Fails L P Γ j

def Back (L : Lib W) (P : Prog) : Job W → Res W → Prop
  | .expr ρ' w e', .val w' v' => ∀ Γ ρ k e, Agree Γ ρ ρ' → RelE P Γ k e e' → BackE L P Γ k ρ w e w' v'
  | .args ρ' w es', .vals w' vs' => ∀ Γ ρ, Agree Γ ρ ρ' →
      (∀ es, RelEs P Γ es es' → BackEs L P Γ ρ w es w' vs') ∧
      (∀ ps es, RelA P Γ ps es es' → BackA L P Γ ρ w ps es w' vs')
  | .stmt ρ' w s', .done ρ1' w1 o' => ∀ Γ r ρ s, Agree Γ ρ ρ' → RelS P Γ r s s' →
      BackS L P Γ r (.stmt ρ w s) ρ1' w1 o'
  | .block ρ' w ss', .done ρ1' w1 o' => ∀ Γ r ρ ss, Agree Γ ρ ρ' → RelB P Γ r ss ss' →
      BackS L P Γ r (.block ρ w ss) ρ1' w1 o'
  | .each ρ' w x vs a' b', .done ρ1' w1 o' => ∀ Γ r ρ a b, Agree Γ ρ ρ' → RelB P Γ r a a' → RelB P Γ r b b' →
      BackS L P Γ r (.each ρ w x vs a b) ρ1' w1 o'
  | _, _ => True

/-! ### Harmless code -/

/-- An expression without impure calls has a value, without changing the world, or fails. -/
theorem harmless_expr (hP : NoEffect P) (Γ : Nat → Bool) (ρ : Env) (w : W) {e : Expr} (h : noImpure P e = true) :
    (∃ v, Run L P (.expr ρ w e) (.val w v)) ∨ Fails L P Γ (.expr ρ w e) := by
  by_cases hr : ∃ r, Run L P (.expr ρ w e) r
  · obtain ⟨r, hr⟩ := hr
    have hw := run_world hP hr h
    have : ∃ w' v, r = .val w' v := by cases hr <;> exact ⟨_, _, rfl⟩
    obtain ⟨w', v, rfl⟩ := this
    simp only [Res.world, Job.world] at hw
    subst hw
    exact .inl ⟨v, hr⟩
  · exact .inr (.expr h (fun r h => hr ⟨r, h⟩))

def Job.isStmt : Job W → Bool
  | .expr .. => false
  | .args .. => false
  | _ => true

theorem run_done {j : Job W} {r : Res W} (h : Run L P j r) : j.isStmt = true → ∃ ρ w o, r = .done ρ w o := by
  induction h <;> simp_all [Job.isStmt]

/-- A silent statement ends normally, without changing the world or regular variables, or fails. -/
theorem harmless_stmt (hP : NoEffect P) {Γ : Nat → Bool} (ρ : Env) (w : W) {s : Stmt} (h : silent P Γ s = true) :
    (∃ ρ1, Run L P (.stmt ρ w s) (.done ρ1 w .norm) ∧ Agree Γ ρ1 ρ) ∨ Fails L P Γ (.stmt ρ w s) := by
  by_cases hr : ∃ r, Run L P (.stmt ρ w s) r
  · obtain ⟨r, hr⟩ := hr
    obtain ⟨ρ1, w1, o, rfl⟩ := run_done hr rfl
    have := run_silent (Γ := Γ) hP hr h
    obtain ⟨rfl, h2, h3⟩ := this
    cases h2
    exact .inl ⟨ρ1, hr, h3⟩
  · exact .inr (.stmt h (fun r h => hr ⟨r, h⟩))

/-! ### Parts that are dropped -/

/-- It suffices to consider arguments that start with one that is kept. -/
theorem wrapA (hP : NoEffect P) {Γ : Nat → Bool} {ρ : Env} {w w' : W} {es' : List Expr} {vs' : List Val}
    (h0 : es' = [] → w' = w ∧ vs' = [])
    (h1 : ∀ ps e e1' es1' es, es' = e1' :: es1' → RelE P Γ .reg e e1' → RelA P Γ ps es es1' →
      BackA L P Γ ρ w (false :: ps) (e :: es) w' vs') :
    ∀ ps es, RelA P Γ ps es es' → BackA L P Γ ρ w ps es w' vs' := by
  intro ps es
  induction es generalizing ps with
  | nil =>
    intro h
    cases h
    obtain ⟨rfl, rfl⟩ := h0 rfl
    exact .inl ⟨[], .nil, rfl, rfl⟩
  | cons e es ih =>
    intro h
    cases h with
    | drop hn h =>
      rcases harmless_expr (L := L) hP Γ ρ w hn with ⟨v, hr⟩ | hf
      · rcases ih _ h with ⟨vs, hrs, hk, hl⟩ | hf
        · exact .inl ⟨v :: vs, .cons hr hrs, by simpa [keep] using hk, by simpa using hl⟩
        · exact .inr (.tail hr hf)
      · exact .inr (.head hf)
    | keep he h => exact h1 _ _ _ _ _ rfl he h

/-- It suffices to consider blocks that start with a statement that is kept. -/
theorem wrapB (hP : NoEffect P) {Γ : Nat → Bool} {r : Ret} {ρ' ρ1' : Env} {w w' : W} {ss' : List Stmt} {o' : Out}
    (h0 : ss' = [] → ρ1' = ρ' ∧ w' = w ∧ o' = .norm)
    (h1 : ∀ ρ s s1' ss1' ss, Agree Γ ρ ρ' → ss' = s1' :: ss1' → RelS P Γ r s s1' → RelB P Γ r ss ss1' →
      BackS L P Γ r (.block ρ w (s :: ss)) ρ1' w' o') :
    ∀ ρ ss, Agree Γ ρ ρ' → RelB P Γ r ss ss' → BackS L P Γ r (.block ρ w ss) ρ1' w' o'
  | ρ, [], ha, h => by
    cases h
    obtain ⟨rfl, rfl, rfl⟩ := h0 rfl
    exact .inl ⟨ρ, .norm, .nilB, ha, trivial⟩
  | ρ, s :: ss, ha, h => by
    cases h with
    | drop hs h =>
      rcases harmless_stmt (L := L) hP ρ w hs with ⟨ρ1, hr, ha1⟩ | hf
      · rcases wrapB hP h0 h1 ρ1 ss (ha1.trans ha) h with ⟨ρ2, o, hr2, ha2, ho⟩ | hf
        · exact .inl ⟨ρ2, o, .consN hr hr2, ha2, ho⟩
        · exact .inr (.rest hr hf)
      · exact .inr (.first hf)
    | cons hs h => exact h1 _ _ _ _ _ ha rfl hs h

theorem RetRel.pair_fst {k : Ret} (hk : k ≠ .reg) (a b : Val) : RetRel k (.tup [a, b]) a := by
  cases k with
  | reg => exact absurd rfl hk
  | ghost => trivial
  | mixed => exact .inr ⟨_, _, rfl, rfl⟩

/-- It suffices to consider expressions from which no part of a tuple remains. -/
theorem wrapE (hP : NoEffect P) {Γ : Nat → Bool} {ρ : Env} {w w' : W} {e' : Expr} {v' : Val}
    (h1 : ∀ h es k, (∀ e1 e2, h = .tuple → es = [e1, e2] → k = .reg) → RelE P Γ k (.node h es) e' →
      BackE L P Γ k ρ w (.node h es) w' v') :
    ∀ e k, RelE P Γ k e e' → BackE L P Γ k ρ w e w' v'
  | .node h [], k, hr => h1 _ _ _ (by simp) hr
  | .node h [a], k, hr => h1 _ _ _ (by simp) hr
  | .node h (a :: b :: c :: es), k, hr => h1 _ _ _ (by simp) hr
  | .node h [a, b], k, hr => by
    have keepit := h1 h [a, b] k
    generalize hee : Expr.node h [a, b] = ee at hr
    generalize hte : e' = te at hr
    cases hr with
    | const => subst hte; rw [← hee]; refine keepit (by simp) ?_; rw [hee]; exact .const
    | none => subst hte; rw [← hee]; refine keepit (by simp) ?_; rw [hee]; exact .none
    | var hx => subst hte; rw [← hee]; refine keepit (by simp) ?_; rw [hee]; exact .var hx
    | node hc hs => subst hte; rw [← hee]; refine keepit (by simp) ?_; rw [hee]; exact .node hc hs
    | call hf hg ha =>
      subst hte
      cases hee
      exact keepit (by simp) (.call hf hg ha)
    | fst hne he hn =>
      subst hte
      cases hee
      rcases wrapE hP h1 a .reg he with ⟨v1, r1, e1⟩ | hf
      · cases e1
        rcases harmless_expr (L := L) hP Γ ρ w' hn with ⟨v2, r2⟩ | hf
        · exact .inl ⟨_, .tuple (.cons r1 (.cons r2 .nil)), RetRel.pair_fst hne _ _⟩
        · exact .inr (.parts rfl (.tail r1 (.head hf)))
      · exact .inr (.parts rfl (.head hf))
    | snd he hn =>
      subst hte
      cases hee
      rcases harmless_expr (L := L) hP Γ ρ w hn with ⟨v1, r1⟩ | hf
      · rcases wrapE hP h1 b .reg he with ⟨v2, r2, e2⟩ | hf
        · exact .inl ⟨_, .tuple (.cons r1 (.cons r2 .nil)), trivial⟩
        · exact .inr (.parts rfl (.tail r1 (.head hf)))
      · exact .inr (.parts rfl (.head hf))

theorem sets_of_len : ∀ {xs : List Nat} {vs : List Val} {ρ : Env}, vs.length = xs.length → ∃ ρ1, ρ.sets xs vs = some ρ1
  | [], [], ρ, _ => ⟨ρ, rfl⟩
  | x :: xs, v :: vs, ρ, h => sets_of_len (xs := xs) (vs := vs) (by simpa using h)
  | [], _ :: _, _, h => by simp at h
  | _ :: _, [], _, h => by simp at h

theorem OutRel.result' {r : Ret} {o o' : Out} {v' : Val} (h : OutRel r o o') (ho : o'.result = some v') :
    ∃ v, o.result = some v ∧ RetRel r v v' := by
  cases o <;> cases o' <;> simp_all [OutRel, Out.result]
  subst ho
  cases r <;> simp [RetRel]

theorem OutRel.go' {r : Ret} {o o' : Out} (h : OutRel r o o') (ho : o' = .norm ∨ o' = .cont) : o = .norm ∨ o = .cont := by
  rcases ho with rfl | rfl <;> cases o <;> simp_all [OutRel]

theorem OutRel.norm' {r : Ret} {o : Out} (h : OutRel r o .norm) : o = .norm := by cases o <;> simp_all [OutRel]
theorem OutRel.brk' {r : Ret} {o : Out} (h : OutRel r o .brk) : o = .brk := by cases o <;> simp_all [OutRel]
theorem OutRel.ret' {r : Ret} {o : Out} {v' : Val} (h : OutRel r o (.ret v')) : ∃ v, o = .ret v ∧ RetRel r v v' := by
  cases o <;> simp_all [OutRel]
theorem OutRel.ne' {r : Ret} {o o' : Out} (h : OutRel r o o') (ho : o' ≠ .norm) : o ≠ .norm := by
  rintro rfl; exact ho h.norm

/-- Every run of what remains has a corresponding run of the original program, unless harmless code fails. -/
theorem run_back (hP : NoEffect P) (hQ : Remains P Q)
    {j : Job W} {r : Res W} (h : Run L Q j r) : Back L P j r := by
  induction h with
  | const =>
    intro Γ ρ k e ha hr
    refine wrapE hP (fun h es k hk hr => ?_) e k hr
    generalize hk0 : k = k0 at hr
    cases hr with
    | const => exact .inl ⟨_, .const, rfl⟩
    | node hc _ => simp [Head.copied] at hc
    | fst hne => exact absurd (hk _ _ rfl rfl) (by rw [hk0]; exact hne)
    | snd => have := hk _ _ rfl rfl; simp [hk0] at this
  | none =>
    intro Γ ρ k e ha hr
    refine wrapE hP (fun h es k hk hr => ?_) e k hr
    generalize hk0 : k = k0 at hr
    cases hr with
    | none => exact .inl ⟨_, .none, rfl⟩
    | node hc _ => simp [Head.copied] at hc
    | fst hne => exact absurd (hk _ _ rfl rfl) (by rw [hk0]; exact hne)
    | snd => have := hk _ _ rfl rfl; simp [hk0] at this
  | var hx =>
    intro Γ ρ k e ha hr
    refine wrapE hP (fun h es k hk hr => ?_) e k hr
    generalize hk0 : k = k0 at hr
    cases hr with
    | var hg => exact .inl ⟨_, .var ((ha _ hg).trans hx), rfl⟩
    | node hc _ => simp [Head.copied] at hc
    | fst hne => exact absurd (hk _ _ rfl rfl) (by rw [hk0]; exact hne)
    | snd => have := hk _ _ rfl rfl; simp [hk0] at this
  | op _ ho ih =>
    intro Γ ρ k e ha hr
    refine wrapE hP (fun h es k hk hr => ?_) e k hr
    generalize hk0 : k = k0 at hr
    cases hr with
    | node _ hs =>
      rcases (ih Γ ρ ha).1 _ hs with hr | hf
      · exact .inl ⟨_, .op hr ho, rfl⟩
      · exact .inr (.parts rfl hf)
    | fst hne => exact absurd (hk _ _ rfl rfl) (by rw [hk0]; exact hne)
    | snd => have := hk _ _ rfl rfl; simp [hk0] at this
  | tuple _ ih =>
    intro Γ ρ k e ha hr
    refine wrapE hP (fun h es k hk hr => ?_) e k hr
    generalize hk0 : k = k0 at hr
    cases hr with
    | node _ hs =>
      rcases (ih Γ ρ ha).1 _ hs with hr | hf
      · exact .inl ⟨_, .tuple hr, rfl⟩
      · exact .inr (.parts rfl hf)
    | fst hne => exact absurd (hk _ _ rfl rfl) (by rw [hk0]; exact hne)
    | snd => have := hk _ _ rfl rfl; simp [hk0] at this
  | condT _ ht _ ih1 ih2 =>
    intro Γ ρ k e ha hr
    refine wrapE hP (fun h es k hk hr => ?_) e k hr
    generalize hk0 : k = k0 at hr
    cases hr with
    | node _ hs =>
      cases hs with
      | cons h1 hs =>
        cases hs with
        | cons h2 hs =>
          cases hs with
          | cons h3 hs =>
            cases hs
            rcases ih1 Γ ρ _ _ ha h1 with ⟨v1, r1, e1⟩ | hf
            · cases e1
              rcases ih2 Γ ρ _ _ ha h2 with ⟨v2, r2, e2⟩ | hf
              · exact .inl ⟨_, .condT r1 ht r2, e2⟩
              · exact .inr (.condT r1 ht hf)
            · exact .inr (.condC hf)
    | fst hne => exact absurd (hk _ _ rfl rfl) (by rw [hk0]; exact hne)
    | snd => have := hk _ _ rfl rfl; simp [hk0] at this
  | condF _ ht _ ih1 ih2 =>
    intro Γ ρ k e ha hr
    refine wrapE hP (fun h es k hk hr => ?_) e k hr
    generalize hk0 : k = k0 at hr
    cases hr with
    | node _ hs =>
      cases hs with
      | cons h1 hs =>
        cases hs with
        | cons h2 hs =>
          cases hs with
          | cons h3 hs =>
            cases hs
            rcases ih1 Γ ρ _ _ ha h1 with ⟨v1, r1, e1⟩ | hf
            · cases e1
              rcases ih2 Γ ρ _ _ ha h3 with ⟨v2, r2, e2⟩ | hf
              · exact .inl ⟨_, .condF r1 ht r2, e2⟩
              · exact .inr (.condF r1 ht hf)
            · exact .inr (.condC hf)
    | fst hne => exact absurd (hk _ _ rfl rfl) (by rw [hk0]; exact hne)
    | snd => have := hk _ _ rfl rfl; simp [hk0] at this
  | attr _ ht ih =>
    intro Γ ρ k e ha hr
    refine wrapE hP (fun h es k hk hr => ?_) e k hr
    generalize hk0 : k = k0 at hr
    cases hr with
    | node _ hs =>
      cases hs with
      | cons h1 hs =>
        cases hs
        rcases ih Γ ρ _ _ ha h1 with ⟨v1, r1, e1⟩ | hf
        · cases e1
          exact .inl ⟨_, .attr r1 ht, rfl⟩
        · exact .inr (.attr hf)
    | fst hne => exact absurd (hk _ _ rfl rfl) (by rw [hk0]; exact hne)
    | snd => have := hk _ _ rfl rfl; simp [hk0] at this
  | builtin _ ho ih =>
    intro Γ ρ k e ha hr
    refine wrapE hP (fun h es k hk hr => ?_) e k hr
    generalize hk0 : k = k0 at hr
    cases hr with
    | node _ hs =>
      rcases (ih Γ ρ ha).1 _ hs with hr | hf
      · exact .inl ⟨_, .builtin hr ho, rfl⟩
      · exact .inr (.parts rfl hf)
    | fst hne => exact absurd (hk _ _ rfl rfl) (by rw [hk0]; exact hne)
    | snd => have := hk _ _ rfl rfl; simp [hk0] at this
  | prim _ ho ih =>
    intro Γ ρ k e ha hr
    refine wrapE hP (fun h es k hk hr => ?_) e k hr
    generalize hk0 : k = k0 at hr
    cases hr with
    | node _ hs =>
      rcases (ih Γ ρ ha).1 _ hs with hr | hf
      · exact .inl ⟨_, .prim hr ho, rfl⟩
      · exact .inr (.parts rfl hf)
    | fst hne => exact absurd (hk _ _ rfl rfl) (by rw [hk0]; exact hne)
    | snd => have := hk _ _ rfl rfl; simp [hk0] at this
  | call _ hq hs _ ho ih1 ih2 =>
    intro Γ ρ k e ha hr
    refine wrapE hP (fun h es k hk hr => ?_) e k hr
    generalize hk0 : k = k0 at hr
    cases hr with
    | call hf hg hargs =>
      obtain ⟨fn', hq', hpar, hbody⟩ := hQ _ _ hf hg
      cases hq.symm.trans hq'
      rcases (ih1 Γ ρ ha).2 _ _ hargs with ⟨vs, hrs, rfl, hl⟩ | hF
      · obtain ⟨ρ0, hs0⟩ := sets_of_len (xs := _) (ρ := Env.empty) (hl.trans (List.length_map _))
        obtain ⟨ρ0', hs', ha0⟩ := sets_keep hs0 (Agree.refl _)
        rw [← hpar, hs] at hs'
        cases hs'
        rcases ih2 _ _ _ _ ha0 hbody with ⟨ρ1, o, hr, _, hor⟩ | hF
        · obtain ⟨v, hv, hrel⟩ := hor.result' ho
          exact .inl ⟨v, .call hrs hf hs0 hr hv, hrel⟩
        · exact .inr (.body hrs hf hs0 hF)
      · exact .inr (.parts rfl hF)
    | node hc _ => simp [Head.copied] at hc
    | fst hne => exact absurd (hk _ _ rfl rfl) (by rw [hk0]; exact hne)
    | snd => have := hk _ _ rfl rfl; simp [hk0] at this
  | nil =>
    intro Γ ρ ha
    refine ⟨fun es h => ?_, wrapA hP (fun _ => ⟨rfl, rfl⟩) (by simp)⟩
    cases h
    exact .inl .nil
  | cons _ _ ih1 ih2 =>
    intro Γ ρ ha
    refine ⟨fun es h => ?_, wrapA hP (by simp) (fun ps e e1' es1' es heq he hs => ?_)⟩
    · cases h with
      | cons he hs =>
        rcases ih1 Γ ρ _ _ ha he with ⟨v1, r1, e1⟩ | hf
        · cases e1
          rcases (ih2 Γ ρ ha).1 _ hs with r2 | hf
          · exact .inl (.cons r1 r2)
          · exact .inr (.tail r1 hf)
        · exact .inr (.head hf)
    · cases heq
      rcases ih1 Γ ρ _ _ ha he with ⟨v1, r1, e1⟩ | hf
      · cases e1
        rcases (ih2 Γ ρ ha).2 _ _ hs with ⟨vs, r2, hk, hl⟩ | hf
        · exact .inl ⟨_, .cons r1 r2, by simp [keep, hk], by simpa using hl⟩
        · exact .inr (.tail r1 hf)
      · exact .inr (.head hf)
  | assign _ hs ih =>
    intro Γ r ρ s ha hr
    cases hr with
    | asg h1 =>
      rcases ih Γ ρ _ _ ha h1 with ⟨v1, r1, e1⟩ | hf
      · cases e1
        obtain ⟨ρ1, h2, h3⟩ := assignTs_agree hs ha.symm
        exact .inl ⟨_, _, .assign r1 h2, h3.symm, trivial⟩
      · exact .inr (.value rfl hf)
    | @asgMixed x g e e' hg h1 =>
      rcases ih Γ ρ _ _ ha h1 with ⟨v1, r1, e1⟩ | hf
      · rcases e1 with rfl | ⟨a, b, rfl, rfl⟩
        · exact .inr (.unpack r1 rfl (by simp [Target.vars, hg]))
        · simp only [assignTs, assignT, Option.some.injEq] at hs
          subst hs
          exact .inl ⟨_, _, .assign r1 rfl, (ha.set _ _).setGhost hg _, trivial⟩
      · exact .inr (.value rfl hf)
  | aug hx _ ho ih =>
    intro Γ r ρ s ha hr
    cases hr with
    | aug hg h1 =>
      rcases ih Γ ρ _ _ ha h1 with ⟨v1, r1, e1⟩ | hf
      · cases e1
        exact .inl ⟨_, _, .aug ((ha _ hg).trans hx) r1 ho, ha.set _ _, trivial⟩
      · exact .inr (.value rfl hf)
  | exprS _ ih =>
    intro Γ r ρ s ha hr
    cases hr with
    | expr h1 =>
      rcases ih Γ ρ _ _ ha h1 with ⟨v1, r1, e1⟩ | hf
      · exact .inl ⟨_, _, .exprS r1, ha, trivial⟩
      · exact .inr (.value rfl hf)
    | @asgCall k ts e e' hg h1 =>
      rcases ih Γ ρ _ _ ha h1 with ⟨v1, r1, e1⟩ | hf
      · cases hs : assignTs ρ v1 ts with
        | none => exact .inr (.unpack r1 hs (by rw [hg]; rfl))
        | some ρ1 => exact .inl ⟨_, _, .assign r1 hs, (assignTs_ghost hs hg).trans ha, trivial⟩
      · exact .inr (.value rfl hf)
  | @iteT ρ' w e' a' b' w' v r _ ht hrun ih1 ih2 =>
    obtain ⟨ρ2, w2, o2, rfl⟩ := run_done hrun rfl
    intro Γ r ρ s ha hr
    cases hr with
    | ite h1 h2 h3 =>
      rcases ih1 Γ ρ _ _ ha h1 with ⟨v1, r1, e1⟩ | hf
      · cases e1
        rcases ih2 Γ r ρ _ ha h2 with ⟨ρ3, o3, r2, a2, or2⟩ | hf
        · exact .inl ⟨_, _, .iteT r1 ht r2, a2, or2⟩
        · exact .inr (.iteT r1 ht hf)
      · exact .inr (.value rfl hf)
  | @iteF ρ' w e' a' b' w' v r _ ht hrun ih1 ih2 =>
    obtain ⟨ρ2, w2, o2, rfl⟩ := run_done hrun rfl
    intro Γ r ρ s ha hr
    cases hr with
    | ite h1 h2 h3 =>
      rcases ih1 Γ ρ _ _ ha h1 with ⟨v1, r1, e1⟩ | hf
      · cases e1
        rcases ih2 Γ r ρ _ ha h3 with ⟨ρ3, o3, r2, a2, or2⟩ | hf
        · exact .inl ⟨_, _, .iteF r1 ht r2, a2, or2⟩
        · exact .inr (.iteF r1 ht hf)
      · exact .inr (.value rfl hf)
  | @whileF ρ' w e' a' b' w' v r _ ht hrun ih1 ih2 =>
    obtain ⟨ρ2, w2, o2, rfl⟩ := run_done hrun rfl
    intro Γ r ρ s ha hr
    cases hr with
    | whil h1 h2 h3 =>
      rcases ih1 Γ ρ _ _ ha h1 with ⟨v1, r1, e1⟩ | hf
      · cases e1
        rcases ih2 Γ r ρ _ ha h3 with ⟨ρ3, o3, r2, a2, or2⟩ | hf
        · exact .inl ⟨_, _, .whileF r1 ht r2, a2, or2⟩
        · exact .inr (.whileF r1 ht hf)
      · exact .inr (.value rfl hf)
  | @whileN ρ' w e' a' b' w' v ρ1 w1 o r _ ht _ ho hrun ih1 ih2 ih3 =>
    obtain ⟨ρ2, w2, o2, rfl⟩ := run_done hrun rfl
    intro Γ r ρ s ha hr
    have hr' := hr
    cases hr with
    | whil h1 h2 h3 =>
      rcases ih1 Γ ρ _ _ ha h1 with ⟨v1, r1, e1⟩ | hf
      · cases e1
        rcases ih2 Γ r ρ _ ha h2 with ⟨ρ3, o3, r2, a2, or2⟩ | hf
        · rcases ih3 Γ r ρ3 _ a2 hr' with ⟨ρ4, o4, r4, a4, or4⟩ | hf
          · exact .inl ⟨_, _, .whileN r1 ht r2 (or2.go' ho) r4, a4, or4⟩
          · exact .inr (.whileN r1 ht r2 (or2.go' ho) hf)
        · exact .inr (.whileT r1 ht hf)
      · exact .inr (.value rfl hf)
  | whileB _ ht _ ih1 ih2 =>
    intro Γ r ρ s ha hr
    cases hr with
    | whil h1 h2 h3 =>
      rcases ih1 Γ ρ _ _ ha h1 with ⟨v1, r1, e1⟩ | hf
      · cases e1
        rcases ih2 Γ r ρ _ ha h2 with ⟨ρ3, o3, r2, a2, or2⟩ | hf
        · cases or2.brk'
          exact .inl ⟨_, _, .whileB r1 ht r2, a2, trivial⟩
        · exact .inr (.whileT r1 ht hf)
      · exact .inr (.value rfl hf)
  | whileR _ ht _ ih1 ih2 =>
    intro Γ r ρ s ha hr
    cases hr with
    | whil h1 h2 h3 =>
      rcases ih1 Γ ρ _ _ ha h1 with ⟨v1, r1, e1⟩ | hf
      · cases e1
        rcases ih2 Γ r ρ _ ha h2 with ⟨ρ3, o3, r2, a2, or2⟩ | hf
        · obtain ⟨v, rfl, hv⟩ := or2.ret'
          exact .inl ⟨_, _, .whileR r1 ht r2, a2, hv⟩
        · exact .inr (.whileT r1 ht hf)
      · exact .inr (.value rfl hf)
  | @forr ρ' w x e' a' b' w' v vs r _ hi hrun ih1 ih2 =>
    obtain ⟨ρ2, w2, o2, rfl⟩ := run_done hrun rfl
    intro Γ r ρ s ha hr
    cases hr with
    | forr h1 h2 h3 =>
      rcases ih1 Γ ρ _ _ ha h1 with ⟨v1, r1, e1⟩ | hf
      · cases e1
        rcases ih2 Γ r ρ _ _ ha h2 h3 with ⟨ρ3, o3, r2, a2, or2⟩ | hf
        · exact .inl ⟨_, _, .forr r1 hi r2, a2, or2⟩
        · exact .inr (.forr r1 hi hf)
      · exact .inr (.value rfl hf)
  | @eachE ρ' w x a' b' r hrun ih =>
    obtain ⟨ρ2, w2, o2, rfl⟩ := run_done hrun rfl
    intro Γ r ρ a b ha h2 h3
    rcases ih Γ r ρ _ ha h3 with ⟨ρ3, o3, r2, a2, or2⟩ | hf
    · exact .inl ⟨_, _, .eachE r2, a2, or2⟩
    · exact .inr (.eachE hf)
  | @eachN ρ' w x v vs a' b' ρ1 w1 o r _ ho hrun ih1 ih2 =>
    obtain ⟨ρ2, w2, o2, rfl⟩ := run_done hrun rfl
    intro Γ r ρ a b ha h2 h3
    rcases ih1 Γ r _ _ (ha.set x v) h2 with ⟨ρ3, o3, r2, a2, or2⟩ | hf
    · rcases ih2 Γ r ρ3 _ _ a2 h2 h3 with ⟨ρ4, o4, r4, a4, or4⟩ | hf
      · exact .inl ⟨_, _, .eachN r2 (or2.go' ho) r4, a4, or4⟩
      · exact .inr (.eachN r2 (or2.go' ho) hf)
    · exact .inr (.eachT hf)
  | @eachB ρ' w x v vs a' b' ρ1 w1 _ ih =>
    intro Γ r ρ a b ha h2 h3
    rcases ih Γ r _ _ (ha.set x v) h2 with ⟨ρ3, o3, r2, a2, or2⟩ | hf
    · cases or2.brk'
      exact .inl ⟨_, _, .eachB r2, a2, trivial⟩
    · exact .inr (.eachT hf)
  | @eachR ρ' w x v vs a' b' ρ1 w1 v' _ ih =>
    intro Γ r ρ a b ha h2 h3
    rcases ih Γ r _ _ (ha.set x v) h2 with ⟨ρ3, o3, r2, a2, or2⟩ | hf
    · obtain ⟨v, rfl, hv⟩ := or2.ret'
      exact .inl ⟨_, _, .eachR r2, a2, hv⟩
    · exact .inr (.eachT hf)
  | @retN ρ' w =>
    intro Γ r ρ s ha hr
    cases hr with
    | retN => exact .inl ⟨_, _, .retN, ha, by cases r <;> simp [OutRel, RetRel]⟩
    | retDrop hg hn =>
      subst hg
      rcases harmless_expr (L := L) hP Γ ρ w hn with ⟨v, hr⟩ | hf
      · exact .inl ⟨_, _, .ret hr, ha, trivial⟩
      · exact .inr (.value rfl hf)
  | ret _ ih =>
    intro Γ r ρ s ha hr
    cases hr with
    | ret h1 =>
      rcases ih Γ ρ _ _ ha h1 with ⟨v1, r1, e1⟩ | hf
      · exact .inl ⟨_, _, .ret r1, ha, e1⟩
      · exact .inr (.value rfl hf)
    | retCall hg h1 =>
      subst hg
      rcases ih Γ ρ _ _ ha h1 with ⟨v1, r1, e1⟩ | hf
      · exact .inl ⟨_, _, .ret r1, ha, trivial⟩
      · exact .inr (.value rfl hf)
  | brk => intro Γ r ρ s ha hr; cases hr; exact .inl ⟨_, _, .brk, ha, trivial⟩
  | cont => intro Γ r ρ s ha hr; cases hr; exact .inl ⟨_, _, .cont, ha, trivial⟩
  | pass => intro Γ r ρ s ha hr; cases hr; exact .inl ⟨_, _, .pass, ha, trivial⟩
  | nilB =>
    intro Γ r ρ ss ha hr
    exact wrapB hP (fun _ => ⟨rfl, rfl, rfl⟩) (by simp) ρ ss ha hr
  | @consN ρ' w s' ss' ρ1 w1 r _ hrun ih1 ih2 =>
    obtain ⟨ρ2, w2, o2, rfl⟩ := run_done hrun rfl
    intro Γ r ρ ss ha hr
    refine wrapB hP (by simp) (fun ρ s s1' ss1' ss ha heq hs hss => ?_) ρ ss ha hr
    cases heq
    rcases ih1 Γ r ρ _ ha hs with ⟨ρ3, o3, r3, a3, or3⟩ | hf
    · cases or3.norm'
      rcases ih2 Γ r ρ3 _ a3 hss with ⟨ρ4, o4, r4, a4, or4⟩ | hf
      · exact .inl ⟨_, _, .consN r3 r4, a4, or4⟩
      · exact .inr (.rest r3 hf)
    · exact .inr (.first hf)
  | @consJ ρ' w s' ss' ρ1 w1 o _ hne ih =>
    intro Γ r ρ ss ha hr
    refine wrapB hP (by simp) (fun ρ s s1' ss1' ss ha heq hs hss => ?_) ρ ss ha hr
    cases heq
    rcases ih Γ r ρ _ ha hs with ⟨ρ3, o3, r3, a3, or3⟩ | hf
    · exact .inl ⟨_, _, .consJ r3 (or3.ne' hne), a3, or3⟩
    · exact .inr (.first hf)

/-- What fails has no run. -/
theorem fails_norun {Γ : Nat → Bool} {j : Job W} (h : Fails L P Γ j) : ∀ r, ¬ Run L P j r := by
  induction h with
  | expr _ h => exact h
  | stmt _ h => exact h
  | parts hs _ ih => intro r hr; cases hr <;> first | exact ih _ ‹_› | simp [Head.strict] at hs
  | value hs _ ih => intro r hr; cases hr <;> first | (cases hs; exact ih _ ‹_›) | simp [Stmt.first] at hs
  | unpack h hn _ =>
    intro r hr
    cases hr with
    | assign h2 hs => cases run_det h _ h2; simp [hn] at hs
  | body h hf hs _ ih =>
    intro r hr
    cases hr with
    | call h2 hf2 hs2 h3 _ =>
      cases run_det h _ h2
      cases hf.symm.trans hf2
      cases hs.symm.trans hs2
      exact ih _ h3
  | _ => intro r hr; cases hr <;> grind [run_det]

end Nagini.Ghost
