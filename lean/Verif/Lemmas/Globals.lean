import Verif.Model.Globals

/-! Lemmas about global variables. -/
set_option linter.unusedVariables false
set_option linter.unusedSimpArgs false
namespace Nagini.Globals

/-- The state of the main method represents the store. -/
def Rel (fin : Var → Bool) (g : Var → Int) (σ : Store) (s : VState) : Prop :=
  ∀ x, s.names x = (σ x).isSome ∧ ∀ v, σ x = some v → (if fin x then g x else s.heap x) = v

/-- Related outcomes. -/
def RelOut (fin : Var → Bool) (g : Var → Int) : Out → VOut → Prop
  | .ok σ, .ok s => Rel fin g σ s
  | .err, .fail => True
  | _, _ => False

theorem eval_rel {fin g σ s} (h : Rel fin g σ s) (e : Expr) : evalV fin g s e = pyEval σ e := by
  induction e with
  | lit n => rfl
  | var x =>
    obtain ⟨h1, h2⟩ := h x
    simp only [evalV, pyEval]
    cases hx : σ x with
    | none => simp [h1, hx]
    | some v => rw [if_pos (by simp [h1, hx]), h2 v hx]
  | add a b iha ihb => simp only [evalV, pyEval, iha, ihb]; cases pyEval σ a <;> cases pyEval σ b <;> rfl
  | lt a b iha ihb => simp only [evalV, pyEval, iha, ihb]; cases pyEval σ a <;> cases pyEval σ b <;> rfl

theorem rel_assign {fin g σ s x e v} (h : Rel fin g σ s) (he : pyEval σ e = some v) (hg : fin x = true → g x = v) :
    ∃ s', Ex fin g (trAssign fin x e) s (.ok s') ∧ Rel fin g (σ.set x v) s' := by
  have he' := eval_rel h e
  rw [he] at he'
  by_cases hf : fin x = true
  · refine ⟨{ s with names := fun y => y = x || s.names y }, ?_, ?_⟩
    · unfold trAssign
      rw [if_pos hf]
      exact .seq (.inhaleEq (by rw [he', hg hf])) .setDefined
    · intro y
      by_cases hy : y = x
      · subst hy
        refine ⟨by simp [Store.set], fun w hw => ?_⟩
        simp only [Store.set, if_pos rfl] at hw
        cases hw
        simp [hf, hg hf]
      · refine ⟨by simp [Store.set, hy, (h y).1], fun w hw => ?_⟩
        simp only [Store.set, if_neg hy] at hw
        exact (h y).2 w hw
  · refine ⟨{ names := fun y => y = x || s.names y, heap := fun y => if y = x then v else s.heap y }, ?_, ?_⟩
    · unfold trAssign
      rw [if_neg hf]
      exact .seq (.fieldAssign he') .setDefined
    · intro y
      by_cases hy : y = x
      · subst hy
        refine ⟨by simp [Store.set], fun w hw => ?_⟩
        simp only [Store.set, if_pos rfl] at hw
        cases hw
        simp [hf]
      · refine ⟨by simp [Store.set, hy, (h y).1], fun w hw => ?_⟩
        simp only [Store.set, if_neg hy] at hw
        simpa [hy] using (h y).2 w hw

theorem assign_err {fin g σ s x e} (h : Rel fin g σ s) (he : pyEval σ e = none) :
    Ex fin g (trAssign fin x e) s .fail := by
  have he' := eval_rel h e
  rw [he] at he'
  unfold trAssign
  split
  · exact .seqErr (.inhaleErr he')
  · exact .seqErr (.fieldErr he')

theorem relOut_ok {fin g σ o'} (h : RelOut fin g (.ok σ) o') : ∃ s, o' = .ok s ∧ Rel fin g σ s := by
  cases o' with
  | ok s => exact ⟨s, rfl, h⟩
  | fail => exact h.elim

theorem relOut_err {fin g o'} (h : RelOut fin g .err o') : o' = .fail := by
  cases o' with
  | ok s => exact h.elim
  | fail => rfl

/-- Every Python run is a run of the generated code under an interpretation that agrees with the assignments
to final variables. -/
theorem simulate {fin g st σ o t} (hp : Py st σ o t) : ∀ {s}, Rel fin g σ s →
    (∀ x v, (x, v) ∈ t → fin x = true → g x = v) → ∃ o', Ex fin g (trStmt fin st) s o' ∧ RelOut fin g o o' := by
  induction hp with
  | skip => exact fun h _ => ⟨_, .skip, h⟩
  | assign he =>
    intro s h hg
    obtain ⟨s', h1, h2⟩ := rel_assign h he (hg _ _ (List.mem_singleton.2 rfl))
    exact ⟨_, h1, h2⟩
  | assignErr he => exact fun h _ => ⟨_, assign_err h he, trivial⟩
  | assert he hv => exact fun h _ => ⟨_, .assert ((eval_rel h _).trans he) hv, h⟩
  | assertFail he => exact fun h _ => ⟨_, .assertFail ((eval_rel h _).trans he), trivial⟩
  | assertErr he => exact fun h _ => ⟨_, .assertErr ((eval_rel h _).trans he), trivial⟩
  | seq _ _ ih1 ih2 =>
    intro s h hg
    obtain ⟨o1, h1, r1⟩ := ih1 h fun x v hm => hg x v (List.mem_append_left _ hm)
    obtain ⟨s1, rfl, r1⟩ := relOut_ok r1
    obtain ⟨o2, h2, r2⟩ := ih2 r1 fun x v hm => hg x v (List.mem_append_right _ hm)
    exact ⟨o2, .seq h1 h2, r2⟩
  | seqErr _ ih =>
    intro s h hg
    obtain ⟨o1, h1, r1⟩ := ih h hg
    cases relOut_err r1
    exact ⟨_, .seqErr h1, trivial⟩
  | iteT he hv _ ih =>
    intro s h hg
    obtain ⟨o1, h1, r1⟩ := ih h hg
    exact ⟨o1, .iteT ((eval_rel h _).trans he) hv h1, r1⟩
  | iteF he _ ih =>
    intro s h hg
    obtain ⟨o1, h1, r1⟩ := ih h hg
    exact ⟨o1, .iteF ((eval_rel h _).trans he) h1, r1⟩
  | iteErr he => exact fun h _ => ⟨_, .iteErr ((eval_rel h _).trans he), trivial⟩
  | whileF he => exact fun h _ => ⟨_, .whileF ((eval_rel h _).trans he), h⟩
  | whileT he hv _ _ ih1 ih2 =>
    intro s h hg
    obtain ⟨o1, h1, r1⟩ := ih1 h fun x v hm => hg x v (List.mem_append_left _ hm)
    obtain ⟨s1, rfl, r1⟩ := relOut_ok r1
    obtain ⟨o2, h2, r2⟩ := ih2 r1 fun x v hm => hg x v (List.mem_append_right _ hm)
    exact ⟨o2, .whileT ((eval_rel h _).trans he) hv h1 h2, r2⟩
  | whileBody he hv _ ih =>
    intro s h hg
    obtain ⟨o1, h1, r1⟩ := ih h hg
    cases relOut_err r1
    exact ⟨_, .whileBody ((eval_rel h _).trans he) hv h1, trivial⟩
  | whileErr he => exact fun h _ => ⟨_, .whileErr ((eval_rel h _).trans he), trivial⟩
  | forNil => exact fun h _ => ⟨_, .skip, h⟩
  | @forCons x v vs st σ σ' o l m _ _ ih1 ih2 =>
    intro s h hg
    obtain ⟨s0, h0, r0⟩ := rel_assign (e := .lit v) h rfl (hg x v (by simp))
    obtain ⟨o1, h1, r1⟩ := ih1 r0 fun x v hm => hg x v (by simp [hm])
    obtain ⟨s1, rfl, r1⟩ := relOut_ok r1
    obtain ⟨o2, h2, r2⟩ := ih2 r1 fun x v hm => hg x v (by simp [hm])
    exact ⟨o2, .seq h0 (.seq h1 h2), r2⟩
  | @forBody x v vs st σ l _ ih =>
    intro s h hg
    obtain ⟨s0, h0, r0⟩ := rel_assign (e := .lit v) h rfl (hg x v (by simp))
    obtain ⟨o1, h1, r1⟩ := ih r0 fun x v hm => hg x v (by simp [hm])
    cases relOut_err r1
    exact ⟨_, .seq h0 (.seqErr h1), trivial⟩

/-- What a run of a translated assignment has done. -/
theorem assign_inv {fin g σ s x e o'} (h : Rel fin g σ s) (hx : Ex fin g (trAssign fin x e) s o') :
    (o' = .fail ∧ pyEval σ e = none) ∨
    ∃ v s', o' = .ok s' ∧ pyEval σ e = some v ∧ (fin x = true → g x = v) ∧ Rel fin g (σ.set x v) s' := by
  unfold trAssign at hx
  rw [← eval_rel h e]
  by_cases hf : fin x = true
  · rw [if_pos hf] at hx
    cases hx with
    | seq h1 h2 =>
      cases h1 with
      | inhaleEq he =>
        right
        obtain ⟨s', h3, h4⟩ := rel_assign h ((eval_rel h e).symm.trans he) fun _ => rfl
        cases h2
        unfold trAssign at h3
        rw [if_pos hf] at h3
        cases h3 with
        | seq h5 h6 =>
          cases h5
          cases h6
          exact ⟨_, _, rfl, he, fun _ => rfl, h4⟩
    | seqErr h1 =>
      cases h1 with
      | inhaleErr he => exact .inl ⟨rfl, he⟩
  · rw [if_neg hf] at hx
    cases hx with
    | seq h1 h2 =>
      cases h1 with
      | @fieldAssign _ _ _ v he =>
        right
        obtain ⟨s', h3, h4⟩ := rel_assign (x := x) h ((eval_rel h e).symm.trans he) fun h => absurd h hf
        cases h2
        unfold trAssign at h3
        rw [if_neg hf] at h3
        cases h3 with
        | seq h5 h6 =>
          cases h5 with
          | fieldAssign he' =>
            rw [he] at he'
            cases he'
            cases h6
            exact ⟨_, _, rfl, he, fun h => absurd h hf, h4⟩
    | seqErr h1 =>
      cases h1 with
      | fieldErr he => exact .inl ⟨rfl, he⟩

theorem while_inv {fin g e body} {st : Stmt}
    (ih : ∀ {σ s o'}, Rel fin g σ s → Ex fin g body s o' → ∃ o t, Py st σ o t ∧ RelOut fin g o o' ∧
      ∀ x v, (x, v) ∈ t → fin x = true → g x = v) {w s o'} (hx : Ex fin g w s o') :
    w = .while e body → ∀ {σ}, Rel fin g σ s → ∃ o t, Py (.while e st) σ o t ∧ RelOut fin g o o' ∧
      ∀ x v, (x, v) ∈ t → fin x = true → g x = v := by
  induction hx with
  | whileF he =>
    intro hw σ h
    cases hw
    exact ⟨_, _, .whileF ((eval_rel h _).symm.trans he), h, by simp⟩
  | whileT he hv h1 _ _ ih2 =>
    intro hw σ h
    cases hw
    obtain ⟨o1, t1, p1, r1, g1⟩ := ih h h1
    cases o1 with
    | err => exact r1.elim
    | ok σ1 =>
      obtain ⟨o2, t2, p2, r2, g2⟩ := ih2 rfl r1
      exact ⟨o2, _, .whileT ((eval_rel h _).symm.trans he) hv p1 p2, r2, fun x v hm hf => by
        rcases List.mem_append.1 hm with hm | hm
        · exact g1 x v hm hf
        · exact g2 x v hm hf⟩
  | whileBody he hv h1 _ =>
    intro hw σ h
    cases hw
    obtain ⟨o1, t1, p1, r1, g1⟩ := ih h h1
    cases o1 with
    | ok σ1 => exact r1.elim
    | err => exact ⟨.err, _, .whileBody ((eval_rel h _).symm.trans he) hv p1, trivial, g1⟩
  | whileErr he =>
    intro hw σ h
    cases hw
    exact ⟨_, _, .whileErr ((eval_rel h _).symm.trans he), trivial, by simp⟩
  | _ => intro hw; cases hw

theorem for_inv {fin g x body} {st : Stmt}
    (ih : ∀ {σ s o'}, Rel fin g σ s → Ex fin g body s o' → ∃ o t, Py st σ o t ∧ RelOut fin g o o' ∧
      ∀ x v, (x, v) ∈ t → fin x = true → g x = v) (vs : List Int) : ∀ {s o' σ}, Rel fin g σ s →
    Ex fin g (trFor fin x body vs) s o' → ∃ o t, Py (.forIn x vs st) σ o t ∧ RelOut fin g o o' ∧
      ∀ x v, (x, v) ∈ t → fin x = true → g x = v := by
  induction vs with
  | nil =>
    intro s o' σ h hx
    cases hx
    exact ⟨_, _, .forNil, h, by simp⟩
  | cons v vs ihv =>
    intro s o' σ h hx
    simp only [trFor] at hx
    cases hx with
    | seqErr h0 =>
      rcases assign_inv h h0 with ⟨_, h1⟩ | ⟨_, _, h1, _⟩
      · simp [pyEval] at h1
      · cases h1
    | seq h0 h1 =>
      rcases assign_inv h h0 with ⟨h2, _⟩ | ⟨w, s', h2, h3, h4, r0⟩
      · cases h2
      · cases h2
        simp only [pyEval, Option.some.injEq] at h3
        subst h3
        cases h1 with
        | seqErr h5 =>
          obtain ⟨o1, t1, p1, r1, g1⟩ := ih r0 h5
          cases o1 with
          | ok σ1 => exact r1.elim
          | err =>
            refine ⟨.err, _, .forBody p1, trivial, fun y w hm hf => ?_⟩
            rcases List.mem_cons.1 hm with hm | hm
            · cases hm
              exact h4 hf
            · exact g1 y w hm hf
        | seq h5 h6 =>
          obtain ⟨o1, t1, p1, r1, g1⟩ := ih r0 h5
          cases o1 with
          | err => exact r1.elim
          | ok σ1 =>
            obtain ⟨o2, t2, p2, r2, g2⟩ := ihv r1 h6
            refine ⟨o2, _, .forCons p1 p2, r2, fun y w hm hf => ?_⟩
            rcases List.mem_append.1 hm with hm | hm
            · rcases List.mem_cons.1 hm with hm | hm
              · cases hm
                exact h4 hf
              · exact g1 y w hm hf
            · exact g2 y w hm hf

/-- Every run of the generated code is a Python run, whose assignments to final variables agree with the
interpretation. -/
theorem reflect {fin g} (st : Stmt) : ∀ {σ s o'}, Rel fin g σ s → Ex fin g (trStmt fin st) s o' →
    ∃ o t, Py st σ o t ∧ RelOut fin g o o' ∧ ∀ x v, (x, v) ∈ t → fin x = true → g x = v := by
  induction st with
  | skip =>
    intro σ s o' h hx
    cases hx
    exact ⟨_, _, .skip, h, by simp⟩
  | assign x e =>
    intro σ s o' h hx
    rcases assign_inv h hx with ⟨rfl, he⟩ | ⟨v, s', rfl, he, hg, r⟩
    · exact ⟨.err, _, .assignErr he, trivial, by simp⟩
    · refine ⟨_, _, .assign he, r, fun y w hm hf => ?_⟩
      cases List.mem_singleton.1 hm
      exact hg hf
  | assert e =>
    intro σ s o' h hx
    cases hx with
    | assert he hv => exact ⟨_, _, .assert ((eval_rel h _).symm.trans he) hv, h, by simp⟩
    | assertFail he => exact ⟨.err, _, .assertFail ((eval_rel h _).symm.trans he), trivial, by simp⟩
    | assertErr he => exact ⟨.err, _, .assertErr ((eval_rel h _).symm.trans he), trivial, by simp⟩
  | seq a b iha ihb =>
    intro σ s o' h hx
    simp only [trStmt] at hx
    cases hx with
    | seqErr h1 =>
      obtain ⟨o1, t1, p1, r1, g1⟩ := iha h h1
      cases o1 with
      | ok σ1 => exact r1.elim
      | err => exact ⟨.err, _, .seqErr p1, trivial, g1⟩
    | seq h1 h2 =>
      obtain ⟨o1, t1, p1, r1, g1⟩ := iha h h1
      cases o1 with
      | err => exact r1.elim
      | ok σ1 =>
        obtain ⟨o2, t2, p2, r2, g2⟩ := ihb r1 h2
        exact ⟨o2, _, .seq p1 p2, r2, fun x v hm hf => by
          rcases List.mem_append.1 hm with hm | hm
          · exact g1 x v hm hf
          · exact g2 x v hm hf⟩
  | ite e a b iha ihb =>
    intro σ s o' h hx
    simp only [trStmt] at hx
    cases hx with
    | iteT he hv h1 =>
      obtain ⟨o1, t1, p1, r1, g1⟩ := iha h h1
      exact ⟨o1, _, .iteT ((eval_rel h _).symm.trans he) hv p1, r1, g1⟩
    | iteF he h1 =>
      obtain ⟨o1, t1, p1, r1, g1⟩ := ihb h h1
      exact ⟨o1, _, .iteF ((eval_rel h _).symm.trans he) p1, r1, g1⟩
    | iteErr he => exact ⟨.err, _, .iteErr ((eval_rel h _).symm.trans he), trivial, by simp⟩
  | «while» e a iha => exact fun h hx => while_inv iha hx rfl h
  | forIn x vs a iha => exact fun h hx => for_inv iha vs h hx

theorem rel_init (p : Stmt) (g mv : Var → Int) : Rel (isFinal p) g (pyInit mv) (vinit mv) := by
  intro x
  have hc : moduleVars.contains x = decide (x = "__name__" ∨ x = "__file__") := by
    rw [List.contains_eq_mem]; simp [moduleVars]
  refine ⟨?_, fun v hv => ?_⟩
  · simp only [vinit, pyInit, hc]
    split <;> simp [*]
  · simp only [pyInit] at hv
    split at hv
    · cases hv
      rw [if_neg]
      · rfl
      · simp only [isFinal, hc, *]
        simp
    · cases hv

/-! ### Where the values of final variables come from -/

/-- The targets of loops. -/
def forTargets : Stmt → List Var
  | .skip => []
  | .assign _ _ => []
  | .assert _ => []
  | .seq s t => forTargets s ++ forTargets t
  | .ite _ s t => forTargets s ++ forTargets t
  | .while _ s => forTargets s
  | .forIn x _ s => x :: forTargets s

theorem count_stores (x : Var) (s : Stmt) :
    (storeNodes s).count x = ((valueNodes s).map Prod.fst).count x + (forTargets s).count x := by
  induction s with
  | skip => rfl
  | assign y e => simp [storeNodes, valueNodes, forTargets]
  | assert e => rfl
  | seq a b iha ihb => simp [storeNodes, valueNodes, forTargets, iha, ihb]; omega
  | ite e a b iha ihb => simp [storeNodes, valueNodes, forTargets, iha, ihb]; omega
  | «while» e a iha => simp [storeNodes, valueNodes, forTargets, iha]
  | forIn y vs a iha => simp [storeNodes, valueNodes, forTargets, List.count_cons, iha]; omega

theorem store_trace {st σ o t} (hp : Py st σ o t) : ∀ σ', o = .ok σ' → ∀ y w, σ' y = some w →
    σ y = some w ∨ (y, w) ∈ t := by
  have set_case : ∀ {σ : Store} {x v y w}, σ.set x v y = some w → σ y = some w ∨ (y, w) ∈ [(x, v)] := by
    intro σ x v y w h
    simp only [Store.set] at h
    split at h
    · cases h; subst_vars; simp
    · exact .inl h
  induction hp with
  | skip => intro σ' h; cases h; exact fun y w h => .inl h
  | assign he => intro σ' h; cases h; exact fun y w h => set_case h
  | assert he hv => intro σ' h; cases h; exact fun y w h => .inl h
  | seq _ _ ih1 ih2 =>
    intro σ' h y w hy
    rcases ih2 σ' h y w hy with h1 | h1
    · rcases ih1 _ rfl y w h1 with h2 | h2
      · exact .inl h2
      · exact .inr (List.mem_append_left _ h2)
    · exact .inr (List.mem_append_right _ h1)
  | iteT _ _ _ ih => exact ih
  | iteF _ _ ih => exact ih
  | whileF he => intro σ' h; cases h; exact fun y w h => .inl h
  | whileT _ _ _ _ ih1 ih2 =>
    intro σ' h y w hy
    rcases ih2 σ' h y w hy with h1 | h1
    · rcases ih1 _ rfl y w h1 with h2 | h2
      · exact .inl h2
      · exact .inr (List.mem_append_left _ h2)
    · exact .inr (List.mem_append_right _ h1)
  | forNil => intro σ' h; cases h; exact fun y w h => .inl h
  | forCons _ _ ih1 ih2 =>
    intro σ' h y w hy
    rcases ih2 σ' h y w hy with h1 | h1
    · rcases ih1 _ rfl y w h1 with h2 | h2
      · rcases set_case h2 with h3 | h3
        · exact .inl h3
        · right; simp at h3; simp [h3]
      · right; simp [h2]
    · right; simp [h1]
  | _ => intro σ' h; cases h

/-- Every assignment in a run is one to the target of a loop, or the value of a plain assignment in a store
made up of the initial store and the assignments of the run. -/
theorem trace_origin {st σ o t} (hp : Py st σ o t) : ∀ x v, (x, v) ∈ t →
    x ∈ forTargets st ∨ ∃ e σ', (x, e) ∈ valueNodes st ∧ pyEval σ' e = some v ∧
      ∀ y w, σ' y = some w → σ y = some w ∨ (y, w) ∈ t := by
  induction hp with
  | assign he =>
    intro x v hm
    cases List.mem_singleton.1 hm
    exact .inr ⟨_, _, by simp [valueNodes], he, fun y w h => .inl h⟩
  | @seq s u σ σ' o l m h1 h2 ih1 ih2 =>
    intro x v hm
    rcases List.mem_append.1 hm with hm | hm
    · rcases ih1 x v hm with h | ⟨e, σ'', h3, h4, h5⟩
      · exact .inl (by simp [forTargets, h])
      · refine .inr ⟨e, σ'', by simp [valueNodes, h3], h4, fun y w hy => ?_⟩
        rcases h5 y w hy with h6 | h6
        · exact .inl h6
        · exact .inr (by simp [h6])
    · rcases ih2 x v hm with h | ⟨e, σ'', h3, h4, h5⟩
      · exact .inl (by simp [forTargets, h])
      · refine .inr ⟨e, σ'', by simp [valueNodes, h3], h4, fun y w hy => ?_⟩
        rcases h5 y w hy with h6 | h6
        · rcases store_trace h1 _ rfl y w h6 with h7 | h7
          · exact .inl h7
          · exact .inr (by simp [h7])
        · exact .inr (by simp [h6])
  | seqErr _ ih =>
    intro x v hm
    rcases ih x v hm with h | ⟨e, σ'', h3, h4, h5⟩
    · exact .inl (by simp [forTargets, h])
    · exact .inr ⟨e, σ'', by simp [valueNodes, h3], h4, h5⟩
  | iteT _ _ _ ih =>
    intro x v hm
    rcases ih x v hm with h | ⟨e, σ'', h3, h4, h5⟩
    · exact .inl (by simp [forTargets, h])
    · exact .inr ⟨e, σ'', by simp [valueNodes, h3], h4, h5⟩
  | iteF _ _ ih =>
    intro x v hm
    rcases ih x v hm with h | ⟨e, σ'', h3, h4, h5⟩
    · exact .inl (by simp [forTargets, h])
    · exact .inr ⟨e, σ'', by simp [valueNodes, h3], h4, h5⟩
  | whileT _ _ h1 h2 ih1 ih2 =>
    intro x v hm
    rcases List.mem_append.1 hm with hm | hm
    · rcases ih1 x v hm with h | ⟨e, σ'', h3, h4, h5⟩
      · exact .inl (by simp [forTargets, h])
      · refine .inr ⟨e, σ'', by simp [valueNodes, h3], h4, fun y w hy => ?_⟩
        rcases h5 y w hy with h6 | h6
        · exact .inl h6
        · exact .inr (by simp [h6])
    · rcases ih2 x v hm with h | ⟨e, σ'', h3, h4, h5⟩
      · exact .inl (by simpa [forTargets] using h)
      · refine .inr ⟨e, σ'', by simpa [valueNodes] using h3, h4, fun y w hy => ?_⟩
        rcases h5 y w hy with h6 | h6
        · rcases store_trace h1 _ rfl y w h6 with h7 | h7
          · exact .inl h7
          · exact .inr (by simp [h7])
        · exact .inr (by simp [h6])
  | whileBody _ _ _ ih =>
    intro x v hm
    rcases ih x v hm with h | ⟨e, σ'', h3, h4, h5⟩
    · exact .inl (by simp [forTargets, h])
    · exact .inr ⟨e, σ'', by simp [valueNodes, h3], h4, h5⟩
  | @forCons z a vs s σ σ' o l m h1 h2 ih1 ih2 =>
    have set_case : ∀ {y w}, σ.set z a y = some w → σ y = some w ∨ (y, w) ∈ (z, a) :: l ++ m := by
      intro y w h
      simp only [Store.set] at h
      split at h
      · cases h; subst_vars; simp
      · exact .inl h
    intro x v hm
    rcases List.mem_append.1 hm with hm | hm
    · rcases List.mem_cons.1 hm with hm | hm
      · cases hm
        exact .inl (by simp [forTargets])
      · rcases ih1 x v hm with h | ⟨e, σ'', h3, h4, h5⟩
        · exact .inl (by simp [forTargets, h])
        · refine .inr ⟨e, σ'', by simp [valueNodes, h3], h4, fun y w hy => ?_⟩
          rcases h5 y w hy with h6 | h6
          · exact set_case h6
          · exact .inr (by simp [h6])
    · rcases ih2 x v hm with h | ⟨e, σ'', h3, h4, h5⟩
      · exact .inl (by simpa [forTargets] using h)
      · refine .inr ⟨e, σ'', by simpa [valueNodes] using h3, h4, fun y w hy => ?_⟩
        rcases h5 y w hy with h6 | h6
        · rcases store_trace h1 _ rfl y w h6 with h7 | h7
          · exact set_case h7
          · exact .inr (by simp [h7])
        · exact .inr (by simp [h6])
  | @forBody z a vs s σ l h1 ih1 =>
    intro x v hm
    rcases List.mem_cons.1 hm with hm | hm
    · cases hm
      exact .inl (by simp [forTargets])
    · rcases ih1 x v hm with h | ⟨e, σ'', h3, h4, h5⟩
      · exact .inl (by simp [forTargets, h])
      · refine .inr ⟨e, σ'', by simp [valueNodes, h3], h4, fun y w hy => ?_⟩
        rcases h5 y w hy with h6 | h6
        · simp only [Store.set] at h6
          split at h6
          · cases h6; subst_vars; simp
          · exact .inl h6
        · exact .inr (by simp [h6])
  | _ => intro x v hm; simp at hm

/-- The value of a final variable with a plain assignment: it is its only store. -/
theorem final_value {p x e e'} (hf : isFinal p x = true) (hv : value p x = some e) :
    x ∉ forTargets p ∧ ((x, e') ∈ valueNodes p → e' = e) := by
  have hc : (storeNodes p).count x ≤ 1 := by
    simp only [isFinal, Bool.and_eq_true, decide_eq_true_eq] at hf
    exact hf.1
  rw [count_stores] at hc
  unfold value at hv
  cases hq : (valueNodes p).reverse.find? fun q => q.1 = x with
  | none => rw [hq] at hv; cases hv
  | some q =>
    rw [hq] at hv
    obtain ⟨y, e0⟩ := q
    simp only [Option.map_some, Option.some.injEq] at hv
    subst hv
    have h1 := List.find?_some hq
    simp only [decide_eq_true_eq] at h1
    subst h1
    have h2 := List.mem_reverse.1 (List.mem_of_find?_eq_some hq)
    have h3 : 1 ≤ ((valueNodes p).map Prod.fst).count y :=
      List.one_le_count_iff.2 (List.mem_map.2 ⟨_, h2, rfl⟩)
    refine ⟨fun hm => ?_, fun hm => ?_⟩
    · have := List.one_le_count_iff.2 hm
      omega
    · obtain ⟨l1, l2, hl⟩ := List.append_of_mem h2
      rw [hl] at hm hc
      simp only [List.map_append, List.map_cons, List.count_append, List.count_cons_self] at hc
      rcases List.mem_append.1 hm with hm | hm
      · have := List.one_le_count_iff.2 (List.mem_map.2 ⟨_, hm, rfl⟩ : y ∈ l1.map Prod.fst)
        omega
      · rcases List.mem_cons.1 hm with hm | hm
        · cases hm; rfl
        · have := List.one_le_count_iff.2 (List.mem_map.2 ⟨_, hm, rfl⟩ : y ∈ l2.map Prod.fst)
          omega

theorem evalFun_congr {g h : Var → Int} {e : Expr} (hr : ∀ y ∈ e.reads, g y = h y) : evalFun g e = evalFun h e := by
  induction e with
  | lit n => rfl
  | var x => exact hr x (by simp [Expr.reads])
  | add a b iha ihb =>
    simp only [evalFun, iha fun y hy => hr y (by simp [Expr.reads, hy]), ihb fun y hy => hr y (by simp [Expr.reads, hy])]
  | lt a b iha ihb =>
    simp only [evalFun, iha fun y hy => hr y (by simp [Expr.reads, hy]), ihb fun y hy => hr y (by simp [Expr.reads, hy])]

theorem evalFun_of_py {g : Var → Int} {σ : Store} {e : Expr} : ∀ {v}, pyEval σ e = some v →
    (∀ y ∈ e.reads, ∀ w, σ y = some w → g y = w) → evalFun g e = v := by
  induction e with
  | lit n => intro v h _; simpa [pyEval, evalFun] using h
  | var x => intro v h hr; exact hr x (by simp [Expr.reads]) v h
  | add a b iha ihb =>
    intro v h hr
    simp only [pyEval] at h
    split at h
    · next i j hi hj =>
      cases h
      simp only [evalFun, iha hi fun y hy => hr y (by simp [Expr.reads, hy]),
        ihb hj fun y hy => hr y (by simp [Expr.reads, hy])]
    · cases h
  | lt a b iha ihb =>
    intro v h hr
    simp only [pyEval] at h
    split at h
    · next i j hi hj =>
      cases h
      simp only [evalFun, iha hi fun y hy => hr y (by simp [Expr.reads, hy]),
        ihb hj fun y hy => hr y (by simp [Expr.reads, hy])]
    · cases h

/-- An interpretation built from the assignments of a run and the equations of variables without one. -/
def build (p : Stmt) (t : List (Var × Int)) : Nat → Var → Int
  | 0, x => ((t.find? fun q => q.1 = x).map Prod.snd).getD 0
  | n + 1, x => match t.find? fun q => q.1 = x with
    | some q => q.2
    | none => match posted p x with
      | some e => evalFun (build p t n) e
      | none => 0

theorem build_stable {p t} {rank : Var → Nat} (hr : ∀ x e, posted p x = some e → ∀ y ∈ e.reads, rank y < rank x)
    (n : Nat) : ∀ m x, rank x < n → rank x < m → build p t n x = build p t m x := by
  induction n with
  | zero => intro m x h; omega
  | succ n ih =>
    intro m x h1 h2
    cases m with
    | zero => omega
    | succ m =>
      simp only [build]
      split
      · rfl
      · split
        · next e he =>
          refine evalFun_congr fun y hy => ?_
          have := hr x e he y hy
          exact ih m y (by omega) (by omega)
        · rfl

/-- The assignments of a run give a final variable one value only. -/
def Stable (p : Stmt) (t : List (Var × Int)) : Prop :=
  ∀ x v w, isFinal p x = true → (x, v) ∈ t → (x, w) ∈ t → v = w

theorem exists_interp {p mv o t} (hp : Py p (pyInit mv) o t) (hs : Stable p t) {rank : Var → Nat}
    (hr : ∀ x e, posted p x = some e → ∀ y ∈ e.reads, rank y < rank x) :
    ∃ g, Posts p g ∧ ∀ x v, (x, v) ∈ t → isFinal p x = true → g x = v := by
  have key : ∀ n x v, (x, v) ∈ t → isFinal p x = true → build p t n x = v := by
    intro n x v hm hf
    cases hq : t.find? fun q => q.1 = x with
    | none =>
      have := List.find?_eq_none.1 hq _ hm
      simp at this
    | some q =>
      obtain ⟨y, w⟩ := q
      have h1 := List.find?_some hq
      simp only [decide_eq_true_eq] at h1
      subst h1
      have h2 := hs y w v hf (List.mem_of_find?_eq_some hq) hm
      cases n with
      | zero => simp only [build, hq, Option.map_some, Option.getD_some]; exact h2
      | succ n => simp only [build, hq]; exact h2
  refine ⟨fun x => build p t (rank x + 1) x, fun x e hx => ?_, fun x v hm hf => key _ x v hm hf⟩
  have hpost := hx
  unfold posted at hx
  split at hx
  · next hf =>
    split at hx
    · next e0 hv =>
      split at hx
      · cases hx
      · next hd =>
        cases hx
        cases hq : t.find? fun q => q.1 = x with
        | none =>
          simp only [build, hq, hpost]
          refine evalFun_congr fun y hy => ?_
          exact build_stable hr _ (rank y + 1) y (hr x e hpost y hy) (by omega)
        | some q =>
          obtain ⟨y, v⟩ := q
          have h1 := List.find?_some hq
          simp only [decide_eq_true_eq] at h1
          subst h1
          have hm := List.mem_of_find?_eq_some hq
          show build p t (rank y + 1) y = _
          rw [key _ y v hm hf]
          rcases trace_origin hp y v hm with h | ⟨e', σ', h2, h3, h4⟩
          · exact absurd h (final_value (e' := e) hf hv).1
          · cases (final_value hf hv).2 h2
            refine (evalFun_of_py h3 fun z hz w hw => ?_).symm
            have hfz : isFinal p z = true := by
              simp only [heapDependent, List.any_eq_true, not_exists, not_and] at hd
              simpa using hd z hz
            rcases h4 z w hw with h5 | h5
            · exfalso
              simp only [pyInit] at h5
              split at h5
              · next hz' =>
                have : moduleVars.contains z = true := by
                  rw [List.contains_eq_mem]; simp [moduleVars, hz']
                simp only [isFinal, this] at hfz
                simp at hfz
              · cases h5
            · exact key _ z w h5 hfz
    · cases hx
  · cases hx

/-! ### Code outside of loops -/

theorem allStores_eq (s : Stmt) : loopStores.allStores s = storeNodes s := by
  induction s with
  | skip => rfl
  | assign y e => rfl
  | assert e => rfl
  | seq a b iha ihb => simp [storeNodes, loopStores.allStores, iha, ihb]
  | ite e a b iha ihb => simp [storeNodes, loopStores.allStores, iha, ihb]
  | «while» e a iha => simpa [storeNodes, loopStores.allStores] using iha
  | forIn y vs a iha => simp [storeNodes, loopStores.allStores, iha]

theorem trace_stores {st σ o t} (hp : Py st σ o t) : ∀ x, x ∈ t.map Prod.fst → x ∈ storeNodes st := by
  induction hp with
  | assign _ => simp [storeNodes]
  | seq _ _ ih1 ih2 =>
    intro x hm
    simp only [List.map_append, List.mem_append] at hm
    rcases hm with hm | hm
    · simp [storeNodes, ih1 x hm]
    · simp [storeNodes, ih2 x hm]
  | seqErr _ ih => intro x hm; simp [storeNodes, ih x hm]
  | iteT _ _ _ ih => intro x hm; simp [storeNodes, ih x hm]
  | iteF _ _ ih => intro x hm; simp [storeNodes, ih x hm]
  | whileT _ _ _ _ ih1 ih2 =>
    intro x hm
    simp only [List.map_append, List.mem_append] at hm
    rcases hm with hm | hm
    · simp [storeNodes, ih1 x hm]
    · exact ih2 x hm
  | whileBody _ _ _ ih => intro x hm; simp [storeNodes, ih x hm]
  | forCons _ _ ih1 ih2 =>
    intro x hm
    simp only [List.map_append, List.map_cons, List.mem_append, List.mem_cons] at hm
    rcases hm with (hm | hm) | hm
    · simp [storeNodes, hm]
    · simp [storeNodes, ih1 x hm]
    · simpa [storeNodes] using ih2 x hm
  | forBody _ ih =>
    intro x hm
    simp only [List.map_cons, List.mem_cons] at hm
    rcases hm with hm | hm
    · simp [storeNodes, hm]
    · simp [storeNodes, ih x hm]
  | _ => intro x hm; simp at hm

theorem trace_count {st σ o t} (hp : Py st σ o t) (x : Var) : x ∉ loopStores st →
    (t.map Prod.fst).count x ≤ (storeNodes st).count x := by
  have loop : ∀ {s σ o t}, Py s σ o t → x ∉ storeNodes s → (t.map Prod.fst).count x ≤ (storeNodes s).count x := by
    intro s σ o t h hn
    rw [List.count_eq_zero.2 fun hm => hn (trace_stores h x hm)]
    exact Nat.zero_le _
  induction hp with
  | assign _ => intro _; simp [storeNodes]
  | seq _ _ ih1 ih2 =>
    intro hn
    simp only [loopStores, List.mem_append, not_or] at hn
    have := ih1 hn.1
    have := ih2 hn.2
    simp only [List.map_append, List.count_append, storeNodes]
    omega
  | seqErr _ ih =>
    intro hn
    simp only [loopStores, List.mem_append, not_or] at hn
    have := ih hn.1
    simp only [List.count_append, storeNodes]
    omega
  | iteT _ _ _ ih =>
    intro hn
    simp only [loopStores, List.mem_append, not_or] at hn
    have := ih hn.1
    simp only [List.count_append, storeNodes]
    omega
  | iteF _ _ ih =>
    intro hn
    simp only [loopStores, List.mem_append, not_or] at hn
    have := ih hn.2
    simp only [List.count_append, storeNodes]
    omega
  | whileT he hv h1 h2 _ _ =>
    intro hn
    simp only [loopStores, allStores_eq] at hn
    exact loop (Py.whileT he hv h1 h2) (by simpa [storeNodes] using hn)
  | whileBody he hv h1 _ =>
    intro hn
    simp only [loopStores, allStores_eq] at hn
    exact loop (Py.whileBody (e := _) he hv h1) (by simpa [storeNodes] using hn)
  | forCons h1 h2 _ _ =>
    intro hn
    simp only [loopStores, allStores_eq] at hn
    exact loop (Py.forCons h1 h2) (by simpa [storeNodes] using hn)
  | @forBody z a vs _ _ _ h1 _ =>
    intro hn
    simp only [loopStores, allStores_eq] at hn
    exact loop (Py.forBody (vs := vs) h1) (by simpa [storeNodes] using hn)
  | _ => intro _; simp

theorem stable_of_straight {p σ o t} (hp : Py p σ o t) (h : ∀ x, isFinal p x = true → x ∉ loopStores p) :
    Stable p t := by
  intro x v w hf hv hw
  have hc := trace_count hp x (h x hf)
  have hc' : (storeNodes p).count x ≤ 1 := by
    simp only [isFinal, Bool.and_eq_true, decide_eq_true_eq] at hf
    exact hf.1
  obtain ⟨l1, l2, rfl⟩ := List.append_of_mem hv
  simp only [List.map_append, List.map_cons, List.count_append, List.count_cons_self] at hc
  rcases List.mem_append.1 hw with hm | hm
  · have := List.one_le_count_iff.2 (List.mem_map.2 ⟨_, hm, rfl⟩ : x ∈ l1.map Prod.fst)
    omega
  · rcases List.mem_cons.1 hm with hm | hm
    · cases hm; rfl
    · have := List.one_le_count_iff.2 (List.mem_map.2 ⟨_, hm, rfl⟩ : x ∈ l2.map Prod.fst)
      omega

end Nagini.Globals
