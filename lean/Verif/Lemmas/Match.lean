import Verif.Spec.Match

set_option linter.unusedVariables false
set_option linter.unusedSimpArgs false

namespace Nagini.Match

/-- Both assumptions on attributes together. -/
structure Agrees (P : Py) (Γ : Info) (W : World) (hasTy : Val → Nat → Prop) : Prop where
  inst : ∀ v c, P.inst v c = W.inst v c
  get : ∀ v c a f ty, W.inst v c = true → Γ.field c a = some (f, ty) →
    ∃ w, P.get v a = some w ∧ (W.perm v f = true → w = W.heap v f ∧ hasTy w ty)
  eq : ∀ ty v c b, hasTy v ty → W.eq ty v c = some b → P.eq v c = some b
  op : ∀ f vs v, W.op f vs = some v → P.op f vs = some v
  truth : ∀ v b, W.truth v = some b → P.truth v = some b

theorem Sees.agrees {P : Py} {Γ : Info} {W : World} {hasTy : Val → Nat → Prop} (h : Sees P Γ W hasTy)
    (ha : Assigned P Γ W) : Agrees P Γ W hasTy where
  inst := h.inst
  get := fun v c a f ty hi hf => by
    cases hg : P.get v a with
    | none => exact absurd hg (ha v c a f ty hi hf)
    | some w =>
      refine ⟨w, rfl, fun hp => ?_⟩
      obtain ⟨h1, h2⟩ := h.get v c a f ty hi hf hp
      rw [hg] at h1
      cases h1
      exact ⟨rfl, h2⟩
  eq := h.eq
  op := h.op
  truth := h.truth

section
variable {P : Py} {Γ : Info} {W : World} {hasTy : Val → Nat → Prop}

/-- A condition and the result of matching.  `C` says that Viper knows everything. -/
def Rel (C : Prop) (oc : Option Val) (r : Res) : Prop :=
  (oc = none ∧ (C → r = .err)) ∨ (oc = some (.bool true) ∧ ∃ bs, r = .yes bs) ∨ (oc = some (.bool false) ∧ r = .no)

/-- What is known if the value cannot be read. -/
def Blind (P : Py) (oc : Option Val) (p : Pat) : Prop :=
  oc = none ∨ (oc = some (.bool true) ∧ ∀ v, ∃ bs, pmatch P v p = .yes bs)

theorem eval_and {s : St} {a b : VExpr} :
    eval W s (.and a b) = (eval W s a).bind fun v => (unbox v).bind fun c =>
      if c then (eval W s b).bind fun w => (unbox w).map .bool else some (.bool false) := by
  rw [eval]

theorem condOr_none {s : St} : ∀ (ps : Pats) (e : VExpr) (ty : Nat) (acc c : VExpr), condOr Γ e ty acc ps = .ok c →
    eval W s acc = none → eval W s c = none
  | .nil, e, ty, acc, c, hc, h => by simp only [condOr] at hc; cases hc; exact h
  | .cons p ps, e, ty, acc, c, hc, h => by
      simp only [condOr] at hc
      cases hp : cond Γ e ty p with
      | error err => rw [hp] at hc; cases hc
      | ok r =>
        rw [hp] at hc
        exact condOr_none ps e ty _ c hc (by simp [eval, h])
theorem condOr_true {s : St} : ∀ (ps : Pats) (e : VExpr) (ty : Nat) (acc c : VExpr), condOr Γ e ty acc ps = .ok c →
    eval W s acc = some (.bool true) → eval W s c = some (.bool true)
  | .nil, e, ty, acc, c, hc, h => by simp only [condOr] at hc; cases hc; exact h
  | .cons p ps, e, ty, acc, c, hc, h => by
      simp only [condOr] at hc
      cases hp : cond Γ e ty p with
      | error err => rw [hp] at hc; cases hc
      | ok r =>
        rw [hp] at hc
        exact condOr_true ps e ty _ c hc (by simp [eval, h, unbox])
theorem condKws_none {s : St} : ∀ (ks : Kws) (e : VExpr) (k : Nat) (acc c : VExpr), condKws Γ e k acc ks = .ok c →
    eval W s acc = none → eval W s c = none
  | .nil, e, k, acc, c, hc, h => by simp only [condKws] at hc; cases hc; exact h
  | .cons a p ks, e, k, acc, c, hc, h => by
      simp only [condKws] at hc
      split at hc
      · cases hc
      · rename_i f fty hf
        cases hp : cond Γ (.field e f) fty p with
        | error err => rw [hp] at hc; cases hc
        | ok r =>
          rw [hp] at hc
          exact condKws_none ks e k _ c hc (by simp [eval, h])

theorem cond_blind {s : St} : ∀ (p : Pat) (e : VExpr) (ty : Nat) (c : VExpr), cond Γ e ty p = .ok c → eval W s e = none →
    Blind P (eval W s c) p
  | .any x, e, ty, c, hc, he => by
      simp only [cond] at hc
      cases hc
      exact .inr ⟨by simp [eval], fun v => ⟨_, by rw [pmatch]⟩⟩
  | .as p x, e, ty, c, hc, he => by
      simp only [cond] at hc
      rcases cond_blind p e ty c hc he with h | ⟨h, h2⟩
      · exact .inl h
      · refine .inr ⟨h, fun v => ?_⟩
        obtain ⟨bs, hb⟩ := h2 v
        exact ⟨_, by rw [pmatch, hb]; rfl⟩
  | .single .none, e, ty, c, hc, he => by
      simp only [cond] at hc; cases hc; exact .inl (by simp [eval, he])
  | .single (.bool true), e, ty, c, hc, he => by
      simp only [cond] at hc; cases hc; exact .inl (by simp [eval, he])
  | .single (.bool false), e, ty, c, hc, he => by
      simp only [cond] at hc; cases hc; exact .inl (by simp [eval, he])
  | .value k, e, ty, c, hc, he => by
      simp only [cond] at hc; cases hc; exact .inl (by simp [eval, he])
  | .cls k ks, e, ty, c, hc, he => by
      simp only [cond] at hc
      exact .inl (condKws_none ks e k _ c hc (by simp [eval, he]))
  | .or p ps, e, ty, c, hc, he => by
      simp only [cond] at hc
      cases hp : cond Γ e ty p with
      | error err => rw [hp] at hc; cases hc
      | ok r =>
        rw [hp] at hc
        rcases cond_blind p e ty r hp he with h | ⟨h, h2⟩
        · exact .inl (condOr_none ps e ty r c hc h)
        · refine .inr ⟨condOr_true ps e ty r c hc h, fun v => ?_⟩
          obtain ⟨bs, hb⟩ := h2 v
          exact ⟨bs, by rw [pmatch, hb]⟩
theorem condKws_false {s : St} : ∀ (ks : Kws) (e : VExpr) (k : Nat) (acc c : VExpr), condKws Γ e k acc ks = .ok c →
    eval W s acc = some (.bool false) → eval W s c = some (.bool false)
  | .nil, e, k, acc, c, hc, h => by simp only [condKws] at hc; cases hc; exact h
  | .cons a p ks, e, k, acc, c, hc, h => by
      simp only [condKws] at hc
      split at hc
      · cases hc
      · rename_i f fty hf
        cases hp : cond Γ (.field e f) fty p with
        | error err => rw [hp] at hc; cases hc
        | ok r =>
          rw [hp] at hc
          exact condKws_false ks e k _ c hc (by simp [eval, h, unbox])

theorem Rel.bool {C : Prop} {b : Bool} {r : Res} (h : r = if b then .yes [] else .no) :
    Rel C (some (.bool b)) r := by
  cases b
  · exact .inr (.inr ⟨rfl, h⟩)
  · exact .inr (.inl ⟨rfl, _, h⟩)

mutual
theorem cond_rel (hA : Agrees P Γ W hasTy) {s : St} : ∀ (p : Pat) (e : VExpr) (ty : Nat) (c : VExpr) (v : Val),
    cond Γ e ty p = .ok c → eval W s e = some v → hasTy v ty →
    Rel (Complete P Γ W hasTy) (eval W s c) (pmatch P v p)
  | .any x, e, ty, c, v, hc, he, hv => by
      simp only [cond] at hc
      cases hc
      exact .inr (.inl ⟨by simp [eval], _, by rw [pmatch]⟩)
  | .as p x, e, ty, c, v, hc, he, hv => by
      simp only [cond] at hc
      rw [pmatch]
      rcases cond_rel hA p e ty c v hc he hv with ⟨h1, h2⟩ | ⟨h1, bs, h2⟩ | ⟨h1, h2⟩
      · exact .inl ⟨h1, fun hC => by rw [h2 hC]; rfl⟩
      · exact .inr (.inl ⟨h1, _, by rw [h2]; rfl⟩)
      · exact .inr (.inr ⟨h1, by rw [h2]; rfl⟩)
  | .single .none, e, ty, c, v, hc, he, hv => by
      simp only [cond] at hc
      cases hc
      have : eval W s (.isNull e) = some (.bool (v = .none)) := by simp [eval, he]
      rw [this]
      refine Rel.bool ?_
      rw [pmatch]
      simp
  | .single (.bool true), e, ty, c, v, hc, he, hv => by
      simp only [cond] at hc
      cases hc
      have : eval W s (.and (.isBool e) (.unbox e)) = some (.bool (v = .bool true)) := by
        cases v <;> simp [eval, he, unbox]
      rw [this]
      refine Rel.bool ?_
      rw [pmatch]
      simp
  | .single (.bool false), e, ty, c, v, hc, he, hv => by
      simp only [cond] at hc
      cases hc
      have : eval W s (.and (.isBool e) (.not (.unbox e))) = some (.bool (v = .bool false)) := by
        cases v with
        | bool b => cases b <;> simp [eval, he, unbox]
        | none => simp [eval, he, unbox]
        | obj n => simp [eval, he, unbox]
      rw [this]
      refine Rel.bool ?_
      rw [pmatch]
      simp
  | .value k, e, ty, c, v, hc, he, hv => by
      simp only [cond] at hc
      cases hc
      rw [pmatch]
      cases hk : W.eq ty v k with
      | none => exact .inl ⟨by simp [eval, he, hk], fun hC => by rw [hC.eq ty v k hv hk]⟩
      | some b =>
        rw [hA.eq ty v k b hv hk]
        cases b
        · exact .inr (.inr ⟨by simp [eval, he, hk], rfl⟩)
        · exact .inr (.inl ⟨by simp [eval, he, hk], _, rfl⟩)
  | .cls k ks, e, ty, c, v, hc, he, hv => by
      simp only [cond] at hc
      have h0 : eval W s (.isInst e k) = some (.bool (W.inst v k)) := by simp [eval, he]
      rw [pmatch, hA.inst]
      cases hi : W.inst v k with
      | false =>
        rw [hi] at h0
        exact .inr (.inr ⟨condKws_false ks e k _ c hc h0, rfl⟩)
      | true =>
        rw [hi] at h0
        exact condKws_rel hA ks e k _ c v hc he hi h0
  | .or p ps, e, ty, c, v, hc, he, hv => by
      simp only [cond] at hc
      cases hp : cond Γ e ty p with
      | error err => rw [hp] at hc; cases hc
      | ok r =>
        rw [hp] at hc
        rw [pmatch]
        rcases cond_rel hA p e ty r v hp he hv with ⟨h1, h2⟩ | ⟨h1, bs, h2⟩ | ⟨h1, h2⟩
        · exact .inl ⟨condOr_none ps e ty r c hc h1, fun hC => by rw [h2 hC]⟩
        · exact .inr (.inl ⟨condOr_true ps e ty r c hc h1, bs, by rw [h2]⟩)
        · rw [h2]
          exact condOr_rel hA ps e ty r c v hc he hv h1
theorem condOr_rel (hA : Agrees P Γ W hasTy) {s : St} : ∀ (ps : Pats) (e : VExpr) (ty : Nat) (acc c : VExpr) (v : Val),
    condOr Γ e ty acc ps = .ok c → eval W s e = some v → hasTy v ty → eval W s acc = some (.bool false) →
    Rel (Complete P Γ W hasTy) (eval W s c) (pmatchOr P v ps)
  | .nil, e, ty, acc, c, v, hc, he, hv, ha => by
      simp only [condOr] at hc
      cases hc
      exact .inr (.inr ⟨ha, by rw [pmatchOr]⟩)
  | .cons p ps, e, ty, acc, c, v, hc, he, hv, ha => by
      simp only [condOr] at hc
      cases hp : cond Γ e ty p with
      | error err => rw [hp] at hc; cases hc
      | ok r =>
        rw [hp] at hc
        rw [pmatchOr]
        rcases cond_rel hA p e ty r v hp he hv with ⟨h1, h2⟩ | ⟨h1, bs, h2⟩ | ⟨h1, h2⟩
        · exact .inl ⟨condOr_none ps e ty _ c hc (by simp [eval, ha, h1, unbox]), fun hC => by rw [h2 hC]⟩
        · exact .inr (.inl ⟨condOr_true ps e ty _ c hc (by simp [eval, ha, h1, unbox]), bs, by rw [h2]⟩)
        · rw [h2]
          exact condOr_rel hA ps e ty _ c v hc he hv (by simp [eval, ha, h1, unbox])
theorem condKws_rel (hA : Agrees P Γ W hasTy) {s : St} : ∀ (ks : Kws) (e : VExpr) (k : Nat) (acc c : VExpr) (v : Val),
    condKws Γ e k acc ks = .ok c → eval W s e = some v → W.inst v k = true → eval W s acc = some (.bool true) →
    Rel (Complete P Γ W hasTy) (eval W s c) (pmatchKws P v ks)
  | .nil, e, k, acc, c, v, hc, he, hi, ha => by
      simp only [condKws] at hc
      cases hc
      exact .inr (.inl ⟨ha, _, by rw [pmatchKws]⟩)
  | .cons a p ks, e, k, acc, c, v, hc, he, hi, ha => by
      simp only [condKws] at hc
      split at hc
      · cases hc
      · rename_i f fty hf
        cases hp : cond Γ (.field e f) fty p with
        | error err => rw [hp] at hc; cases hc
        | ok r =>
          rw [hp] at hc
          obtain ⟨w, hw, hpw⟩ := hA.get v k a f fty hi hf
          rw [pmatchKws, hw]
          simp only
          cases hperm : W.perm v f with
          | true =>
            obtain ⟨rfl, hty⟩ := hpw hperm
            have hfe : eval W s (.field e f) = some (W.heap v f) := by simp [eval, he, hperm]
            rcases cond_rel hA p _ fty r _ hp hfe hty with ⟨h1, h2⟩ | ⟨h1, bs, h2⟩ | ⟨h1, h2⟩
            · exact .inl ⟨condKws_none ks e k _ c hc (by simp [eval, ha, h1, unbox]), fun hC => by rw [h2 hC]⟩
            · rw [h2]
              rcases condKws_rel hA ks e k _ c v hc he hi (by simp [eval, ha, h1, unbox]) with
                ⟨h3, h4⟩ | ⟨h3, bs', h4⟩ | ⟨h3, h4⟩
              · exact .inl ⟨h3, fun hC => by rw [h4 hC]; rfl⟩
              · exact .inr (.inl ⟨h3, _, by rw [h4]; rfl⟩)
              · exact .inr (.inr ⟨h3, by rw [h4]; rfl⟩)
            · rw [h2]
              exact .inr (.inr ⟨condKws_false ks e k _ c hc (by simp [eval, ha, h1, unbox]), rfl⟩)
          | false =>
            have hfe : eval W s (.field e f) = none := by simp [eval, he, hperm]
            have hnc : Complete P Γ W hasTy → False := fun hC => by
              have := hC.get v k a f fty hi hf
              rw [hperm] at this
              cases this
            rcases cond_blind (P := P) p _ fty r hp hfe with h1 | ⟨h1, h2⟩
            · exact .inl ⟨condKws_none ks e k _ c hc (by simp [eval, ha, h1, unbox]), fun hC => (hnc hC).elim⟩
            · obtain ⟨bs, hb⟩ := h2 w
              rw [hb]
              rcases condKws_rel hA ks e k _ c v hc he hi (by simp [eval, ha, h1, unbox]) with
                ⟨h3, h4⟩ | ⟨h3, bs', h4⟩ | ⟨h3, h4⟩
              · exact .inl ⟨h3, fun hC => (hnc hC).elim⟩
              · exact .inr (.inl ⟨h3, _, by rw [h4]; rfl⟩)
              · exact .inr (.inr ⟨h3, by rw [h4]; rfl⟩)
end

/-! Assignments -/

def setVars (vars : Nat → Val) : List (Nat × Val) → Nat → Val
  | [] => vars
  | (x, v) :: bs => setVars (fun y => if y = x then v else vars y) bs

theorem setVars_append (vars : Nat → Val) (bs cs : List (Nat × Val)) :
    setVars vars (bs ++ cs) = setVars (setVars vars bs) cs := by
  induction bs generalizing vars with
  | nil => rfl
  | cons b bs ih => obtain ⟨x, v⟩ := b; simp only [List.cons_append, setVars, ih]

theorem runBlock_append {s : St} (ss ts : List VStmt) :
    runBlock W s (toBlock (ss ++ ts)) =
      match runBlock W s (toBlock ss) with
      | .done s' => runBlock W s' (toBlock ts)
      | r => r := by
  induction ss generalizing s with
  | nil => simp [toBlock, runBlock]
  | cons t ss ih =>
    simp only [List.cons_append, toBlock, runBlock]
    cases run W s t with
    | done s' => simp only [ih]
    | err => rfl
    | body k s' => rfl

/-- The assignments fail or bind the names of the match. -/
def Asg (W : World) (C : Prop) (s : St) (ss : List VStmt) (bs : List (Nat × Val)) : Prop :=
  (runBlock W s (toBlock ss) = .err ∧ ¬ C) ∨ runBlock W s (toBlock ss) = .done { s with vars := setVars s.vars bs }

theorem Asg.append {C : Prop} {s : St} {ss ts : List VStmt} {bs cs : List (Nat × Val)} (h1 : Asg W C s ss bs)
    (h2 : Asg W C { s with vars := setVars s.vars bs } ts cs) : Asg W C s (ss ++ ts) (bs ++ cs) := by
  unfold Asg at *
  rw [runBlock_append]
  rcases h1 with ⟨h1, h1'⟩ | h1
  · exact .inl ⟨by rw [h1], h1'⟩
  · rw [h1]
    simp only [setVars_append]
    exact h2

theorem asg_one {C : Prop} {s : St} {x : Nat} {e : VExpr} {v : Val} (he : eval W s e = some v) :
    Asg W C s [.assign x e] [(x, v)] := by
  right
  simp [toBlock, runBlock, run, he, setVars]

theorem asg_nil {C : Prop} {s : St} : Asg W C s [] [] := .inr rfl

/-- Without the permission the first assignment fails. -/
theorem asg_fail {C : Prop} {s : St} {ss : List VStmt} {bs : List (Nat × Val)} (hC : ¬ C)
    (h : runBlock W s (toBlock ss) = .err) : Asg W C s ss bs := .inl ⟨h, hC⟩

/-- The expression stays defined or undefined when variables change. -/
def Stable (W : World) (e : VExpr) : Prop := ∀ s s' : St, s.subj = s'.subj → eval W s e = eval W s' e

theorem stable_subj : Stable W .subj := fun s s' h => by simp [eval, h]

theorem Stable.field {e : VExpr} (h : Stable W e) (f : Nat) : Stable W (.field e f) := fun s s' hs => by
  simp only [eval, h s s' hs]

mutual
theorem pmatch_binds : ∀ (p : Pat) (v : Val) (bs : List (Nat × Val)), pmatch P v p = .yes bs → ∀ b ∈ bs, b.1 ∈ binds p
  | .any x, v, bs, hm => by
      rw [pmatch] at hm
      cases hm
      intro b hb
      simp only [named, List.mem_map] at hb
      obtain ⟨y, hy, rfl⟩ := hb
      simpa [binds] using hy
  | .as p x, v, bs, hm => by
      rw [pmatch] at hm
      cases hp : pmatch P v p with
      | err => rw [hp] at hm; cases hm
      | no => rw [hp] at hm; cases hm
      | yes bs' =>
        rw [hp] at hm
        cases hm
        intro b hb
        rcases List.mem_append.1 hb with hb | hb
        · simp only [List.mem_singleton] at hb
          subst hb
          simp [binds]
        · exact List.mem_cons_of_mem _ (pmatch_binds p v bs' hp b hb)
  | .single .none, v, bs, hm => by
      rw [pmatch] at hm
      split at hm
      · cases hm; intro b hb; cases hb
      · cases hm
  | .single (.bool c), v, bs, hm => by
      rw [pmatch] at hm
      split at hm
      · cases hm; intro b hb; cases hb
      · cases hm
  | .value c, v, bs, hm => by
      rw [pmatch] at hm
      split at hm
      · cases hm; intro b hb; cases hb
      · cases hm
      · cases hm
  | .cls c ks, v, bs, hm => by
      rw [pmatch] at hm
      split at hm
      · exact pmatchKws_binds ks v bs hm
      · cases hm
  | .or p ps, v, bs, hm => by
      rw [pmatch] at hm
      intro b hb
      rw [binds, List.mem_append]
      cases hp : pmatch P v p with
      | err => rw [hp] at hm; cases hm
      | no => rw [hp] at hm; exact .inr (pmatchOr_binds ps v bs hm b hb)
      | yes bs' => rw [hp] at hm; cases hm; exact .inl (pmatch_binds p v bs hp b hb)
theorem pmatchOr_binds : ∀ (ps : Pats) (v : Val) (bs : List (Nat × Val)), pmatchOr P v ps = .yes bs →
    ∀ b ∈ bs, b.1 ∈ bindsPats ps
  | .nil, v, bs, hm => by rw [pmatchOr] at hm; cases hm
  | .cons p ps, v, bs, hm => by
      rw [pmatchOr] at hm
      intro b hb
      rw [bindsPats, List.mem_append]
      cases hp : pmatch P v p with
      | err => rw [hp] at hm; cases hm
      | no => rw [hp] at hm; exact .inr (pmatchOr_binds ps v bs hm b hb)
      | yes bs' => rw [hp] at hm; cases hm; exact .inl (pmatch_binds p v bs hp b hb)
theorem pmatchKws_binds : ∀ (ks : Kws) (v : Val) (bs : List (Nat × Val)), pmatchKws P v ks = .yes bs →
    ∀ b ∈ bs, b.1 ∈ bindsKws ks
  | .nil, v, bs, hm => by rw [pmatchKws] at hm; cases hm; intro b hb; cases hb
  | .cons a p ks, v, bs, hm => by
      rw [pmatchKws] at hm
      intro b hb
      rw [bindsKws, List.mem_append]
      split at hm
      · rename_i w hw
        split at hm
        · rename_i bs1 hb1
          cases hk : pmatchKws P v ks with
          | err => rw [hk] at hm; cases hm
          | no => rw [hk] at hm; cases hm
          | yes bs2 =>
            rw [hk] at hm
            cases hm
            rcases List.mem_append.1 hb with hb | hb
            · exact .inl (pmatch_binds p w bs1 hb1 b hb)
            · exact .inr (pmatchKws_binds ks v bs2 hk b hb)
        · rename_i hne
          exact absurd hm (hne bs)
      · cases hm
end

mutual
theorem assigns_blind {C : Prop} (hC : ¬ C) {s : St} : ∀ (p : Pat) (e : VExpr) (ss : List VStmt) (v : Val)
    (bs : List (Nat × Val)), Plain p → assigns Γ e p = .ok ss → eval W s e = none → pmatch P v p = .yes bs →
    Stable W e → Asg W C s ss bs
  | .any none, e, ss, v, bs, hp, ha, he, hm, hst => by
      simp only [assigns] at ha
      cases ha
      rw [pmatch] at hm
      cases hm
      exact asg_nil
  | .any (some x), e, ss, v, bs, hp, ha, he, hm, hst => by
      simp only [assigns] at ha
      split at ha
      · cases ha
        exact asg_fail hC (by simp [toBlock, runBlock, run, he])
      · cases ha
  | .as p x, e, ss, v, bs, hp, ha, he, hm, hst => by
      simp only [assigns] at ha
      split at ha
      · cases hp' : assigns Γ e p with
        | error err => rw [hp'] at ha; cases ha
        | ok r =>
          rw [hp'] at ha
          cases ha
          exact asg_fail hC (by simp [toBlock, runBlock, run, he])
      · cases ha
  | .cls k ks, e, ss, v, bs, hp, ha, he, hm, hst => by
      simp only [assigns] at ha
      rw [pmatch] at hm
      split at hm
      · exact assignsKws_blind hC ks e k ss v bs hp ha he hm hst
      · cases hm
  | .single c, e, ss, v, bs, hp, ha, he, hm, hst => by
      simp only [assigns] at ha
      cases ha
      cases c with
      | none =>
        rw [pmatch] at hm
        split at hm
        · cases hm; exact asg_nil
        · cases hm
      | bool b =>
        rw [pmatch] at hm
        split at hm
        · cases hm; exact asg_nil
        · cases hm
  | .value c, e, ss, v, bs, hp, ha, he, hm, hst => by
      simp only [assigns] at ha
      cases ha
      rw [pmatch] at hm
      split at hm
      · cases hm; exact asg_nil
      · cases hm
      · cases hm
  | .or p ps, e, ss, v, bs, hp, ha, he, hm, hst => by
      simp only [assigns] at ha
      cases ha
      have := pmatch_binds (.or p ps) v bs hm
      simp only [Plain] at hp
      simp only [binds, hp.1, hp.2, List.append_nil] at this
      have : bs = [] := by
        cases bs with
        | nil => rfl
        | cons b bs => exact absurd (this b List.mem_cons_self) (by simp)
      rw [this]
      exact asg_nil
theorem assignsKws_blind {C : Prop} (hC : ¬ C) {s : St} : ∀ (ks : Kws) (e : VExpr) (k : Nat) (ss : List VStmt) (v : Val)
    (bs : List (Nat × Val)), PlainKws ks → assignsKws Γ e k ks = .ok ss → eval W s e = none → pmatchKws P v ks = .yes bs →
    Stable W e → Asg W C s ss bs
  | .nil, e, k, ss, v, bs, hp, ha, he, hm, hst => by
      simp only [assignsKws] at ha
      cases ha
      rw [pmatchKws] at hm
      cases hm
      exact asg_nil
  | .cons a p ks, e, k, ss, v, bs, hp, ha, he, hm, hst => by
      simp only [assignsKws] at ha
      split at ha
      · cases ha
      · rename_i f fty hf
        cases hp1 : assigns Γ (.field e f) p with
        | error err => rw [hp1] at ha; cases ha
        | ok r =>
          rw [hp1] at ha
          simp only at ha
          cases hp2 : assignsKws Γ e k ks with
          | error err => rw [hp2] at ha; cases ha
          | ok rs =>
            rw [hp2] at ha
            cases ha
            rw [pmatchKws] at hm
            split at hm
            · rename_i w hw
              split at hm
              · rename_i bs1 hb1
                cases hk : pmatchKws P v ks with
                | err => rw [hk] at hm; cases hm
                | no => rw [hk] at hm; cases hm
                | yes bs2 =>
                  rw [hk] at hm
                  cases hm
                  have h1 := assigns_blind (s := s) hC p _ r w bs1 hp.1 hp1 (by simp [eval, he]) hb1 (hst.field f)
                  refine h1.append ?_
                  exact assignsKws_blind hC ks e k rs v bs2 hp.2 hp2 ((hst { s with vars := setVars s.vars bs1 } s rfl).trans he) hk hst
              · rename_i hne
                exact absurd hm (hne bs)
            · cases hm
end

mutual
theorem assigns_rel (hA : Agrees P Γ W hasTy) {s : St} : ∀ (p : Pat) (e : VExpr) (ss : List VStmt) (v : Val)
    (bs : List (Nat × Val)), Plain p → assigns Γ e p = .ok ss → eval W s e = some v → pmatch P v p = .yes bs →
    Stable W e → Asg W (Complete P Γ W hasTy) s ss bs
  | .any none, e, ss, v, bs, hp, ha, he, hm, hst => by
      simp only [assigns] at ha
      cases ha
      rw [pmatch] at hm
      cases hm
      exact asg_nil
  | .any (some x), e, ss, v, bs, hp, ha, he, hm, hst => by
      simp only [assigns] at ha
      split at ha
      · cases ha
        rw [pmatch] at hm
        cases hm
        exact asg_one he
      · cases ha
  | .as p x, e, ss, v, bs, hp, ha, he, hm, hst => by
      simp only [assigns] at ha
      split at ha
      · cases hp' : assigns Γ e p with
        | error err => rw [hp'] at ha; cases ha
        | ok r =>
          rw [hp'] at ha
          cases ha
          rw [pmatch] at hm
          cases hq : pmatch P v p with
          | err => rw [hq] at hm; cases hm
          | no => rw [hq] at hm; cases hm
          | yes bs' =>
            rw [hq] at hm
            cases hm
            exact (asg_one he).append (ts := r)
              (assigns_rel hA p e r v bs' hp hp' ((hst { s with vars := setVars s.vars [(x, v)] } s rfl).trans he) hq hst)
      · cases ha
  | .cls k ks, e, ss, v, bs, hp, ha, he, hm, hst => by
      simp only [assigns] at ha
      rw [pmatch] at hm
      split at hm
      · rename_i hi
        rw [hA.inst] at hi
        exact assignsKws_rel hA ks e k ss v bs hp ha he hi hm hst
      · cases hm
  | .single c, e, ss, v, bs, hp, ha, he, hm, hst => by
      simp only [assigns] at ha
      cases ha
      cases c with
      | none =>
        rw [pmatch] at hm
        split at hm
        · cases hm; exact asg_nil
        · cases hm
      | bool b =>
        rw [pmatch] at hm
        split at hm
        · cases hm; exact asg_nil
        · cases hm
  | .value c, e, ss, v, bs, hp, ha, he, hm, hst => by
      simp only [assigns] at ha
      cases ha
      rw [pmatch] at hm
      split at hm
      · cases hm; exact asg_nil
      · cases hm
      · cases hm
  | .or p ps, e, ss, v, bs, hp, ha, he, hm, hst => by
      simp only [assigns] at ha
      cases ha
      have := pmatch_binds (.or p ps) v bs hm
      simp only [Plain] at hp
      simp only [binds, hp.1, hp.2, List.append_nil] at this
      have : bs = [] := by
        cases bs with
        | nil => rfl
        | cons b bs => exact absurd (this b List.mem_cons_self) (by simp)
      rw [this]
      exact asg_nil
theorem assignsKws_rel (hA : Agrees P Γ W hasTy) {s : St} : ∀ (ks : Kws) (e : VExpr) (k : Nat) (ss : List VStmt) (v : Val)
    (bs : List (Nat × Val)), PlainKws ks → assignsKws Γ e k ks = .ok ss → eval W s e = some v → W.inst v k = true →
    pmatchKws P v ks = .yes bs → Stable W e → Asg W (Complete P Γ W hasTy) s ss bs
  | .nil, e, k, ss, v, bs, hp, ha, he, hi, hm, hst => by
      simp only [assignsKws] at ha
      cases ha
      rw [pmatchKws] at hm
      cases hm
      exact asg_nil
  | .cons a p ks, e, k, ss, v, bs, hp, ha, he, hi, hm, hst => by
      simp only [assignsKws] at ha
      split at ha
      · cases ha
      · rename_i f fty hf
        cases hp1 : assigns Γ (.field e f) p with
        | error err => rw [hp1] at ha; cases ha
        | ok r =>
          rw [hp1] at ha
          simp only at ha
          cases hp2 : assignsKws Γ e k ks with
          | error err => rw [hp2] at ha; cases ha
          | ok rs =>
            rw [hp2] at ha
            cases ha
            obtain ⟨w, hw, hpw⟩ := hA.get v k a f fty hi hf
            rw [pmatchKws, hw] at hm
            simp only at hm
            split at hm
            · rename_i bs1 hb1
              cases hk : pmatchKws P v ks with
              | err => rw [hk] at hm; cases hm
              | no => rw [hk] at hm; cases hm
              | yes bs2 =>
                rw [hk] at hm
                cases hm
                have h2 := fun s' (hs' : s'.subj = s.subj) => assignsKws_rel (s := s') hA ks e k rs v bs2 hp.2 hp2
                  (by rw [hst s' s hs']; exact he) hi hk hst
                cases hperm : W.perm v f with
                | true =>
                  obtain ⟨rfl, hty⟩ := hpw hperm
                  have hfe : eval W s (.field e f) = some (W.heap v f) := by simp [eval, he, hperm]
                  exact (assigns_rel hA p _ r _ bs1 hp.1 hp1 hfe hb1 (hst.field f)).append (h2 _ rfl)
                | false =>
                  have hfe : eval W s (.field e f) = none := by simp [eval, he, hperm]
                  have hnc : ¬ Complete P Γ W hasTy := fun hC => by
                    have := hC.get v k a f fty hi hf
                    rw [hperm] at this
                    cases this
                  exact (assigns_blind hnc p _ r w bs1 hp.1 hp1 hfe hb1 (hst.field f)).append (h2 _ rfl)
            · rename_i hne
              exact absurd hm (hne bs)
end

/-! Names -/

mutual
theorem defines_binds : ∀ p : Pat, Plain p → defines p = binds p
  | .any x, h => by simp [defines, binds]
  | .as p x, h => by simp only [defines, binds, defines_binds p h]
  | .single _, h => by simp [defines, binds]
  | .value _, h => by simp [defines, binds]
  | .cls c ks, h => by simp only [defines, binds, definesKws_binds ks h]
  | .or p ps, h => by
      simp only [Plain] at h
      simp [defines, binds, h.1, h.2]
theorem definesKws_binds : ∀ ks : Kws, PlainKws ks → definesKws ks = bindsKws ks
  | .nil, h => by simp [definesKws, bindsKws]
  | .cons a p ks, h => by simp only [definesKws, bindsKws, defines_binds p h.1, definesKws_binds ks h.2]
end

theorem aliases_whole : ∀ p : Pat, aliases p = whole p
  | .any x => rfl
  | .as p x => by simp only [aliases, whole, aliases_whole p]
  | .single _ => rfl
  | .value _ => rfl
  | .cls _ _ => rfl
  | .or _ _ => rfl

mutual
/-- Every name of a plain pattern is bound. -/
theorem binds_pmatch : ∀ (p : Pat) (v : Val) (bs : List (Nat × Val)), Plain p → pmatch P v p = .yes bs →
    bs.map Prod.fst = binds p
  | .any x, v, bs, hp, hm => by
      rw [pmatch] at hm
      cases hm
      cases x <;> rfl
  | .as p x, v, bs, hp, hm => by
      rw [pmatch] at hm
      cases hq : pmatch P v p with
      | err => rw [hq] at hm; cases hm
      | no => rw [hq] at hm; cases hm
      | yes bs' =>
        rw [hq] at hm
        cases hm
        rw [List.map_append, binds_pmatch p v bs' hp hq]
        rfl
  | .single .none, v, bs, hp, hm => by
      rw [pmatch] at hm
      split at hm
      · cases hm; rfl
      · cases hm
  | .single (.bool c), v, bs, hp, hm => by
      rw [pmatch] at hm
      split at hm
      · cases hm; rfl
      · cases hm
  | .value c, v, bs, hp, hm => by
      rw [pmatch] at hm
      split at hm
      · cases hm; rfl
      · cases hm
      · cases hm
  | .cls c ks, v, bs, hp, hm => by
      rw [pmatch] at hm
      split at hm
      · exact bindsKws_pmatch ks v bs hp hm
      · cases hm
  | .or p ps, v, bs, hp, hm => by
      have := pmatch_binds (.or p ps) v bs hm
      simp only [Plain] at hp
      simp only [binds, hp.1, hp.2, List.append_nil] at this ⊢
      cases bs with
      | nil => rfl
      | cons b bs => exact absurd (this b List.mem_cons_self) (by simp)
theorem bindsKws_pmatch : ∀ (ks : Kws) (v : Val) (bs : List (Nat × Val)), PlainKws ks → pmatchKws P v ks = .yes bs →
    bs.map Prod.fst = bindsKws ks
  | .nil, v, bs, hp, hm => by rw [pmatchKws] at hm; cases hm; rfl
  | .cons a p ks, v, bs, hp, hm => by
      rw [pmatchKws] at hm
      split at hm
      · rename_i w hw
        split at hm
        · rename_i bs1 hb1
          cases hk : pmatchKws P v ks with
          | err => rw [hk] at hm; cases hm
          | no => rw [hk] at hm; cases hm
          | yes bs2 =>
            rw [hk] at hm
            cases hm
            rw [List.map_append, binds_pmatch p w bs1 hp.1 hb1, bindsKws_pmatch ks v bs2 hp.2 hk]
            rfl
        · rename_i hne
          exact absurd hm (hne bs)
      · cases hm
end

/-! Guards -/

def Rel2 (C : Prop) {α : Type} (o r : Option α) : Prop := (o = none ∧ (C → r = none)) ∨ ∃ w, o = some w ∧ r = some w

mutual
theorem guard_rel (hA : Agrees P Γ W hasTy) {s : St} {al : List Nat} {σ : Env} : ∀ (g : Expr),
    (∀ x ∈ reads g, (x ∈ al → σ x = some s.subj) ∧ (x ∉ al → view s.vars s.defd x = σ x)) →
    Rel2 (Complete P Γ W hasTy) (eval W s (trExpr al g)) (evalPy P σ g)
  | .lit v, h => .inr ⟨v, by simp [trExpr, eval], by simp [evalPy]⟩
  | .var x, h => by
      obtain ⟨h1, h2⟩ := h x (by simp [reads])
      rw [trExpr, evalPy]
      by_cases hx : x ∈ al
      · rw [if_pos hx, h1 hx]
        exact .inr ⟨s.subj, by simp [eval], rfl⟩
      · rw [if_neg hx, ← h2 hx]
        simp only [eval, view]
        by_cases hd : s.defd x = true
        · rw [if_pos hd]; exact .inr ⟨_, rfl, rfl⟩
        · rw [if_neg hd]; exact .inl ⟨rfl, fun _ => rfl⟩
  | .op f args, h => by
      simp only [trExpr, eval, evalPy]
      rcases guards_rel hA args (by simpa [reads] using h) with ⟨h1, h2⟩ | ⟨vs, h1, h2⟩
      · rw [h1]
        exact .inl ⟨rfl, fun hC => by rw [h2 hC]; rfl⟩
      · rw [h1, h2]
        simp only [Option.bind_some]
        cases ho : W.op f vs with
        | none => exact .inl ⟨rfl, fun hC => hC.op f vs ho⟩
        | some w => exact .inr ⟨w, rfl, hA.op f vs w ho⟩
theorem guards_rel (hA : Agrees P Γ W hasTy) {s : St} {al : List Nat} {σ : Env} : ∀ (gs : List Expr),
    (∀ x ∈ readsL gs, (x ∈ al → σ x = some s.subj) ∧ (x ∉ al → view s.vars s.defd x = σ x)) →
    Rel2 (Complete P Γ W hasTy) (evals W s (trExprs al gs)) (evalPys P σ gs)
  | [], h => .inr ⟨[], by simp [trExprs, evals], by simp [evalPys]⟩
  | g :: gs, h => by
      simp only [trExprs, evals, evalPys]
      rcases guard_rel hA g (fun x hx => h x (by simp [readsL, hx])) with ⟨h1, h2⟩ | ⟨v, h1, h2⟩
      · rw [h1]
        exact .inl ⟨rfl, fun hC => by rw [h2 hC]; rfl⟩
      · rw [h1, h2]
        rcases guards_rel hA gs (fun x hx => h x (by simp [readsL, hx])) with ⟨h3, h4⟩ | ⟨vs, h3, h4⟩
        · rw [h3]
          exact .inl ⟨rfl, fun hC => by rw [h4 hC]; rfl⟩
        · rw [h3, h4]
          exact .inr ⟨_, rfl, rfl⟩
end

/-! Environments -/

theorem bind_notin {σ : Env} {bs : List (Nat × Val)} {x : Nat} (h : x ∉ bs.map Prod.fst) : σ.bind bs x = σ x := by
  induction bs generalizing σ with
  | nil => rfl
  | cons b bs ih =>
    obtain ⟨y, v⟩ := b
    simp only [List.map_cons, List.mem_cons, not_or] at h
    rw [Env.bind, ih h.2, if_neg h.1]

theorem bind_in {σ : Env} {bs : List (Nat × Val)} {x : Nat} {v : Val} (hn : (bs.map Prod.fst).Nodup) (h : (x, v) ∈ bs) :
    σ.bind bs x = some v := by
  induction bs generalizing σ with
  | nil => cases h
  | cons b bs ih =>
    obtain ⟨y, w⟩ := b
    simp only [List.map_cons, List.nodup_cons] at hn
    rw [Env.bind]
    rcases List.mem_cons.1 h with h | h
    · cases h
      rw [bind_notin hn.1, if_pos rfl]
    · exact ih hn.2 h

theorem setVars_bind (vars : Nat → Val) (σ : Env) (bs : List (Nat × Val)) (x : Nat) (h : x ∈ bs.map Prod.fst) :
    σ.bind bs x = some (setVars vars bs x) := by
  induction bs generalizing σ vars with
  | nil => cases h
  | cons b bs ih =>
    obtain ⟨y, w⟩ := b
    rw [Env.bind, setVars]
    by_cases hx : x ∈ bs.map Prod.fst
    · exact ih _ _ hx
    · have hxy : x = y := by
        simp only [List.map_cons, List.mem_cons] at h
        exact h.resolve_right hx
      rw [bind_notin hx, if_pos hxy]
      subst hxy
      clear ih h
      suffices ∀ vars' : Nat → Val, vars' x = w → some w = some (setVars vars' bs x) from this _ (if_pos rfl)
      induction bs with
      | nil => intro vars' hv; rw [setVars, hv]
      | cons c bs ih2 =>
        obtain ⟨z, u⟩ := c
        simp only [List.map_cons, List.mem_cons, not_or] at hx
        intro vars' hv
        rw [setVars]
        exact ih2 hx.2 _ (by rw [if_neg hx.1, hv])

theorem setVars_notin (vars : Nat → Val) (bs : List (Nat × Val)) (x : Nat) (h : x ∉ bs.map Prod.fst) :
    setVars vars bs x = vars x := by
  induction bs generalizing vars with
  | nil => rfl
  | cons b bs ih =>
    obtain ⟨y, w⟩ := b
    simp only [List.map_cons, List.mem_cons, not_or] at h
    rw [setVars, ih _ h.2, if_neg h.1]

theorem run_defines {s : St} (xs : List Nat) (k : Nat) :
    ∃ d, runBlock W s (toBlock (xs.map .define ++ [.body k])) = .body k { s with defd := d } ∧
      ∀ x, d x = true ↔ (x ∈ xs ∨ s.defd x = true) := by
  induction xs generalizing s with
  | nil => exact ⟨s.defd, by simp [toBlock, runBlock, run], by simp⟩
  | cons y xs ih =>
    obtain ⟨d, h1, h2⟩ := ih (s := { s with defd := fun z => if z = y then true else s.defd z })
    refine ⟨d, by simpa [toBlock, runBlock, run] using h1, fun x => ?_⟩
    rw [h2]
    by_cases hx : x = y <;> simp [hx]

theorem whole_binds : ∀ (p : Pat) (x : Nat), x ∈ whole p → x ∈ binds p
  | .any y, x, h => h
  | .as p y, x, h => by
      rcases List.mem_cons.1 h with h | h
      · exact List.mem_cons.2 (.inl h)
      · exact List.mem_cons_of_mem _ (whole_binds p x h)

theorem whole_bound : ∀ (p : Pat) (v : Val) (bs : List (Nat × Val)), pmatch P v p = .yes bs → ∀ x ∈ whole p, (x, v) ∈ bs
  | .any y, v, bs, hm, x, h => by
      rw [pmatch] at hm
      cases hm
      simp only [whole, Option.mem_toList] at h
      subst h
      simp [named]
  | .as p y, v, bs, hm, x, h => by
      rw [pmatch] at hm
      cases hq : pmatch P v p with
      | err => rw [hq] at hm; cases hm
      | no => rw [hq] at hm; cases hm
      | yes bs' =>
        rw [hq] at hm
        cases hm
        rcases List.mem_cons.1 h with h | h
        · subst h; exact List.mem_append_left _ List.mem_cons_self
        · exact List.mem_append_right _ (whole_bound p v bs' hq x h)

/-! Cases -/

def After (H : List Nat) (k : Nat) (cases : List Case) (C : Prop) (o : Out) (r : PyOut) : Prop :=
  (o = .err ∧ (C → r = .err)) ∨
  (∃ j s' σ', o = .body (k + j) s' ∧ r = .body (k + j) σ' ∧
    ∀ x, x ∉ hidden H cases (some j) → view s'.vars s'.defd x = σ' x) ∨
  (∃ s' σ', o = .done s' ∧ r = .done σ' ∧ ∀ x, x ∉ hidden H cases none → view s'.vars s'.defd x = σ' x)

theorem After.next {H : List Nat} {k : Nat} {cs : Case} {rest : List Case} {C : Prop} {o : Out} {r : PyOut}
    (h : After (if cs.guard.isSome then H ++ binds cs.pat else H) (k + 1) rest C o r) :
    After H k (cs :: rest) C o r := by
  rcases h with h | ⟨j, s', σ', h1, h2, h3⟩ | ⟨s', σ', h1, h2, h3⟩
  · exact .inl h
  · refine .inr (.inl ⟨j + 1, s', σ', ?_, ?_, fun x hx => h3 x ?_⟩)
    · rw [h1, Nat.add_assoc, Nat.add_comm 1 j]
    · rw [h2, Nat.add_assoc, Nat.add_comm 1 j]
    · simpa only [hidden] using hx
  · refine .inr (.inr ⟨s', σ', h1, h2, fun x hx => h3 x ?_⟩)
    simpa only [hidden] using hx

/-- The case is entered. -/
theorem enter (hA : Agrees P Γ W hasTy) {H : List Nat} {k : Nat} {cs : Case} {rest : List Case} {s : St} {σ : Env}
    {as : List VStmt} {bs : List (Nat × Val)} (hok : Ok H (cs :: rest)) (ha : assigns Γ .subj cs.pat = .ok as)
    (hm : pmatch P s.subj cs.pat = .yes bs) (hv : ∀ x, x ∉ H → view s.vars s.defd x = σ x) (r : PyOut)
    (hr : r = .body k (σ.bind bs)) :
    After H k (cs :: rest) (Complete P Γ W hasTy)
      (runBlock W s (toBlock (as ++ (defines cs.pat).map .define ++ [.body k]))) r := by
  have hbn := binds_pmatch cs.pat _ _ hok.1 hm
  rw [List.append_assoc, runBlock_append]
  rcases assigns_rel (s := s) hA cs.pat .subj as s.subj bs hok.1 ha (by simp [eval]) hm stable_subj with ⟨h1, h2⟩ | h1
  · rw [h1]
    exact .inl ⟨rfl, fun hC => (h2 hC).elim⟩
  · rw [h1]
    simp only
    obtain ⟨d, h3, h4⟩ := run_defines (W := W) (s := { s with vars := setVars s.vars bs }) (defines cs.pat) k
    rw [h3]
    refine .inr (.inl ⟨0, _, _, rfl, hr, fun x hx => ?_⟩)
    simp only [hidden, List.mem_filter, Bool.not_eq_true', List.contains_eq_mem, decide_eq_false_iff_not] at hx
    by_cases hb : x ∈ binds cs.pat
    · have hd : d x = true := (h4 x).2 (.inl (by rw [defines_binds _ hok.1]; exact hb))
      rw [← hbn] at hb
      simp only [view, if_pos hd]
      exact (setVars_bind s.vars σ bs x hb).symm
    · have hxH : x ∉ H := fun h => hx ⟨h, hb⟩
      have hd : d x = s.defd x := by
        rw [Bool.eq_iff_iff, h4, defines_binds _ hok.1]
        simp [hb]
      rw [← hbn] at hb
      rw [bind_notin hb, ← hv x hxH]
      simp only [view, hd, setVars_notin s.vars bs x hb]

theorem nested_rel (hA : Agrees P Γ W hasTy) {ty : Nat} : ∀ (cases : List Case) (H : List Nat) (k : Nat) (b : VBlock)
    (s : St) (σ : Env), nested Γ ty k cases = .ok b → Ok H cases → hasTy s.subj ty →
    (∀ x, x ∉ H → view s.vars s.defd x = σ x) →
    After H k cases (Complete P Γ W hasTy) (runBlock W s b) (select P s.subj k σ cases)
  | [], H, k, b, s, σ, hn, hok, hty, hv => by
      simp only [nested] at hn
      cases hn
      exact .inr (.inr ⟨s, σ, by rw [runBlock], by rw [select], fun x hx => hv x (by simpa [hidden] using hx)⟩)
  | cs :: rest, H, k, b, s, σ, hn, hok, hty, hv => by
      simp only [nested] at hn
      cases hrest : nested Γ ty (k + 1) rest with
      | error err => rw [hrest] at hn; cases hn
      | ok el =>
        rw [hrest] at hn
        simp only at hn
        cases hcc : caseCond Γ ty cs with
        | error err => rw [hcc] at hn; cases hn
        | ok c =>
          rw [hcc] at hn
          simp only at hn
          cases ha : assigns Γ .subj cs.pat with
          | error err => rw [ha] at hn; cases hn
          | ok as =>
            rw [ha] at hn
            cases hn
            have hone : ∀ t, runBlock W s (.cons t .nil) = run W s t := fun t => by
              rw [runBlock]
              cases run W s t with
              | done s' => simp only [runBlock]
              | err => rfl
              | body k s' => rfl
            rw [hone, run, select]
            simp only [caseCond] at hcc
            cases hc0 : cond Γ .subj ty cs.pat with
            | error err => rw [hc0] at hcc; cases hcc
            | ok c0 =>
              rw [hc0] at hcc
              simp only at hcc
              have hrel := cond_rel hA (s := s) cs.pat .subj ty c0 s.subj hc0 (by simp [eval]) hty
              have hkeep : ∀ x, x ∉ (if cs.guard.isSome then H ++ binds cs.pat else H) → view s.vars s.defd x = σ x := by
                intro x hx
                refine hv x fun h => hx ?_
                split
                · exact List.mem_append_left _ h
                · exact h
              have hskip := nested_rel hA rest _ (k + 1) el s σ hrest hok.2.2.2 hty hkeep
              cases hg : cs.guard with
              | none =>
                rw [hg] at hcc
                cases hcc
                rcases hrel with ⟨h1, h2⟩ | ⟨h1, bs, h2⟩ | ⟨h1, h2⟩
                · rw [h1]
                  exact .inl ⟨rfl, fun hC => by rw [h2 hC]⟩
                · rw [h1, h2]
                  exact enter hA hok ha h2 hv _ rfl
                · rw [h1, h2]
                  exact hskip.next
              | some g =>
                rw [hg] at hcc
                cases hcc
                rw [eval_and]
                rcases hrel with ⟨h1, h2⟩ | ⟨h1, bs, h2⟩ | ⟨h1, h2⟩
                · rw [h1]
                  exact .inl ⟨rfl, fun hC => by rw [h2 hC]⟩
                · rw [h1, h2]
                  simp only [Option.bind_some, unbox, if_true, eval]
                  have hbn := binds_pmatch cs.pat _ _ hok.1 h2
                  have hgr := guard_rel hA (s := s) (al := aliases cs.pat) (σ := σ.bind bs) g (by
                    intro x hx
                    rw [aliases_whole]
                    refine ⟨fun hw => bind_in (by rw [hbn]; exact hok.2.1) (whole_bound cs.pat _ _ h2 x hw), fun hw => ?_⟩
                    obtain ⟨hxH, hxb⟩ := (hok.2.2.1 g hg x hx).resolve_left hw
                    rw [bind_notin (by rw [hbn]; exact hxb)]
                    exact hv x hxH)
                  rcases hgr with ⟨h3, h4⟩ | ⟨w, h3, h4⟩
                  · rw [h3]
                    exact .inl ⟨rfl, fun hC => by rw [h4 hC]; rfl⟩
                  · rw [h3, h4]
                    simp only [Option.bind_some]
                    cases ht : W.truth w with
                    | none =>
                      exact .inl ⟨rfl, fun hC => by rw [hC.truth w ht]⟩
                    | some t =>
                      rw [hA.truth w t ht]
                      cases t with
                      | true => exact enter hA hok ha h2 hv _ rfl
                      | false =>
                        refine After.next ?_
                        refine nested_rel hA rest _ (k + 1) el s (σ.bind bs) hrest hok.2.2.2 hty ?_
                        intro x hx
                        rw [hg] at hx
                        simp only [Option.isSome_some, if_true, List.mem_append, not_or] at hx
                        rw [bind_notin (by rw [hbn]; exact hx.2)]
                        exact hv x hx.1
                · rw [h1, h2]
                  exact hskip.next

/-! Bodies -/

def bodyOf (B : Nat → World → St → Option (World × St)) (W : World) : Out → Option (World × St)
  | .err => none
  | .done s => some (W, s)
  | .body k s => B k W s

/-- Assignments only. -/
def Simple : VStmt → Prop
  | .assign _ _ => True
  | .define _ => True
  | _ => False

mutual
theorem assigns_simple : ∀ (p : Pat) (e : VExpr) (ss : List VStmt), assigns Γ e p = .ok ss → ∀ t ∈ ss, Simple t
  | .any none, e, ss, ha => by simp only [assigns] at ha; cases ha; intro t ht; cases ht
  | .any (some x), e, ss, ha => by
      simp only [assigns] at ha
      split at ha
      · cases ha; intro t ht; rw [List.mem_singleton.1 ht]; trivial
      · cases ha
  | .as p x, e, ss, ha => by
      simp only [assigns] at ha
      split at ha
      · cases hp' : assigns Γ e p with
        | error err => rw [hp'] at ha; cases ha
        | ok r =>
          rw [hp'] at ha
          cases ha
          intro t ht
          rcases List.mem_cons.1 ht with rfl | ht
          · trivial
          · exact assigns_simple p e r hp' t ht
      · cases ha
  | .cls k ks, e, ss, ha => by simp only [assigns] at ha; exact assignsKws_simple ks e k ss ha
  | .single c, e, ss, ha => by simp only [assigns] at ha; cases ha; intro t ht; cases ht
  | .value c, e, ss, ha => by simp only [assigns] at ha; cases ha; intro t ht; cases ht
  | .or p ps, e, ss, ha => by simp only [assigns] at ha; cases ha; intro t ht; cases ht
theorem assignsKws_simple : ∀ (ks : Kws) (e : VExpr) (k : Nat) (ss : List VStmt), assignsKws Γ e k ks = .ok ss →
    ∀ t ∈ ss, Simple t
  | .nil, e, k, ss, ha => by simp only [assignsKws] at ha; cases ha; intro t ht; cases ht
  | .cons a p ks, e, k, ss, ha => by
      simp only [assignsKws] at ha
      split at ha
      · cases ha
      · rename_i f fty hf
        cases hp1 : assigns Γ (.field e f) p with
        | error err => rw [hp1] at ha; cases ha
        | ok r =>
          rw [hp1] at ha
          simp only at ha
          cases hp2 : assignsKws Γ e k ks with
          | error err => rw [hp2] at ha; cases ha
          | ok rs =>
            rw [hp2] at ha
            cases ha
            intro t ht
            rcases List.mem_append.1 ht with ht | ht
            · exact assigns_simple p _ r hp1 t ht
            · exact assignsKws_simple ks e k rs hp2 t ht
end

theorem runAll_simple (B : Nat → World → St → Option (World × St)) (k : Nat) : ∀ (ss : List VStmt) (s : St),
    (∀ t ∈ ss, Simple t) →
    runAllBlock B W s (toBlock (ss ++ [.body k])) = bodyOf B W (runBlock W s (toBlock (ss ++ [.body k])))
  | [], s, h => by
      simp only [List.nil_append, toBlock, runAllBlock, runAll, runBlock, run, bodyOf]
      cases B k W s <;> rfl
  | t :: ss, s, h => by
      have ih := fun s => runAll_simple B k ss s (fun u hu => h u (List.mem_cons_of_mem _ hu))
      have ht := h t List.mem_cons_self
      simp only [List.cons_append, toBlock, runAllBlock, runBlock]
      cases t with
      | assign x e =>
        simp only [runAll, run]
        cases eval W s e with
        | none => rfl
        | some v => exact ih _
      | define x => simp only [runAll, run, Option.bind_some]; exact ih _
      | body j => exact ht.elim
      | ite c a b => exact ht.elim

theorem nested_bodies (B : Nat → World → St → Option (World × St)) {ty : Nat} : ∀ (cases : List Case) (k : Nat) (b : VBlock)
    (s : St), nested Γ ty k cases = .ok b → runAllBlock B W s b = bodyOf B W (runBlock W s b)
  | [], k, b, s, hn => by
      simp only [nested] at hn
      cases hn
      rw [runAllBlock, runBlock, bodyOf]
  | cs :: rest, k, b, s, hn => by
      simp only [nested] at hn
      cases hrest : nested Γ ty (k + 1) rest with
      | error err => rw [hrest] at hn; cases hn
      | ok el =>
        rw [hrest] at hn
        simp only at hn
        cases hcc : caseCond Γ ty cs with
        | error err => rw [hcc] at hn; cases hn
        | ok c =>
          rw [hcc] at hn
          simp only at hn
          cases ha : assigns Γ .subj cs.pat with
          | error err => rw [ha] at hn; cases hn
          | ok as =>
            rw [ha] at hn
            cases hn
            have hsim : ∀ t ∈ as ++ (defines cs.pat).map .define, Simple t := by
              intro t ht
              rcases List.mem_append.1 ht with ht | ht
              · exact assigns_simple cs.pat _ as ha t ht
              · obtain ⟨x, _, rfl⟩ := List.mem_map.1 ht
                trivial
            have hone : ∀ t, runBlock W s (.cons t .nil) = run W s t := fun t => by
              rw [runBlock]
              cases run W s t with
              | done s' => simp only [runBlock]
              | err => rfl
              | body k s' => rfl
            have hall : ∀ r : Option (World × St), (r.bind fun r => runAllBlock B r.1 r.2 .nil) = r := fun r => by
              cases r <;> simp [runAllBlock]
            rw [runAllBlock, hone, hall, runAll, run]
            cases (eval W s c).bind unbox with
            | none => rfl
            | some t =>
              cases t with
              | true => exact runAll_simple B k _ s hsim
              | false => exact nested_bodies B rest (k + 1) el s hrest

end

end Nagini.Match
