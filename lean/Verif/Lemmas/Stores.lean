import Verif.Spec.Stores
import Verif.Lemmas.Hoist

set_option linter.unusedVariables false
set_option linter.unusedSimpArgs false

namespace Nagini.Stores

open Nagini.Hoist

variable {V : Type}

/-! ### Variables in translated expressions -/

mutual
/-- Variable `x` does not occur. -/
def NoVar (x : Nat) : TExpr V → Prop
  | .const _ => True
  | .var y => y ≠ x
  | .tmp _ => True
  | .read e _ => NoVar x e
  | .app _ args => NoVars x args
  | .not e => NoVar x e
  | .cond c a b => NoVar x c ∧ NoVar x a ∧ NoVar x b
  | .and a b => NoVar x a ∧ NoVar x b
  | .or a b => NoVar x a ∧ NoVar x b
  | .cmp _ a b => NoVar x a ∧ NoVar x b
  | .toBool e => NoVar x e

def NoVars (x : Nat) : List (TExpr V) → Prop
  | [] => True
  | e :: es => NoVar x e ∧ NoVars x es
end

theorem noVars_iff (x : Nat) (l : List (TExpr V)) : NoVars x l ↔ ∀ e ∈ l, NoVar x e := by
  induction l with
  | nil => simp [NoVars]
  | cons a l ih => simp [NoVars, ih]

theorem joinE_noVar {x : Nat} (op : TExpr V → TExpr V → TExpr V)
    (hop : ∀ a b, NoVar x a → NoVar x b → NoVar x (op a b)) :
    ∀ (l : List (TExpr V)) (a : TExpr V), NoVar x a → NoVars x l → NoVar x (joinE op a l)
  | [], a, h, _ => h
  | b :: l, a, h, hl => hop _ _ h (joinE_noVar op hop l b hl.1 hl.2)

theorem joinVal_noVar {x : Nat} (isAnd : Bool) :
    ∀ (l : List (TExpr V)) (a : TExpr V), NoVar x a → NoVars x l → NoVar x (joinVal isAnd a l)
  | [], a, h, _ => h
  | b :: l, a, h, hl => by
    have := joinVal_noVar isAnd l b hl.1 hl.2
    cases isAnd <;> simp [joinVal, NoVar, h, this]

theorem joinBool_noVar {x : Nat} (isAnd : Bool) (l : List (TExpr V)) (a : TExpr V)
    (h : NoVar x a) (hl : NoVars x l) : NoVar x (joinBool isAnd a l) := by
  unfold joinBool
  apply joinE_noVar
  · intro p q hp hq
    cases isAnd <;> simp [NoVar, hp, hq]
  · simpa [NoVar] using h
  · rw [noVars_iff] at hl ⊢
    intro e he
    obtain ⟨e', he', rfl⟩ := List.mem_map.1 he
    simpa [NoVar] using hl e' he'

theorem joinCmp_noVar {x : Nat} : ∀ (ps : List (Nat × TExpr V)) (acc l : TExpr V), NoVar x acc →
    NoVar x l → NoVars x (ps.map (·.2)) → NoVar x (joinCmp acc l ps)
  | [], acc, l, h, _, _ => h
  | (op, r) :: ps, acc, l, h, hl, hp => by
    simp only [List.map_cons, NoVars] at hp
    exact joinCmp_noVar ps _ _ (by simp [NoVar, h, hl, hp.1]) hp.1 hp.2

mutual
theorem trans_noVar (x : Nat) : ∀ (e : Expr V) (n : Nat), uses x e = false → NoVar x (Hoist.trans n e).2.1
  | .const _, n, _ => by simp [Hoist.trans, NoVar]
  | .var y, n, h => by
    have : y ≠ x := by simpa [uses] using h
    simpa [Hoist.trans, NoVar] using this
  | .field e f, n, h => by
    have := trans_noVar x e n h
    simpa [Hoist.trans, NoVar] using this
  | .app f args, n, h => by
    have := transArgs_noVar x args n h
    simpa [Hoist.trans, NoVar] using this
  | .unop f e, n, h => by
    have := trans_noVar x e n h
    simpa [Hoist.trans, NoVar, NoVars] using this
  | .not e, n, h => by
    have := trans_noVar x e n h
    simpa [Hoist.trans, NoVar] using this
  | .ife c a b, n, h => by
    simp only [uses, Bool.or_eq_false_iff] at h
    have h1 := trans_noVar x c n h.1.1
    have h2 := trans_noVar x a (Hoist.trans n c).2.2 h.1.2
    have h3 := trans_noVar x b (Hoist.trans (Hoist.trans n c).2.2 a).2.2 h.2
    simp only [Hoist.trans, NoVar]
    exact ⟨h1, h2, h3⟩
  | .boolop isAnd allBool first rest, n, h => by
    simp only [uses, Bool.or_eq_false_iff] at h
    have h1 := trans_noVar x first n h.1
    have h2 := transArgs_noVar x rest (Hoist.trans n first).2.2 h.2
    simp only [Hoist.trans]
    split
    · exact joinBool_noVar _ _ _ h1 h2
    · exact joinVal_noVar _ _ _ h1 h2
  | .cmp first op second rest, n, h => by
    simp only [uses, Bool.or_eq_false_iff] at h
    have h1 := trans_noVar x first n h.1.1
    have h2 := trans_noVar x second (Hoist.trans n first).2.2 h.1.2
    have h3 := transLinks_noVar x rest (Hoist.trans (Hoist.trans n first).2.2 second).2.2 h.2
    simp only [Hoist.trans]
    refine joinCmp_noVar _ _ _ ?_ h2 ?_
    · simp only [NoVar]; exact ⟨h1, h2⟩
    · simpa [List.map_map, Function.comp_def] using h3
  | .call m args, n, _ => by simp [Hoist.trans, NoVar]

theorem transArgs_noVar (x : Nat) : ∀ (es : Exprs V) (n : Nat), usesAny x es = false →
    NoVars x ((transArgs n es).1.map (·.2))
  | .nil, n, _ => by simp [transArgs, NoVars]
  | .cons e es, n, h => by
    simp only [usesAny, Bool.or_eq_false_iff] at h
    have h1 := trans_noVar x e n h.1
    have h2 := transArgs_noVar x es (Hoist.trans n e).2.2 h.2
    simp only [transArgs, List.map_cons, NoVars]
    exact ⟨h1, h2⟩

theorem transLinks_noVar (x : Nat) : ∀ (ls : Links V) (n : Nat), usesLinks x ls = false →
    NoVars x ((transLinks n ls).1.map (·.2.2))
  | .nil, n, _ => by simp [transLinks, NoVars]
  | .cons op e ls, n, h => by
    simp only [usesLinks, Bool.or_eq_false_iff] at h
    have h1 := trans_noVar x e n h.1
    have h2 := transLinks_noVar x ls (Hoist.trans n e).2.2 h.2
    simp only [transLinks, List.map_cons, NoVars]
    exact ⟨h1, h2⟩
end

section
variable (L : Hoist.Lang)

mutual
theorem evalT_update {x : Nat} {v : L.Val} {env : Nat → L.Val} {h : L.Heap} {t : Nat → L.Val} :
    ∀ e : TExpr L.Val, NoVar x e →
      evalT L (fun y => if y = x then v else env y) h t e = evalT L env h t e
  | .const _, _ => by simp [evalT]
  | .var y, hv => by
    have : y ≠ x := hv
    simp [evalT, this]
  | .tmp _, _ => by simp [evalT]
  | .read e f, hv => by simp only [evalT, evalT_update e hv]
  | .app f args, hv => by simp only [evalT, evalTs_update args hv]
  | .not e, hv => by
    have := evalT_update (v := v) (env := env) (h := h) (t := t) e hv
    simp only [evalT, this]
  | .cond c a b, hv => by
    have h1 := evalT_update (v := v) (env := env) (h := h) (t := t) c hv.1
    have h2 := evalT_update (v := v) (env := env) (h := h) (t := t) a hv.2.1
    have h3 := evalT_update (v := v) (env := env) (h := h) (t := t) b hv.2.2
    simp only [evalT, h1, h2, h3]
  | .and a b, hv => by
    have h1 := evalT_update (v := v) (env := env) (h := h) (t := t) a hv.1
    have h2 := evalT_update (v := v) (env := env) (h := h) (t := t) b hv.2
    simp only [evalT, h1, h2]
  | .or a b, hv => by
    have h1 := evalT_update (v := v) (env := env) (h := h) (t := t) a hv.1
    have h2 := evalT_update (v := v) (env := env) (h := h) (t := t) b hv.2
    simp only [evalT, h1, h2]
  | .cmp _ a b, hv => by
    have h1 := evalT_update (v := v) (env := env) (h := h) (t := t) a hv.1
    have h2 := evalT_update (v := v) (env := env) (h := h) (t := t) b hv.2
    simp only [evalT, h1, h2]
  | .toBool e, hv => by
    have := evalT_update (v := v) (env := env) (h := h) (t := t) e hv
    simp only [evalT, this]

theorem evalTs_update {x : Nat} {v : L.Val} {env : Nat → L.Val} {h : L.Heap} {t : Nat → L.Val} :
    ∀ l : List (TExpr L.Val), NoVars x l →
      evalTs L (fun y => if y = x then v else env y) h t l = evalTs L env h t l
  | [], _ => by simp [evalTs]
  | e :: es, hv => by
    have h1 := evalT_update (v := v) (env := env) (h := h) (t := t) e hv.1
    have h2 := evalTs_update (v := v) (env := env) (h := h) (t := t) es hv.2
    simp only [evalTs, h1, h2]
end
end

/-! ### Execution -/

section
variable (L : Lang)

theorem runs_append (a b : AStmts L.Val) : ∀ s : St L, runs L s (a.append b) = runs L (runs L s a) b := by
  match a with
  | .nil => intro s; simp [AStmts.append, runs]
  | .cons q a =>
    intro s
    simp only [AStmts.append, runs]
    exact runs_append a b _

theorem runs_hoist : ∀ (ss : List (TStmt L.Val)) (s : St L), runs L s (hoist ss) =
    { s with heap := (exec L.toLang s.env ss (s.heap, s.tmp)).1,
             tmp := (exec L.toLang s.env ss (s.heap, s.tmp)).2 }
  | [], s => by simp [hoist, runs, exec]
  | q :: ss, s => by
    simp only [hoist, runs, run, exec]
    rw [runs_hoist ss]

/-- Running the statements of an ordered expression. -/
theorem run_expr (s : St L) (n : Nat) (e : Expr L.Val) (ho : e.Ordered)
    (hw : Expr.WellTyped L.toLang e) :
    ∃ t, runs L s (hoist (Hoist.trans n e).1) = ⟨s.env, (pyEval L.toLang s.env e s.heap).2, t⟩ ∧
      (∀ k < n, t k = s.tmp k) ∧
      evalT L.toLang s.env (pyEval L.toLang s.env e s.heap).2 t (Hoist.trans n e).2.1 =
        (pyEval L.toLang s.env e s.heap).1 ∧
      (e.calls = false → (pyEval L.toLang s.env e s.heap).2 = s.heap) := by
  have h := trans_ok L.toLang s.env e n s.heap s.tmp ho hw
  refine ⟨(exec L.toLang s.env (Hoist.trans n e).1 (s.heap, s.tmp)).2, ?_, h.frame, ?_, ?_⟩
  · rw [runs_hoist, h.heap]
  · rw [← h.heap]; exact h.val
  · intro hc
    rw [← h.heap, (shape n e).noStmts hc]
    simp [exec]

/-- The value of `rhs` survives the execution of the target's statements. -/
theorem keep {n : Nat} {rhs : TExpr L.Val} (hl : rhs.Lt n) {env : Nat → L.Val} {h h' : L.Heap}
    {t t' : Nat → L.Val} (ht : ∀ k < n, t' k = t k) (hp : rhs.Pure ∨ h' = h) :
    evalT L.toLang env h' t' rhs = evalT L.toLang env h t rhs :=
  evalT_congr L.toLang env ht rhs hl (hp.symm)

/-- One target. -/
theorem assignTo_ok (n : Nat) (rhs : TExpr L.Val) (hl : rhs.Lt n) (t : Target L.Val)
    (ho : t.Ordered) (hw : Target.WellTyped L t) (s : St L) (hp : rhs.Pure ∨ t.calls = false) :
    n ≤ (assignTo n rhs t).2 ∧
    ∃ tmp', runs L s (assignTo n rhs t).1 =
      ⟨(pyStore L s.env s.heap (s.eval L rhs) t).1, (pyStore L s.env s.heap (s.eval L rhs) t).2, tmp'⟩ ∧
      ∀ k < n, tmp' k = s.tmp k := by
  cases t with
  | name x =>
    exact ⟨Nat.le_refl _, s.tmp, by simp [assignTo, runs, run, pyStore], fun _ _ => rfl⟩
  | attr e f =>
    obtain ⟨t, h1, h2, h3, h4⟩ := run_expr L s n e ho hw
    refine ⟨(shape n e).le, t, ?_, h2⟩
    simp only [assignTo]
    rw [runs_append, h1]
    simp only [runs, run, St.eval, pyStore, h3]
    rw [keep L hl h2 (hp.imp_right fun hc => h4 hc)]
  | prop e p =>
    obtain ⟨t, h1, h2, h3, h4⟩ := run_expr L s n e ho hw
    refine ⟨(shape n e).le, t, ?_, h2⟩
    simp only [assignTo]
    rw [runs_append, h1]
    simp only [runs, run, St.eval, pyStore, h3]
    rw [keep L hl h2 (hp.imp_right fun hc => h4 hc)]
  | item e i =>
    obtain ⟨ho1, ho2, ho3⟩ := ho
    obtain ⟨hw1, hw2⟩ := hw
    obtain ⟨t, h1, h2, h3, h4⟩ := run_expr L s n e ho1 hw1
    obtain ⟨t', k1, k2, k3, k4⟩ := run_expr L
      ⟨s.env, (pyEval L.toLang s.env e s.heap).2, t⟩ (Hoist.trans n e).2.2 i ho2 hw2
    have hle := (shape n e).le
    have ht : ∀ k < n, t' k = s.tmp k := fun k hk =>
      (k2 k (Nat.lt_of_lt_of_le hk hle)).trans (h2 k hk)
    refine ⟨Nat.le_trans hle (shape _ i).le, t', ?_, ht⟩
    simp only [assignTo]
    rw [runs_append, runs_append, h1, k1]
    simp only [runs, run, St.eval, pyStore, k3]
    have hr : evalT L.toLang s.env (pyEval L.toLang s.env i (pyEval L.toLang s.env e s.heap).2).2 t'
        (Hoist.trans n e).2.1 = (pyEval L.toLang s.env e s.heap).1 := by
      rw [← h3]
      refine keep L (shape n e).lt k2 ?_
      cases hr : e.reads
      · exact Or.inl ((shape n e).pure hr)
      · exact Or.inr (k4 (ho3 hr))
    rw [hr, keep L hl ht (hp.imp_right fun hc => by
      simp only [Target.calls, Bool.or_eq_false_iff] at hc
      rw [k4 hc.2, h4 hc.1])]

/-- All targets. -/
theorem assignAll_ok (e : Expr L.Val) (n0 : Nat) : ∀ (ts : List (Target L.Val)) (n : Nat) (s : St L),
    (Hoist.trans n0 e).2.1.Lt n → (∀ t ∈ ts, t.Ordered) → (∀ t ∈ ts, Target.WellTyped L t) → Stable e ts →
    n ≤ (assignAll n (Hoist.trans n0 e).2.1 ts).2 ∧
    ∃ tmp', runs L s (assignAll n (Hoist.trans n0 e).2.1 ts).1 =
      ⟨(pyStores L s.env s.heap (s.eval L (Hoist.trans n0 e).2.1) ts).1,
       (pyStores L s.env s.heap (s.eval L (Hoist.trans n0 e).2.1) ts).2, tmp'⟩ ∧
      ∀ k < n, tmp' k = s.tmp k := by
  intro ts
  induction ts with
  | nil =>
    intro n s _ _ _ _
    exact ⟨Nat.le_refl _, s.tmp, by simp [assignAll, runs, pyStores], fun _ _ => rfl⟩
  | cons t ts ih =>
    intro n s hl ho hw hs
    -- the first store
    have hp : (Hoist.trans n0 e).2.1.Pure ∨ t.calls = false := by
      cases hr : e.reads
      · exact Or.inl ((shape n0 e).pure hr)
      · right
        cases ts with
        | nil => cases t <;> exact hs hr
        | cons t' ts =>
          cases t with
          | name x => rfl
          | _ => have := hs.1; rw [hr] at this; cases this
    obtain ⟨hle, tmp1, h1, h2⟩ := assignTo_ok L n _ hl t (ho t (by simp)) (hw t (by simp)) s hp
    cases ts with
    | nil =>
      refine ⟨hle, tmp1, ?_, h2⟩
      simp only [assignAll, pyStores]
      rw [runs_append, h1]
      simp [runs]
    | cons t' ts =>
      have hs' : Stable e (t' :: ts) := by cases t <;> exact hs.2
      have hval : evalT L.toLang (pyStore L s.env s.heap (s.eval L (Hoist.trans n0 e).2.1) t).1
          (pyStore L s.env s.heap (s.eval L (Hoist.trans n0 e).2.1) t).2 tmp1 (Hoist.trans n0 e).2.1 =
          s.eval L (Hoist.trans n0 e).2.1 := by
        cases t with
        | name x =>
          have hx : uses x e = false := hs.1
          simp only [pyStore]
          rw [evalT_update L.toLang _ (trans_noVar x e n0 hx)]
          exact keep L hl h2 (Or.inr rfl)
        | attr r f => exact keep L hl h2 (Or.inl ((shape n0 e).pure hs.1))
        | prop r f => exact keep L hl h2 (Or.inl ((shape n0 e).pure hs.1))
        | item r f => exact keep L hl h2 (Or.inl ((shape n0 e).pure hs.1))
      obtain ⟨gle, tmp2, g1, g2⟩ := ih (assignTo n (Hoist.trans n0 e).2.1 t).2
        ⟨(pyStore L s.env s.heap (s.eval L (Hoist.trans n0 e).2.1) t).1,
          (pyStore L s.env s.heap (s.eval L (Hoist.trans n0 e).2.1) t).2, tmp1⟩
        (hl.mono hle) (fun q hq => ho q (by simp [hq])) (fun q hq => hw q (by simp [hq])) hs'
      refine ⟨Nat.le_trans hle gle, tmp2, ?_, fun k hk =>
        (g2 k (Nat.lt_of_lt_of_le hk hle)).trans (h2 k hk)⟩
      rw [show assignAll n (Hoist.trans n0 e).2.1 (t :: t' :: ts) =
        ((assignTo n (Hoist.trans n0 e).2.1 t).1.append
          (assignAll (assignTo n (Hoist.trans n0 e).2.1 t).2 (Hoist.trans n0 e).2.1 (t' :: ts)).1,
         (assignAll (assignTo n (Hoist.trans n0 e).2.1 t).2 (Hoist.trans n0 e).2.1 (t' :: ts)).2) from rfl]
      simp only
      rw [runs_append, h1, g1]
      have hev : (⟨(pyStore L s.env s.heap (s.eval L (Hoist.trans n0 e).2.1) t).1,
          (pyStore L s.env s.heap (s.eval L (Hoist.trans n0 e).2.1) t).2, tmp1⟩ : St L).eval L
          (Hoist.trans n0 e).2.1 = s.eval L (Hoist.trans n0 e).2.1 := hval
      rw [hev]
      rfl

mutual
theorem transStmt_ok : ∀ (q : Stmt L.Val) (n : Nat) (s : St L), q.Ok → Stmt.WellTyped L q →
    n ≤ (transStmt n q).2 ∧ ∃ tmp', runs L s (transStmt n q).1 =
      ⟨(pyStmt L s.env s.heap q).1, (pyStmt L s.env s.heap q).2, tmp'⟩ ∧ ∀ k < n, tmp' k = s.tmp k
  | .assign ts e, n, s, ho, hw => by
    obtain ⟨ho1, ho2, ho3⟩ := ho
    obtain ⟨hw1, hw2⟩ := hw
    obtain ⟨t, h1, h2, h3, _⟩ := run_expr L s n e ho1 hw1
    have hle := (shape n e).le
    obtain ⟨gle, tmp2, g1, g2⟩ := assignAll_ok L e n ts (Hoist.trans n e).2.2
      ⟨s.env, (pyEval L.toLang s.env e s.heap).2, t⟩ (shape n e).lt ho2 hw2 ho3
    refine ⟨Nat.le_trans hle gle, tmp2, ?_, fun k hk =>
      (g2 k (Nat.lt_of_lt_of_le hk hle)).trans (h2 k hk)⟩
    simp only [transStmt]
    rw [runs_append, h1, g1]
    simp only [St.eval, h3, pyStmt]
  | .expr e, n, s, ho, hw => by
    obtain ⟨t, h1, h2, _, _⟩ := run_expr L s n e ho hw
    refine ⟨(shape n e).le, t, ?_, h2⟩
    simp only [transStmt]
    rw [h1]
    simp only [pyStmt]
  | .ite c a b, n, s, ho, hw => by
    obtain ⟨ho1, ho2, ho3⟩ := ho
    obtain ⟨hw1, hw2, hw3⟩ := hw
    obtain ⟨t, h1, h2, h3, _⟩ := run_expr L s n c ho1 hw1
    have hle := (shape n c).le
    obtain ⟨ale, ta, a1, a2⟩ := transStmts_ok a (Hoist.trans n c).2.2
      ⟨s.env, (pyEval L.toLang s.env c s.heap).2, t⟩ ho2 hw2
    obtain ⟨ble, tb, b1, b2⟩ := transStmts_ok b (transStmts (Hoist.trans n c).2.2 a).2
      ⟨s.env, (pyEval L.toLang s.env c s.heap).2, t⟩ ho3 hw3
    refine ⟨Nat.le_trans hle (Nat.le_trans ale ble), ?_⟩
    simp only [transStmt]
    rw [runs_append, h1]
    simp only [runs, run, St.eval, evalT, h3, L.truthy_ofBool, pyStmt]
    split
    · exact ⟨ta, a1, fun k hk => (a2 k (Nat.lt_of_lt_of_le hk hle)).trans (h2 k hk)⟩
    · exact ⟨tb, b1, fun k hk =>
        (b2 k (Nat.lt_of_lt_of_le hk (Nat.le_trans hle ale))).trans (h2 k hk)⟩

theorem transStmts_ok : ∀ (q : Stmts L.Val) (n : Nat) (s : St L), q.Ok → Stmts.WellTyped L q →
    n ≤ (transStmts n q).2 ∧ ∃ tmp', runs L s (transStmts n q).1 =
      ⟨(pyStmts L s.env s.heap q).1, (pyStmts L s.env s.heap q).2, tmp'⟩ ∧ ∀ k < n, tmp' k = s.tmp k
  | .nil, n, s, _, _ => ⟨Nat.le_refl _, s.tmp, by simp [transStmts, runs, pyStmts], fun _ _ => rfl⟩
  | .cons q qs, n, s, ho, hw => by
    obtain ⟨ale, ta, a1, a2⟩ := transStmt_ok q n s ho.1 hw.1
    obtain ⟨ble, tb, b1, b2⟩ := transStmts_ok qs (transStmt n q).2
      ⟨(pyStmt L s.env s.heap q).1, (pyStmt L s.env s.heap q).2, ta⟩ ho.2 hw.2
    refine ⟨Nat.le_trans ale ble, tb, ?_, fun k hk =>
      (b2 k (Nat.lt_of_lt_of_le hk ale)).trans (a2 k hk)⟩
    simp only [transStmts]
    rw [runs_append, a1, b1]
    simp only [pyStmts]
end

end

end Nagini.Stores
