import Verif.Spec.Hoist
import Mathlib.Tactic.Common

set_option linter.unusedVariables false
set_option linter.unusedSimpArgs false

namespace Nagini.Hoist

variable {V : Type}

mutual
/-- All temporaries of the expression are below `n`. -/
def TExpr.Lt (n : Nat) : TExpr V → Prop
  | .const _ | .var _ => True
  | .tmp k => k < n
  | .read e _ => e.Lt n
  | .app _ args => TExpr.LtAll n args
  | .not e => e.Lt n
  | .cond c a b => c.Lt n ∧ a.Lt n ∧ b.Lt n
  | .and a b => a.Lt n ∧ b.Lt n
  | .or a b => a.Lt n ∧ b.Lt n
  | .cmp _ a b => a.Lt n ∧ b.Lt n
  | .toBool e => e.Lt n

def TExpr.LtAll (n : Nat) : List (TExpr V) → Prop
  | [] => True
  | e :: es => e.Lt n ∧ TExpr.LtAll n es
end

mutual
/-- The expression contains no heap read. -/
def TExpr.Pure : TExpr V → Prop
  | .const _ | .var _ | .tmp _ => True
  | .read _ _ => False
  | .app _ args => TExpr.PureAll args
  | .not e => e.Pure
  | .cond c a b => c.Pure ∧ a.Pure ∧ b.Pure
  | .and a b => a.Pure ∧ b.Pure
  | .or a b => a.Pure ∧ b.Pure
  | .cmp _ a b => a.Pure ∧ b.Pure
  | .toBool e => e.Pure

def TExpr.PureAll : List (TExpr V) → Prop
  | [] => True
  | e :: es => e.Pure ∧ TExpr.PureAll es
end

theorem TExpr.ltAll_iff (n : Nat) (l : List (TExpr V)) : TExpr.LtAll n l ↔ ∀ e ∈ l, e.Lt n := by
  induction l with
  | nil => simp [TExpr.LtAll]
  | cons a l ih => simp [TExpr.LtAll, ih]

theorem TExpr.pureAll_iff (l : List (TExpr V)) : TExpr.PureAll l ↔ ∀ e ∈ l, e.Pure := by
  induction l with
  | nil => simp [TExpr.PureAll]
  | cons a l ih => simp [TExpr.PureAll, ih]

mutual
theorem TExpr.Lt.mono {n m : Nat} (h : n ≤ m) : ∀ {e : TExpr V}, e.Lt n → e.Lt m
  | .const _, _ | .var _, _ => by simp [TExpr.Lt]
  | .tmp k, he => by simp [TExpr.Lt] at *; omega
  | .read e _, he => by simp only [TExpr.Lt] at *; exact TExpr.Lt.mono h he
  | .app _ args, he => by simp only [TExpr.Lt] at *; exact TExpr.LtAll.mono h he
  | .not e, he => by simp only [TExpr.Lt] at *; exact TExpr.Lt.mono h he
  | .cond c a b, he => by
    simp only [TExpr.Lt] at *
    exact ⟨TExpr.Lt.mono h he.1, TExpr.Lt.mono h he.2.1, TExpr.Lt.mono h he.2.2⟩
  | .and a b, he => by simp only [TExpr.Lt] at *; exact ⟨TExpr.Lt.mono h he.1, TExpr.Lt.mono h he.2⟩
  | .or a b, he => by simp only [TExpr.Lt] at *; exact ⟨TExpr.Lt.mono h he.1, TExpr.Lt.mono h he.2⟩
  | .cmp _ a b, he => by simp only [TExpr.Lt] at *; exact ⟨TExpr.Lt.mono h he.1, TExpr.Lt.mono h he.2⟩
  | .toBool e, he => by simp only [TExpr.Lt] at *; exact TExpr.Lt.mono h he
theorem TExpr.LtAll.mono {n m : Nat} (h : n ≤ m) : ∀ {l : List (TExpr V)}, TExpr.LtAll n l → TExpr.LtAll m l
  | [], _ => by simp [TExpr.LtAll]
  | e :: es, he => by
    simp only [TExpr.LtAll] at *
    exact ⟨TExpr.Lt.mono h he.1, TExpr.LtAll.mono h he.2⟩
end

section
variable (L : Lang) (env : Nat → L.Val)

mutual
/-- Frame property of pure evaluation. -/
theorem evalT_congr {n : Nat} {h h' : L.Heap} {t t' : Nat → L.Val} (ht : ∀ k < n, t k = t' k) :
    ∀ (e : TExpr L.Val), e.Lt n → (h = h' ∨ e.Pure) → evalT L env h t e = evalT L env h' t' e
  | .const _, _, _ | .var _, _, _ => by simp [evalT]
  | .tmp k, hl, _ => by simp [evalT]; exact ht k hl
  | .read e f, hl, hp => by
    simp only [TExpr.Lt, TExpr.Pure, or_false] at *
    have := evalT_congr ht e hl (Or.inl hp)
    simp only [evalT, this]
    rw [hp]
  | .app f args, hl, hp => by
    simp only [TExpr.Lt, TExpr.Pure] at *
    simp [evalT, evalTs_congr ht args hl hp]
  | .not e, hl, hp => by
    simp only [TExpr.Lt, TExpr.Pure] at *
    simp [evalT, evalT_congr ht e hl hp]
  | .cond c a b, hl, hp => by
    simp only [TExpr.Lt, TExpr.Pure] at *
    simp [evalT, evalT_congr ht c hl.1 (hp.imp_right (·.1)), evalT_congr ht a hl.2.1 (hp.imp_right (·.2.1)),
      evalT_congr ht b hl.2.2 (hp.imp_right (·.2.2))]
  | .and a b, hl, hp => by
    simp only [TExpr.Lt, TExpr.Pure] at *
    simp [evalT, evalT_congr ht a hl.1 (hp.imp_right (·.1)), evalT_congr ht b hl.2 (hp.imp_right (·.2))]
  | .or a b, hl, hp => by
    simp only [TExpr.Lt, TExpr.Pure] at *
    simp [evalT, evalT_congr ht a hl.1 (hp.imp_right (·.1)), evalT_congr ht b hl.2 (hp.imp_right (·.2))]
  | .cmp _ a b, hl, hp => by
    simp only [TExpr.Lt, TExpr.Pure] at *
    simp [evalT, evalT_congr ht a hl.1 (hp.imp_right (·.1)), evalT_congr ht b hl.2 (hp.imp_right (·.2))]
  | .toBool e, hl, hp => by
    simp only [TExpr.Lt, TExpr.Pure] at *
    simp [evalT, evalT_congr ht e hl hp]

theorem evalTs_congr {n : Nat} {h h' : L.Heap} {t t' : Nat → L.Val} (ht : ∀ k < n, t k = t' k) :
    ∀ (l : List (TExpr L.Val)), TExpr.LtAll n l → (h = h' ∨ TExpr.PureAll l) →
      evalTs L env h t l = evalTs L env h' t' l
  | [], _, _ => by simp [evalTs]
  | e :: es, hl, hp => by
    simp only [TExpr.LtAll, TExpr.PureAll] at *
    simp [evalTs, evalT_congr ht e hl.1 (hp.imp_right (·.1)), evalTs_congr ht es hl.2 (hp.imp_right (·.2))]
end

theorem evalTs_eq_map (h : L.Heap) (t : Nat → L.Val) (l : List (TExpr L.Val)) :
    evalTs L env h t l = l.map (evalT L env h t) := by
  induction l with
  | nil => simp [evalTs]
  | cons a l ih => simp [evalTs, ih]

theorem exec_append (a b : List (TStmt L.Val)) (s : L.Heap × (Nat → L.Val)) :
    exec L env (a ++ b) s = exec L env b (exec L env a s) := by
  induction a generalizing s with
  | nil => simp [exec]
  | cons x a ih => simp [exec, ih]

end

/-! ### Structural facts about the translation -/

theorem joinE_lt {n : Nat} (op : TExpr V → TExpr V → TExpr V)
    (hop : ∀ a b, a.Lt n → b.Lt n → (op a b).Lt n) :
    ∀ (xs : List (TExpr V)) (x : TExpr V), x.Lt n → TExpr.LtAll n xs → (joinE op x xs).Lt n
  | [], x, hx, _ => hx
  | y :: ys, x, hx, h => hop _ _ hx (joinE_lt op hop ys y h.1 h.2)

theorem joinE_pure (op : TExpr V → TExpr V → TExpr V)
    (hop : ∀ a b, a.Pure → b.Pure → (op a b).Pure) :
    ∀ (xs : List (TExpr V)) (x : TExpr V), x.Pure → TExpr.PureAll xs → (joinE op x xs).Pure
  | [], x, hx, _ => hx
  | y :: ys, x, hx, h => hop _ _ hx (joinE_pure op hop ys y h.1 h.2)

theorem ltAll_map_toBool {n : Nat} : ∀ (xs : List (TExpr V)), TExpr.LtAll n xs →
    TExpr.LtAll n (xs.map .toBool)
  | [], _ => by simp [TExpr.LtAll]
  | x :: xs, h => by
    simp only [TExpr.LtAll, List.map_cons, TExpr.Lt] at *
    exact ⟨h.1, ltAll_map_toBool xs h.2⟩

theorem pureAll_map_toBool : ∀ (xs : List (TExpr V)), TExpr.PureAll xs →
    TExpr.PureAll (xs.map .toBool)
  | [], _ => by simp [TExpr.PureAll]
  | x :: xs, h => by
    simp only [TExpr.PureAll, List.map_cons, TExpr.Pure] at *
    exact ⟨h.1, pureAll_map_toBool xs h.2⟩

theorem joinBool_lt {n : Nat} (isAnd : Bool) (x : TExpr V) (xs : List (TExpr V)) (hx : x.Lt n)
    (h : TExpr.LtAll n xs) : (joinBool isAnd x xs).Lt n := by
  unfold joinBool
  apply joinE_lt _ _ _ _ (by simpa [TExpr.Lt] using hx) (ltAll_map_toBool xs h)
  intro a b ha hb
  cases isAnd <;> simp [TExpr.Lt, ha, hb]

theorem joinBool_pure (isAnd : Bool) (x : TExpr V) (xs : List (TExpr V)) (hx : x.Pure)
    (h : TExpr.PureAll xs) : (joinBool isAnd x xs).Pure := by
  unfold joinBool
  apply joinE_pure _ _ _ _ (by simpa [TExpr.Pure] using hx) (pureAll_map_toBool xs h)
  intro a b ha hb
  cases isAnd <;> simp [TExpr.Pure, ha, hb]

theorem joinVal_lt {n : Nat} (isAnd : Bool) : ∀ (xs : List (TExpr V)) (x : TExpr V), x.Lt n →
    TExpr.LtAll n xs → (joinVal isAnd x xs).Lt n
  | [], x, hx, _ => hx
  | y :: ys, x, hx, h => by
    have := joinVal_lt isAnd ys y h.1 h.2
    cases isAnd <;> simp [joinVal, TExpr.Lt, hx, this]

theorem joinVal_pure (isAnd : Bool) : ∀ (xs : List (TExpr V)) (x : TExpr V), x.Pure →
    TExpr.PureAll xs → (joinVal isAnd x xs).Pure
  | [], x, hx, _ => hx
  | y :: ys, x, hx, h => by
    have := joinVal_pure isAnd ys y h.1 h.2
    cases isAnd <;> simp [joinVal, TExpr.Pure, hx, this]

theorem joinCmp_lt {n : Nat} : ∀ (ps : List (Nat × TExpr V)) (acc l : TExpr V), acc.Lt n → l.Lt n →
    TExpr.LtAll n (ps.map (·.2)) → (joinCmp acc l ps).Lt n
  | [], acc, l, ha, _, _ => ha
  | (op, r) :: ps, acc, l, ha, hl, h => by
    simp only [List.map_cons, TExpr.LtAll] at h
    exact joinCmp_lt ps _ _ (by simp [TExpr.Lt, ha, hl, h.1]) h.1 h.2

theorem joinCmp_pure : ∀ (ps : List (Nat × TExpr V)) (acc l : TExpr V), acc.Pure → l.Pure →
    TExpr.PureAll (ps.map (·.2)) → (joinCmp acc l ps).Pure
  | [], acc, l, ha, _, _ => ha
  | (op, r) :: ps, acc, l, ha, hl, h => by
    simp only [List.map_cons, TExpr.PureAll] at h
    exact joinCmp_pure ps _ _ (by simp [TExpr.Pure, ha, hl, h.1]) h.1 h.2

theorem guardStmts_nil (isAnd : Bool) (x : TExpr V) : ∀ (ps : List (List (TStmt V) × TExpr V)) pre,
    (∀ p ∈ ps, p.1 = []) → guardStmts isAnd x pre ps = []
  | [], pre, _ => rfl
  | (ss, te) :: ps, pre, h => by
    have h1 : ss = [] := h (ss, te) (by simp)
    simp [guardStmts, h1]
    exact guardStmts_nil isAnd x ps _ (fun p hp => h p (by simp [hp]))

/-- Facts proved together for the translation of one expression. -/
structure Shape (n : Nat) (e : Expr V) : Prop where
  le : n ≤ (trans n e).2.2
  lt : (trans n e).2.1.Lt (trans n e).2.2
  pure : e.reads = false → (trans n e).2.1.Pure
  noStmts : e.calls = false → (trans n e).1 = []

structure ShapeArgs (n : Nat) (es : Exprs V) : Prop where
  le : n ≤ (transArgs n es).2
  lt : TExpr.LtAll (transArgs n es).2 ((transArgs n es).1.map (·.2))
  pure : es.reads = false → TExpr.PureAll ((transArgs n es).1.map (·.2))
  noStmts : es.calls = false → ∀ p ∈ (transArgs n es).1, p.1 = []

structure ShapeLinks (n : Nat) (ls : Links V) : Prop where
  le : n ≤ (transLinks n ls).2
  lt : TExpr.LtAll (transLinks n ls).2 ((transLinks n ls).1.map (·.2.2))
  pure : ls.reads = false → TExpr.PureAll ((transLinks n ls).1.map (·.2.2))
  noStmts : ls.calls = false → ∀ p ∈ (transLinks n ls).1, p.2.1 = []

mutual
theorem shape (n : Nat) : ∀ e : Expr V, Shape n e
  | .const v => ⟨by simp [trans], by simp [trans, TExpr.Lt], by simp [trans, TExpr.Pure], by simp [trans]⟩
  | .var v => ⟨by simp [trans], by simp [trans, TExpr.Lt], by simp [trans, TExpr.Pure], by simp [trans]⟩
  | .field e f => by
    have h := shape n e
    exact ⟨by simpa [trans] using h.le, by simpa [trans, TExpr.Lt] using h.lt,
      by simp [Expr.reads], by simpa [trans, Expr.calls] using h.noStmts⟩
  | .app f args => by
    have h := shapeArgs n args
    refine ⟨by simpa [trans] using h.le, by simpa [trans, TExpr.Lt] using h.lt,
      by simpa [trans, TExpr.Pure, Expr.reads] using h.pure, ?_⟩
    intro hc
    simpa [trans] using h.noStmts (by simpa [Expr.calls] using hc)
  | .unop f e => by
    have h := shape n e
    exact ⟨by simpa [trans] using h.le, by simpa [trans, TExpr.Lt, TExpr.LtAll] using h.lt,
      by simpa [trans, TExpr.Pure, TExpr.PureAll, Expr.reads] using h.pure, by simp [trans]⟩
  | .not e => by
    have h := shape n e
    exact ⟨by simpa [trans] using h.le, by simpa [trans, TExpr.Lt] using h.lt,
      by simpa [trans, TExpr.Pure, Expr.reads] using h.pure, by simpa [trans, Expr.calls] using h.noStmts⟩
  | .ife c a b => by
    have hc := shape n c
    have ha := shape (trans n c).2.2 a
    have hb := shape (trans (trans n c).2.2 a).2.2 b
    refine ⟨?_, ?_, ?_, ?_⟩
    · simp only [trans]; exact Nat.le_trans hc.le (Nat.le_trans ha.le hb.le)
    · simp only [trans, TExpr.Lt]
      exact ⟨hc.lt.mono (Nat.le_trans ha.le hb.le), ha.lt.mono hb.le, hb.lt⟩
    · simp only [Expr.reads, Bool.or_eq_false_iff, trans, TExpr.Pure]
      rintro ⟨⟨h1, h2⟩, h3⟩
      exact ⟨hc.pure h1, ha.pure h2, hb.pure h3⟩
    · simp only [Expr.calls, Bool.or_eq_false_iff, trans]
      rintro ⟨⟨h1, h2⟩, h3⟩
      simp [hc.noStmts h1, ha.noStmts h2, hb.noStmts h3]
  | .boolop isAnd allBool first rest => by
    have h1 := shape n first
    have h2 := shapeArgs (trans n first).2.2 rest
    refine ⟨?_, ?_, ?_, ?_⟩
    · simp only [trans]; exact Nat.le_trans h1.le h2.le
    · simp only [trans]
      split
      · exact joinBool_lt _ _ _ (h1.lt.mono h2.le) h2.lt
      · exact joinVal_lt _ _ _ (h1.lt.mono h2.le) h2.lt
    · simp only [Expr.reads, Bool.or_eq_false_iff, trans]
      rintro ⟨ha, hb⟩
      split
      · exact joinBool_pure _ _ _ (h1.pure ha) (h2.pure hb)
      · exact joinVal_pure _ _ _ (h1.pure ha) (h2.pure hb)
    · simp only [Expr.calls, Bool.or_eq_false_iff, trans]
      rintro ⟨ha, hb⟩
      simp [h1.noStmts ha, guardStmts_nil _ _ _ _ (h2.noStmts hb)]
  | .cmp first op second rest => by
    have h1 := shape n first
    have h2 := shape (trans n first).2.2 second
    have h3 := shapeLinks (trans (trans n first).2.2 second).2.2 rest
    refine ⟨?_, ?_, ?_, ?_⟩
    · simp only [trans]; exact Nat.le_trans h1.le (Nat.le_trans h2.le h3.le)
    · simp only [trans]
      refine joinCmp_lt _ _ _ ?_ (h2.lt.mono h3.le) ?_
      · simp only [TExpr.Lt]
        exact ⟨h1.lt.mono (Nat.le_trans h2.le h3.le), h2.lt.mono h3.le⟩
      · simpa [List.map_map, Function.comp_def] using h3.lt
    · simp only [Expr.reads, Bool.or_eq_false_iff, trans]
      rintro ⟨⟨ha, hb⟩, hc⟩
      refine joinCmp_pure _ _ _ ?_ (h2.pure hb) ?_
      · simp only [TExpr.Pure]; exact ⟨h1.pure ha, h2.pure hb⟩
      · simpa [List.map_map, Function.comp_def] using h3.pure hc
    · simp only [Expr.calls, Bool.or_eq_false_iff, trans]
      rintro ⟨⟨ha, hb⟩, hc⟩
      have := h3.noStmts hc
      simp only [h1.noStmts ha, h2.noStmts hb, List.nil_append, List.flatMap_eq_nil_iff]
      exact this
  | .call m args => by
    have h := shapeArgs n args
    refine ⟨?_, ?_, ?_, ?_⟩
    · have := h.le; simp only [trans]; omega
    · simp [trans, TExpr.Lt]
    · simp [trans, TExpr.Pure]
    · simp [Expr.calls]

theorem shapeArgs (n : Nat) : ∀ es : Exprs V, ShapeArgs n es
  | .nil => ⟨by simp [transArgs], by simp [transArgs, TExpr.LtAll], by simp [transArgs, TExpr.PureAll],
      by simp [transArgs]⟩
  | .cons e es => by
    have h1 := shape n e
    have h2 := shapeArgs (trans n e).2.2 es
    refine ⟨?_, ?_, ?_, ?_⟩
    · simp only [transArgs]; exact Nat.le_trans h1.le h2.le
    · simp only [transArgs, List.map_cons, TExpr.LtAll]
      exact ⟨h1.lt.mono h2.le, h2.lt⟩
    · simp only [Exprs.reads, Bool.or_eq_false_iff, transArgs, List.map_cons, TExpr.PureAll]
      rintro ⟨ha, hb⟩
      exact ⟨h1.pure ha, h2.pure hb⟩
    · simp only [Exprs.calls, Bool.or_eq_false_iff, transArgs]
      rintro ⟨ha, hb⟩ p hp
      rcases List.mem_cons.1 hp with rfl | hp
      · exact h1.noStmts ha
      · exact h2.noStmts hb p hp

theorem shapeLinks (n : Nat) : ∀ ls : Links V, ShapeLinks n ls
  | .nil => ⟨by simp [transLinks], by simp [transLinks, TExpr.LtAll], by simp [transLinks, TExpr.PureAll],
      by simp [transLinks]⟩
  | .cons op e es => by
    have h1 := shape n e
    have h2 := shapeLinks (trans n e).2.2 es
    refine ⟨?_, ?_, ?_, ?_⟩
    · simp only [transLinks]; exact Nat.le_trans h1.le h2.le
    · simp only [transLinks, List.map_cons, TExpr.LtAll]
      exact ⟨h1.lt.mono h2.le, h2.lt⟩
    · simp only [Links.reads, Bool.or_eq_false_iff, transLinks, List.map_cons, TExpr.PureAll]
      rintro ⟨ha, hb⟩
      exact ⟨h1.pure ha, h2.pure hb⟩
    · simp only [Links.calls, Bool.or_eq_false_iff, transLinks]
      rintro ⟨ha, hb⟩ p hp
      rcases List.mem_cons.1 hp with rfl | hp
      · exact h1.noStmts ha
      · exact h2.noStmts hb p hp
end


/-! ### Correctness -/

section
variable (L : Lang)

theorem pureAll_append (a b : List (TExpr V)) : TExpr.PureAll (a ++ b) ↔ TExpr.PureAll a ∧ TExpr.PureAll b := by
  induction a with
  | nil => simp [TExpr.PureAll]
  | cons x a ih => simp [TExpr.PureAll, ih, and_assoc]

theorem ltAll_append (n : Nat) (a b : List (TExpr V)) :
    TExpr.LtAll n (a ++ b) ↔ TExpr.LtAll n a ∧ TExpr.LtAll n b := by
  induction a with
  | nil => simp [TExpr.LtAll]
  | cons x a ih => simp [TExpr.LtAll, ih, and_assoc]

theorem evalT_joinVal_snoc (env : Nat → L.Val) (h : L.Heap) (t : Nat → L.Val) (isAnd : Bool)
    (te : TExpr L.Val) : ∀ (pre : List (TExpr L.Val)) (x : TExpr L.Val),
    evalT L env h t (joinVal isAnd x (pre ++ [te])) =
      if L.truthy (evalT L env h t (joinVal isAnd x pre)) = isAnd then evalT L env h t te
      else evalT L env h t (joinVal isAnd x pre)
  | [], x => by
    cases isAnd <;>
      cases hx : L.truthy (evalT L env h t x) <;> simp [joinVal, evalT, L.truthy_ofBool, hx]
  | y :: ys, x => by
    have ih := evalT_joinVal_snoc env h t isAnd te ys y
    cases isAnd <;>
      cases hx : L.truthy (evalT L env h t x) <;> simp [joinVal, evalT, L.truthy_ofBool, hx, ih]

theorem truthy_joinVal (env : Nat → L.Val) (h : L.Heap) (t : Nat → L.Val) (isAnd : Bool) :
    ∀ (xs : List (TExpr L.Val)) (x : TExpr L.Val),
    evalT L env h t (joinBool isAnd x xs) = L.ofBool (L.truthy (evalT L env h t (joinVal isAnd x xs)))
  | [], x => by simp [joinBool, joinE, joinVal, evalT]
  | y :: ys, x => by
    have ih := truthy_joinVal env h t isAnd ys y
    cases isAnd
    · simp only [joinBool, joinE, List.map_cons, joinVal, evalT, L.truthy_ofBool] at ih ⊢
      simp only [Bool.false_eq_true, if_false] at ih ⊢
      simp only [evalT, ih, L.truthy_ofBool]
      cases hx : L.truthy (evalT L env h t x) <;> simp [hx]
    · simp only [joinBool, joinE, List.map_cons, joinVal, evalT, L.truthy_ofBool] at ih ⊢
      simp only [if_true] at ih ⊢
      simp only [evalT, ih, L.truthy_ofBool]
      cases hx : L.truthy (evalT L env h t x) <;> simp [hx]

theorem pyBool_ofBool (env : Nat → L.Val) (isAnd : Bool) : ∀ (es : Exprs L.Val) (v : L.Val) (h : L.Heap),
    (∃ b, v = L.ofBool b) → Exprs.BoolTyped L es → ∃ b, (pyBool L env isAnd v es h).1 = L.ofBool b
  | .nil, v, h, hv, _ => by simpa [pyBool] using hv
  | .cons e es, v, h, hv, ht => by
    simp only [Exprs.BoolTyped] at ht
    simp only [pyBool]
    split
    · exact pyBool_ofBool env isAnd es _ _ (ht.1 env h) ht.2
    · exact hv

/-- `joinCmp` is the conjunction of all links. -/
theorem evalT_joinCmp_false (env : Nat → L.Val) (h : L.Heap) (t : Nat → L.Val) :
    ∀ (ps : List (Nat × TExpr L.Val)) (acc l : TExpr L.Val),
    evalT L env h t acc = L.ofBool false → evalT L env h t (joinCmp acc l ps) = L.ofBool false
  | [], acc, l, ha => by simpa [joinCmp] using ha
  | (op, r) :: ps, acc, l, ha => by
    simp only [joinCmp]
    refine evalT_joinCmp_false env h t ps _ _ ?_
    simp [evalT, ha, L.truthy_ofBool]

/-- Translation of one expression is faithful. -/
structure Ok (env : Nat → L.Val) (n : Nat) (e : Expr L.Val) (h : L.Heap) (t : Nat → L.Val) : Prop where
  heap : (exec L env (trans n e).1 (h, t)).1 = (pyEval L env e h).2
  val : evalT L env (exec L env (trans n e).1 (h, t)).1 (exec L env (trans n e).1 (h, t)).2 (trans n e).2.1 =
    (pyEval L env e h).1
  frame : ∀ k < n, (exec L env (trans n e).1 (h, t)).2 k = t k

mutual
theorem trans_ok (env : Nat → L.Val) : ∀ (e : Expr L.Val) (n : Nat) (h : L.Heap) (t : Nat → L.Val),
    e.Ordered → Expr.WellTyped L e → Ok L env n e h t
  | .const v, n, h, t, _, _ => ⟨by simp [trans, exec, pyEval], by simp [trans, evalT, pyEval], by simp [trans, exec]⟩
  | .var v, n, h, t, _, _ => ⟨by simp [trans, exec, pyEval], by simp [trans, evalT, pyEval], by simp [trans, exec]⟩
  | .field e f, n, h, t, ho, hw => by
    simp only [Expr.Ordered, Expr.WellTyped] at ho hw
    have ih := trans_ok env e n h t ho hw
    refine ⟨?_, ?_, ?_⟩
    · simpa [trans, pyEval] using ih.heap
    · simp only [trans, pyEval, evalT]
      rw [ih.val, ih.heap]
    · simpa [trans] using ih.frame
  | .app f args, n, h, t, ho, hw => by
    simp only [Expr.Ordered, Expr.WellTyped] at ho hw
    have ih := transArgs_ok env args n h t ho hw
    refine ⟨?_, ?_, ?_⟩
    · simpa [trans, pyEval] using ih.1
    · simp only [trans, pyEval, evalT]
      rw [ih.2.1]
    · simpa [trans] using ih.2.2
  | .unop f e, n, h, t, ho, hw => by
    simp only [Expr.Ordered, Expr.WellTyped] at ho hw
    have ih := trans_ok env e n h t ho.1 hw
    have hn := (shape n e).noStmts ho.2
    have h1 := ih.heap
    have h2 := ih.val
    rw [hn] at h1 h2
    simp only [exec] at h1 h2
    refine ⟨?_, ?_, ?_⟩
    · simpa [trans, pyEval, exec] using h1
    · simp only [trans, pyEval, evalT, exec, evalTs]
      rw [h2]
    · simp [trans, exec]
  | .not e, n, h, t, ho, hw => by
    simp only [Expr.Ordered, Expr.WellTyped] at ho hw
    have ih := trans_ok env e n h t ho hw
    refine ⟨?_, ?_, ?_⟩
    · simpa [trans, pyEval] using ih.heap
    · simp only [trans, pyEval, evalT]
      rw [ih.val, L.truthy_ofBool]
    · simpa [trans] using ih.frame
  | .ife c a b, n, h, t, ho, hw => by
    simp only [Expr.Ordered, Expr.WellTyped] at ho hw
    obtain ⟨hoc, hoa, hob, hcr⟩ := ho
    have ihc := trans_ok env c n h t hoc hw.1
    have sc := shape n c
    have sa := shape (trans n c).2.2 a
    obtain ⟨h1, t1, e1⟩ : ∃ h1 t1, exec L env (trans n c).1 (h, t) = (h1, t1) := ⟨_, _, rfl⟩
    have hheap := ihc.heap
    have hval := ihc.val
    have hframe := ihc.frame
    rw [e1] at hheap hval hframe
    simp only at hheap hval hframe
    have iha := trans_ok env a (trans n c).2.2 h1 t1 hoa hw.2.1
    have ihb := trans_ok env b (trans (trans n c).2.2 a).2.2 h1 t1 hob hw.2.2
    have hexec : exec L env (trans n (.ife c a b)).1 (h, t) =
        if L.truthy (pyEval L env c h).1 then exec L env (trans (trans n c).2.2 a).1 (h1, t1)
        else exec L env (trans (trans (trans n c).2.2 a).2.2 b).1 (h1, t1) := by
      simp only [trans, exec_append, e1]
      split
      · next hemp =>
        simp only [Bool.and_eq_true, List.isEmpty_iff] at hemp
        rw [hemp.1, hemp.2]
        simp [exec]
      · simp only [exec, execS, evalT, hval, L.truthy_ofBool]
    have hpy : pyEval L env (.ife c a b) h =
        if L.truthy (pyEval L env c h).1 then pyEval L env a h1 else pyEval L env b h1 := by
      simp only [pyEval, hheap]
    -- the condition still has its value after the branch statements
    have hstable : ∀ s : L.Heap × (Nat → L.Val),
        (s = exec L env (trans (trans n c).2.2 a).1 (h1, t1) ∨
          s = exec L env (trans (trans (trans n c).2.2 a).2.2 b).1 (h1, t1)) →
        evalT L env s.1 s.2 (trans n c).2.1 = (pyEval L env c h).1 := by
      intro s hs
      rw [← hval]
      refine evalT_congr L env (n := (trans n c).2.2) ?_ _ sc.lt ?_
      · intro k hk
        rcases hs with rfl | rfl
        · exact iha.frame k hk
        · exact ihb.frame k (Nat.lt_of_lt_of_le hk sa.le)
      · cases hr : c.reads
        · exact Or.inr (sc.pure hr)
        · left
          have := hcr hr
          rcases hs with rfl | rfl
          · rw [sa.noStmts this.1]; simp [exec]
          · rw [(shape _ b).noStmts this.2]; simp [exec]
    by_cases hb : L.truthy (pyEval L env c h).1
    · rw [if_pos hb] at hexec hpy
      refine ⟨?_, ?_, ?_⟩
      · rw [hexec, hpy]; exact iha.heap
      · rw [hexec, hpy]
        simp only [trans, evalT, L.truthy_ofBool]
        rw [hstable _ (Or.inl rfl), if_pos hb]
        exact iha.val
      · intro k hk
        rw [hexec, iha.frame k (Nat.lt_of_lt_of_le hk sc.le), hframe k hk]
    · rw [if_neg hb] at hexec hpy
      refine ⟨?_, ?_, ?_⟩
      · rw [hexec, hpy]; exact ihb.heap
      · rw [hexec, hpy]
        simp only [trans, evalT, L.truthy_ofBool]
        rw [hstable _ (Or.inr rfl), if_neg hb]
        exact ihb.val
      · intro k hk
        rw [hexec, ihb.frame k (Nat.lt_of_lt_of_le hk (Nat.le_trans sc.le sa.le)), hframe k hk]
  | .boolop isAnd allBool first rest, n, h, t, ho, hw => by
    simp only [Expr.Ordered, Expr.WellTyped] at ho hw
    obtain ⟨ho1, ho2, hcr⟩ := ho
    have ih := trans_ok env first n h t ho1 hw.1
    have sh := shape n first
    obtain ⟨h1, t1, e1⟩ : ∃ h1 t1, exec L env (trans n first).1 (h, t) = (h1, t1) := ⟨_, _, rfl⟩
    have hheap := ih.heap
    have hval := ih.val
    have hframe := ih.frame
    rw [e1] at hheap hval hframe
    simp only at hheap hval hframe
    have ih2 := boolRest_ok env isAnd (trans n first).2.1 rest (trans n first).2.2 [] h1 t1
      (pyEval L env first h).1 ho2 hw.2.1 sh.lt (by simp [TExpr.LtAll])
      (by
        intro hc
        refine ⟨sh.pure ?_, by simp [TExpr.PureAll]⟩
        cases hr : first.reads
        · rfl
        · rw [hcr hr] at hc; cases hc)
      (by simpa [joinVal] using hval)
    simp only [List.nil_append] at ih2
    refine ⟨?_, ?_, ?_⟩
    · simp only [trans, exec_append, e1, pyEval]
      rw [ih2.1, hheap]
    · simp only [trans, exec_append, e1, pyEval]
      have hv := ih2.2.1
      rw [hheap] at hv
      by_cases hb : allBool
      · rw [if_pos hb, truthy_joinVal, ih2.2.1, hheap]
        obtain ⟨bf, br⟩ := hw.2.2 hb
        obtain ⟨b, hb'⟩ := pyBool_ofBool L env isAnd rest _ (pyEval L env first h).2 (bf env h) br
        rw [hb', L.truthy_ofBool]
      · rw [if_neg hb]
        rw [ih2.2.1, hheap]
    · intro k hk
      simp only [trans, exec_append, e1]
      rw [ih2.2.2 k (Nat.lt_of_lt_of_le hk sh.le), hframe k hk]
  | .cmp first op second rest, n, h, t, ho, hw => by
    simp only [Expr.Ordered, Expr.WellTyped] at ho hw
    obtain ⟨ho1, ho2, ho3, hcr, hnc⟩ := ho
    have ih1 := trans_ok env first n h t ho1 hw.1
    have s1 := shape n first
    have s2 := shape (trans n first).2.2 second
    obtain ⟨h1, t1, e1⟩ : ∃ h1 t1, exec L env (trans n first).1 (h, t) = (h1, t1) := ⟨_, _, rfl⟩
    have hheap := ih1.heap
    have hval := ih1.val
    have hframe := ih1.frame
    rw [e1] at hheap hval hframe
    simp only at hheap hval hframe
    have ih2 := trans_ok env second (trans n first).2.2 h1 t1 ho2 hw.2.1
    obtain ⟨h2, t2, e2⟩ : ∃ h2 t2, exec L env (trans (trans n first).2.2 second).1 (h1, t1) = (h2, t2) := ⟨_, _, rfl⟩
    have hheap2 := ih2.heap
    have hval2 := ih2.val
    have hframe2 := ih2.frame
    rw [e2] at hheap2 hval2 hframe2
    simp only at hheap2 hval2 hframe2
    have hrest : (transLinks (trans (trans n first).2.2 second).2.2 rest).1.flatMap (·.2.1) = [] := by
      rw [List.flatMap_eq_nil_iff]
      exact (shapeLinks _ rest).noStmts hnc
    have hexec : exec L env (trans n (.cmp first op second rest)).1 (h, t) = (h2, t2) := by
      simp only [trans, exec_append, e1, e2, hrest, exec]
    have hfirst : evalT L env h2 t2 (trans n first).2.1 = (pyEval L env first h).1 := by
      rw [← hval]
      refine evalT_congr L env (n := (trans n first).2.2) hframe2 _ s1.lt ?_
      cases hr : first.reads
      · exact Or.inr (s1.pure hr)
      · left
        have := s2.noStmts (hcr hr)
        rw [this] at e2
        simp only [exec, Prod.mk.injEq] at e2
        exact e2.1.symm
    have ih3 := cmpRest_ok env rest (trans (trans n first).2.2 second).2.2 h2 t2 ho3 hw.2.2 hnc
      (.cmp op (trans n first).2.1 (trans (trans n first).2.2 second).2.1)
      (trans (trans n first).2.2 second).2.1
      (L.cmp op (pyEval L env first h).1 (pyEval L env second h1).1)
      (pyEval L env second h1).1
      (by simp only [evalT, hfirst, hval2]) hval2
    refine ⟨?_, ?_, ?_⟩
    · rw [hexec]
      simp only [pyEval, ← hheap, ← hheap2]
      exact ih3.1.symm
    · rw [hexec]
      simp only [pyEval, ← hheap, ← hheap2, trans]
      exact ih3.2
    · intro k hk
      rw [hexec]
      rw [← hframe k hk]
      exact hframe2 k (Nat.lt_of_lt_of_le hk s1.le)
  | .call m args, n, h, t, ho, hw => by
    simp only [Expr.Ordered, Expr.WellTyped] at ho hw
    have ih := transArgs_ok env args n h t ho hw
    have sh := shapeArgs n args
    obtain ⟨h1, t1, e1⟩ : ∃ h1 t1, exec L env ((transArgs n args).1.flatMap (·.1)) (h, t) = (h1, t1) := ⟨_, _, rfl⟩
    rw [e1] at ih
    simp only at ih
    refine ⟨?_, ?_, ?_⟩
    · simp only [trans, exec_append, e1, exec, execS, pyEval]
      rw [ih.2.1, ih.1]
    · simp only [trans, exec_append, e1, exec, execS, pyEval, evalT]
      rw [ih.2.1, ih.1]
      simp
    · intro k hk
      simp only [trans, exec_append, e1, exec, execS]
      rw [if_neg (by have := sh.le; omega)]
      exact ih.2.2 k hk

theorem transArgs_ok (env : Nat → L.Val) : ∀ (es : Exprs L.Val) (n : Nat) (h : L.Heap) (t : Nat → L.Val),
    es.Ordered → Exprs.WellTyped L es →
    (exec L env ((transArgs n es).1.flatMap (·.1)) (h, t)).1 = (pyArgs L env es h).2 ∧
    evalTs L env (exec L env ((transArgs n es).1.flatMap (·.1)) (h, t)).1
      (exec L env ((transArgs n es).1.flatMap (·.1)) (h, t)).2 ((transArgs n es).1.map (·.2)) =
      (pyArgs L env es h).1 ∧
    ∀ k < n, (exec L env ((transArgs n es).1.flatMap (·.1)) (h, t)).2 k = t k
  | .nil, n, h, t, _, _ => by simp [transArgs, exec, pyArgs, evalTs]
  | .cons e es, n, h, t, ho, hw => by
    simp only [Exprs.Ordered, Exprs.WellTyped] at ho hw
    have ih := trans_ok env e n h t ho.1 hw.1
    have sh := shape n e
    obtain ⟨h1, t1, e1⟩ : ∃ h1 t1, exec L env (trans n e).1 (h, t) = (h1, t1) := ⟨_, _, rfl⟩
    have hheap := ih.heap
    have hval := ih.val
    have hframe := ih.frame
    rw [e1] at hheap hval hframe
    simp only at hheap hval hframe
    have ih2 := transArgs_ok env es (trans n e).2.2 h1 t1 ho.2.1 hw.2
    have sh2 := shapeArgs (trans n e).2.2 es
    simp only [transArgs, List.flatMap_cons, exec_append, e1, pyArgs, List.map_cons, evalTs, ← hheap]
    refine ⟨ih2.1, ?_, ?_⟩
    · rw [ih2.2.1]
      congr 1
      rw [← hval]
      refine evalT_congr L env (n := (trans n e).2.2) ih2.2.2 _ sh.lt ?_
      cases hr : e.reads
      · exact Or.inr (sh.pure hr)
      · left
        have : (transArgs (trans n e).2.2 es).1.flatMap (·.1) = [] := by
          rw [List.flatMap_eq_nil_iff]
          exact sh2.noStmts (ho.2.2 hr)
        rw [this]; simp [exec]
    · intro k hk
      rw [ih2.2.2 k (Nat.lt_of_lt_of_le hk sh.le), hframe k hk]

theorem boolRest_ok (env : Nat → L.Val) (isAnd : Bool) (x : TExpr L.Val) :
    ∀ (es : Exprs L.Val) (n : Nat) (pre : List (TExpr L.Val)) (h : L.Heap) (t : Nat → L.Val) (v : L.Val),
    es.Ordered → Exprs.WellTyped L es → x.Lt n → TExpr.LtAll n pre →
    (es.calls = true → x.Pure ∧ TExpr.PureAll pre) →
    evalT L env h t (joinVal isAnd x pre) = v →
    (exec L env (guardStmts isAnd x pre (transArgs n es).1) (h, t)).1 = (pyBool L env isAnd v es h).2 ∧
    evalT L env (exec L env (guardStmts isAnd x pre (transArgs n es).1) (h, t)).1
      (exec L env (guardStmts isAnd x pre (transArgs n es).1) (h, t)).2
      (joinVal isAnd x (pre ++ (transArgs n es).1.map (·.2))) = (pyBool L env isAnd v es h).1 ∧
    ∀ k < n, (exec L env (guardStmts isAnd x pre (transArgs n es).1) (h, t)).2 k = t k
  | .nil, n, pre, h, t, v, _, _, _, _, _, hv => by
    simp [transArgs, guardStmts, exec, pyBool, hv]
  | .cons e es, n, pre, h, t, v, ho, hw, hx, hpre, hpure, hv => by
    simp only [Exprs.Ordered, Exprs.WellTyped] at ho hw
    have sh := shape n e
    have hguard : ∀ b : Bool, L.truthy v = b →
        L.truthy (evalT L env h t (if isAnd = true then joinBool isAnd x pre
          else .not (joinBool isAnd x pre))) = (b == isAnd) := by
      intro b hb
      cases isAnd
      · simp only [Bool.false_eq_true, if_false, evalT, truthy_joinVal, hv, hb, L.truthy_ofBool]
        cases b <;> rfl
      · simp only [if_true, truthy_joinVal, hv, hb, L.truthy_ofBool]
        cases b <;> rfl
    by_cases hlive : L.truthy v = isAnd
    · -- the next operand is evaluated
      have ih := trans_ok env e n h t ho.1 hw.1
      obtain ⟨h1, t1, e1⟩ : ∃ h1 t1, exec L env (trans n e).1 (h, t) = (h1, t1) := ⟨_, _, rfl⟩
      have hheap := ih.heap
      have hval := ih.val
      have hframe := ih.frame
      rw [e1] at hheap hval hframe
      simp only at hheap hval hframe
      have hstep : exec L env (if (trans n e).1.isEmpty = true then []
          else [.ite (if isAnd = true then joinBool isAnd x pre else .not (joinBool isAnd x pre)) (trans n e).1 []])
          (h, t) = (h1, t1) := by
        split
        · next hemp =>
          rw [List.isEmpty_iff] at hemp
          rw [hemp] at e1
          simpa [exec] using e1
        · simp only [exec, execS]
          rw [hguard isAnd hlive]
          simp [e1]
      have hold : evalT L env h1 t1 (joinVal isAnd x pre) = v := by
        rw [← hv]
        refine evalT_congr L env (n := n) hframe _ (joinVal_lt _ _ _ hx hpre) ?_
        cases hc : e.calls
        · left
          rw [sh.noStmts hc] at e1
          simp only [exec, Prod.mk.injEq] at e1
          exact e1.1.symm
        · right
          have := hpure (by simp [Exprs.calls, hc])
          exact joinVal_pure _ _ _ this.1 this.2
      have ih2 := boolRest_ok env isAnd x es (trans n e).2.2 (pre ++ [(trans n e).2.1]) h1 t1
        (pyEval L env e h).1 ho.2.1 hw.2 (hx.mono sh.le)
        (by rw [ltAll_append]; exact ⟨hpre.mono sh.le, by simpa [TExpr.LtAll] using sh.lt⟩)
        (by
          intro hc
          have := hpure (by simp [Exprs.calls, hc])
          refine ⟨this.1, ?_⟩
          rw [pureAll_append]
          refine ⟨this.2, ?_⟩
          simp only [TExpr.PureAll, and_true]
          refine sh.pure ?_
          cases hr : e.reads
          · rfl
          · rw [ho.2.2 hr] at hc; cases hc)
        (by rw [evalT_joinVal_snoc, hold, if_pos hlive, hval])
      simp only [transArgs, guardStmts, exec_append, hstep, pyBool, List.map_cons]
      rw [if_pos hlive]
      simp only [List.append_assoc, List.singleton_append] at ih2
      rw [← hheap]
      refine ⟨ih2.1, ih2.2.1, ?_⟩
      intro k hk
      rw [ih2.2.2 k (Nat.lt_of_lt_of_le hk sh.le), hframe k hk]
    · -- decided: nothing further is executed
      have hstep : exec L env (if (trans n e).1.isEmpty = true then []
          else [.ite (if isAnd = true then joinBool isAnd x pre else .not (joinBool isAnd x pre)) (trans n e).1 []])
          (h, t) = (h, t) := by
        split
        · simp [exec]
        · simp only [exec, execS]
          rw [hguard _ rfl]
          have : (L.truthy v == isAnd) = false := by simpa using hlive
          rw [this]
          simp
      have ih2 := boolRest_ok env isAnd x es (trans n e).2.2 (pre ++ [(trans n e).2.1]) h t v
        ho.2.1 hw.2 (hx.mono sh.le)
        (by rw [ltAll_append]; exact ⟨hpre.mono sh.le, by simpa [TExpr.LtAll] using sh.lt⟩)
        (by
          intro hc
          have := hpure (by simp [Exprs.calls, hc])
          refine ⟨this.1, ?_⟩
          rw [pureAll_append]
          refine ⟨this.2, ?_⟩
          simp only [TExpr.PureAll, and_true]
          refine sh.pure ?_
          cases hr : e.reads
          · rfl
          · rw [ho.2.2 hr] at hc; cases hc)
        (by rw [evalT_joinVal_snoc, hv, if_neg hlive])
      have hpb : pyBool L env isAnd v es h = (v, h) := by
        cases es with
        | nil => simp [pyBool]
        | cons e' es' => simp [pyBool, hlive]
      simp only [transArgs, guardStmts, exec_append, hstep, pyBool, List.map_cons]
      rw [if_neg hlive]
      rw [hpb] at ih2
      simp only [List.append_assoc, List.singleton_append] at ih2
      refine ⟨ih2.1, ih2.2.1, ?_⟩
      intro k hk
      exact ih2.2.2 k (Nat.lt_of_lt_of_le hk sh.le)

theorem cmpRest_ok (env : Nat → L.Val) : ∀ (ls : Links L.Val) (n : Nat) (h : L.Heap) (t : Nat → L.Val),
    ls.Ordered → Links.WellTyped L ls → ls.calls = false →
    ∀ (acc l : TExpr L.Val) (b : Bool) (v : L.Val), evalT L env h t acc = L.ofBool b →
    evalT L env h t l = v →
    (pyCmp L env v b ls h).2 = h ∧
    evalT L env h t (joinCmp acc l ((transLinks n ls).1.map fun p => (p.1, p.2.2))) =
      (pyCmp L env v b ls h).1
  | .nil, n, h, t, _, _, _, acc, l, b, v, ha, hl => by
    simp [transLinks, joinCmp, pyCmp, ha]
  | .cons op e ls, n, h, t, ho, hw, hc, acc, l, b, v, ha, hl => by
    simp only [Links.Ordered, Links.WellTyped, Links.calls, Bool.or_eq_false_iff] at ho hw hc
    have ih := trans_ok env e n h t ho.1 hw.1
    have hn := (shape n e).noStmts hc.1
    have hheap := ih.heap
    have hval := ih.val
    rw [hn] at hheap hval
    simp only [exec] at hheap hval
    cases b with
    | false =>
      simp only [pyCmp, transLinks, List.map_cons, joinCmp, Bool.false_eq_true, if_false, true_and]
      refine evalT_joinCmp_false L env h t _ _ _ ?_
      simp [evalT, ha, L.truthy_ofBool]
    | true =>
      simp only [pyCmp, transLinks, List.map_cons, joinCmp, if_true, ← hheap]
      refine cmpRest_ok env ls (trans n e).2.2 h t ho.2 hw.2 hc.2 _ _ _ _ ?_ hval
      simp [evalT, ha, hl, hval, L.truthy_ofBool]
end

end

end Nagini.Hoist
