import Verif.Lemmas.Hoist

/-!
C01-C04: evaluation order of operands, short-circuiting, conditional
expressions and chained comparisons.
-/
namespace Nagini.Hoist

/-- What an observer sees of the translated expression `e`: run the emitted
statements, then evaluate the emitted expression; the pair is (value, heap). -/
def runTranslated (L : Lang) (env : Nat → L.Val) (n : Nat) (e : Expr L.Val) (h : L.Heap)
    (t : Nat → L.Val) : L.Val × L.Heap :=
  let s := exec L env (trans n e).1 (h, t)
  (evalT L env s.1 s.2 (trans n e).2.1, s.1)

/-- `e` is translated faithfully: in every language (callee behaviour), state and
store the translated code has Python's value and heap. -/
def Faithful (L : Lang) (e : Expr L.Val) : Prop :=
  ∀ env n h t, runTranslated L env n e h t = pyEval L env e h

theorem faithful_of_ordered (L : Lang) (e : Expr L.Val) (ho : e.Ordered)
    (hw : Expr.WellTyped L e) : Faithful L e := by
  intro env n h t
  have := trans_ok L env e n h t ho hw
  exact Prod.ext this.val this.heap

/-- A concrete language for witnesses: one heap cell holding a number; field 0
reads it; operation 0 is addition, operation 1 negation; comparison 0 is `<`;
method 0 sets the cell to 10 and returns 5, method `m ≥ 1` increments the cell
and returns 1. -/
def demo : Lang where
  Val := Int
  Heap := Int
  truthy v := v != 0
  ofBool b := if b then 1 else 0
  truthy_ofBool b := by cases b <;> rfl
  read h _ _ := h
  app f vs := if f = 0 then vs.sum else - vs.sum
  cmp _ a b := a < b
  call m _ h := if m = 0 then (5, 10) else (1, h + 1)

instance : DecidableEq demo.Val := inferInstanceAs (DecidableEq Int)
instance : DecidableEq demo.Heap := inferInstanceAs (DecidableEq Int)

/-- integer literal of the demo language -/
def lit (i : Int) : Expr demo.Val := .const (show Int from i)

/-- initial state of the demo language: all variables 0, cell 3 -/
def demoRun (e : Expr demo.Val) : Int × Int :=
  runTranslated demo (fun _ => (0 : Int)) 0 e (3 : Int) (fun _ => (0 : Int))

def demoPy (e : Expr demo.Val) : Int × Int := pyEval demo (fun _ => (0 : Int)) e (3 : Int)

/-! ### C01 -/

/-- **C01, full claim.** -/
def EvaluationOrderPreserved : Prop := ∀ (L : Lang) (e : Expr L.Val), Expr.WellTyped L e → Faithful L e

/-- C01 is violated by `x.f + x.m()`: Python reads `x.f` before the call (3 + 5),
the translation after it (10 + 5). -/
theorem C01_evaluation_order_fails : ¬ EvaluationOrderPreserved := by
  intro h
  have := h demo (.app 0 (.cons (.field (.var 0) 0) (.cons (.call 0 .nil) .nil)))
    (by simp [Expr.WellTyped, Exprs.WellTyped]) (fun _ => (0 : Int)) 0 (3 : Int) (fun _ => (0 : Int))
  exact absurd this (by decide)

/-- The two values of the C01 witness. -/
theorem C01_witness_values :
    demoPy (.app 0 (.cons (.field (.var 0) 0) (.cons (.call 0 .nil) .nil))) = (8, 10) ∧
    demoRun (.app 0 (.cons (.field (.var 0) 0) (.cons (.call 0 .nil) .nil))) = (15, 10) := by
  decide

/-- C01 is also violated by `-x.m()`: the statements of the operand of a unary
operator are dropped, so the call (its effect, and the check of its
precondition) disappears from the program. -/
theorem C01_unary_operand_dropped :
    demoPy (.unop 1 (.call 0 .nil)) = (-5, 10) ∧ demoRun (.unop 1 (.call 0 .nil)) = (0, 3) ∧
    (trans 0 (.unop 1 (.call 0 .nil) : Expr demo.Val)).1.length = 0 := by
  decide

/-- **C01, proved part.** For every language, every expression in which no
heap-reading operand is followed by a calling sibling (`Ordered`), and every
state: value and heap are Python's.  Missing: the excluded shapes, for which the
claim is false. -/
theorem C01_evaluation_order_partial (L : Lang) (e : Expr L.Val) (ho : e.Ordered)
    (hw : Expr.WellTyped L e) : Faithful L e :=
  faithful_of_ordered L e ho hw

/-- Non-vacuity: `m1(m0() + x.f) + m1()` is `Ordered` and really changes the heap. -/
example :
    let e : Expr demo.Val := .app 0 (.cons (.call 1 (.cons (.app 0 (.cons (.call 0 .nil)
      (.cons (.field (.var 0) 0) .nil))) .nil)) (.cons (.call 1 .nil) .nil))
    e.Ordered ∧ Expr.WellTyped demo e ∧ demoPy e = (2, 12) := by
  refine ⟨?_, ?_, by decide⟩ <;>
    simp [Expr.Ordered, Exprs.Ordered, Expr.WellTyped, Exprs.WellTyped, Expr.reads, Exprs.reads, Expr.calls, Exprs.calls]

/-! ### C02 -/

/-- **C02, full claim.** -/
def ShortCircuitPreserved : Prop :=
  ∀ (L : Lang) (isAnd allBool : Bool) (first : Expr L.Val) (rest : Exprs L.Val),
    (Faithful L first) → (∀ e, Exprs.mem e rest → Faithful L e) →
    Expr.WellTyped L (.boolop isAnd allBool first rest) → Faithful L (.boolop isAnd allBool first rest)
where
  /-- membership in an operand list -/
  Exprs.mem {V : Type} (e : Expr V) : Exprs V → Prop
    | .nil => False
    | .cons e' es => e = e' ∨ Exprs.mem e es

/-- C02 is violated by `x.f and (x.m() and 0)`-like expressions: here
`(x.f < 4) and x.m()` where the call sets `x.f` to 10.  Python's value is the
call's result 5; the translation re-reads the condition after the call and
yields false. -/
theorem C02_short_circuit_fails : ¬ ShortCircuitPreserved := by
  intro h
  have hf : Faithful demo (.cmp (.field (.var 0) 0) 0 (lit 4) .nil) :=
    faithful_of_ordered _ _ (by simp [Expr.Ordered, Links.Ordered, lit, Expr.calls, Links.calls])
      (by simp [Expr.WellTyped, Links.WellTyped, lit])
  have hc : Faithful demo (.call 0 .nil) :=
    faithful_of_ordered _ _ (by simp [Expr.Ordered, Exprs.Ordered]) (by simp [Expr.WellTyped, Exprs.WellTyped])
  have := h demo true false (.cmp (.field (.var 0) 0) 0 (lit 4) .nil) (.cons (.call 0 .nil) .nil) hf
    (by
      intro e he
      simp only [ShortCircuitPreserved.Exprs.mem, or_false] at he
      subst he; exact hc)
    (by simp [Expr.WellTyped, Exprs.WellTyped, Links.WellTyped, lit])
    (fun _ => (0 : Int)) 0 (3 : Int) (fun _ => (0 : Int))
  exact absurd this (by decide)

/-- **C02, proved part.** `and`/`or` over any number of operands, for every
language and state, if no operand whose value reads the heap is followed by an
operand that calls: exactly Python's effects happen, and the value is Python's. -/
theorem C02_short_circuit_partial (L : Lang) (isAnd allBool : Bool) (first : Expr L.Val)
    (rest : Exprs L.Val) (h1 : first.Ordered) (h2 : rest.Ordered)
    (hr : first.reads = true → rest.calls = false)
    (hw : Expr.WellTyped L (.boolop isAnd allBool first rest)) :
    Faithful L (.boolop isAnd allBool first rest) :=
  faithful_of_ordered L _ (by simp only [Expr.Ordered]; exact ⟨h1, h2, hr⟩) hw

/-- Non-vacuity: `m0() and m1() and x.f` runs both calls; `0 or m0()` runs it,
`0 and m0()` does not. -/
example : demoRun (.boolop true false (.call 0 .nil) (.cons (.call 1 .nil) (.cons (.field (.var 0) 0) .nil))) = (11, 11) ∧
    demoRun (.boolop false false (lit 0) (.cons (.call 0 .nil) .nil)) = (5, 10) ∧
    demoRun (.boolop true false (lit 0) (.cons (.call 0 .nil) .nil)) = (0, 3) := by decide

example : Faithful demo (.boolop true false (.call 0 .nil) (.cons (.call 1 .nil) (.cons (.field (.var 0) 0) .nil))) :=
  C02_short_circuit_partial demo true false _ _ (by simp [Expr.Ordered, Exprs.Ordered])
    (by simp [Expr.Ordered, Exprs.Ordered, Expr.reads, Exprs.calls]) (by simp [Expr.reads])
    (by simp [Expr.WellTyped, Exprs.WellTyped])

/-- Side-effect free Boolean operations are translated faithfully without any
guard: the value equals Python's last-evaluated operand. -/
theorem C02_pure_operands (L : Lang) (isAnd allBool : Bool) (first : Expr L.Val)
    (rest : Exprs L.Val) (h1 : first.Ordered) (h2 : rest.Ordered)
    (hc : rest.calls = false)
    (hw : Expr.WellTyped L (.boolop isAnd allBool first rest)) :
    Faithful L (.boolop isAnd allBool first rest) :=
  C02_short_circuit_partial L isAnd allBool first rest h1 h2 (fun _ => hc) hw

example : Faithful demo (.boolop false true (.cmp (.field (.var 0) 0) 0 (lit 4) .nil)
    (.cons (.not (.field (.var 0) 0)) .nil)) :=
  C02_pure_operands demo false true _ _
    (by simp [Expr.Ordered, Links.Ordered, lit, Links.calls, Expr.calls])
    (by simp [Expr.Ordered, Exprs.Ordered, Exprs.calls]) (by decide)
    (by
      simp only [Expr.WellTyped, Exprs.WellTyped, Links.WellTyped, lit, true_and, forall_const,
        Exprs.BoolTyped, and_true]
      refine ⟨fun env h => ?_, fun env h => ?_⟩
      · exact ⟨_, by simp [pyEval, pyCmp]; rfl⟩
      · exact ⟨_, by simp [pyEval]; rfl⟩)

/-! ### C03 -/

/-- **C03, full claim.** -/
def ConditionalPreserved : Prop :=
  ∀ (L : Lang) (c a b : Expr L.Val), Faithful L c → Faithful L a → Faithful L b → Faithful L (.ife c a b)

/-- C03 is violated by `x.m() if x.f < 4 else 7`: the condition is read again
after the call in the selected branch, so the value of the other branch results. -/
theorem C03_conditional_fails : ¬ ConditionalPreserved := by
  intro h
  have hf : Faithful demo (.cmp (.field (.var 0) 0) 0 (lit 4) .nil) :=
    faithful_of_ordered _ _ (by simp [Expr.Ordered, Links.Ordered, lit, Expr.calls, Links.calls])
      (by simp [Expr.WellTyped, Links.WellTyped, lit])
  have hc : Faithful demo (.call 0 .nil) :=
    faithful_of_ordered _ _ (by simp [Expr.Ordered, Exprs.Ordered]) (by simp [Expr.WellTyped, Exprs.WellTyped])
  have hl : Faithful demo (lit 7) :=
    faithful_of_ordered _ _ (by simp [Expr.Ordered, lit]) (by simp [Expr.WellTyped, lit])
  have := h demo (.cmp (.field (.var 0) 0) 0 (lit 4) .nil) (.call 0 .nil) (lit 7) hf hc hl
    (fun _ => (0 : Int)) 0 (3 : Int) (fun _ => (0 : Int))
  exact absurd this (by decide)

/-- **C03, proved part.** The selected branch alone is run and its value returned,
unless the condition reads the heap and a branch calls. -/
theorem C03_conditional_partial (L : Lang) (c a b : Expr L.Val)
    (hc : c.Ordered) (ha : a.Ordered) (hb : b.Ordered)
    (hr : c.reads = true → a.calls = false ∧ b.calls = false)
    (hw : Expr.WellTyped L (.ife c a b)) : Faithful L (.ife c a b) :=
  faithful_of_ordered L _ (by simp only [Expr.Ordered]; exact ⟨hc, ha, hb, hr⟩) hw

example : Faithful demo (.ife (.call 1 .nil) (.call 0 .nil) (.field (.var 0) 0)) ∧
    demoRun (.ife (.call 1 .nil) (.call 0 .nil) (.field (.var 0) 0)) = (5, 10) :=
  ⟨C03_conditional_partial demo _ _ _ (by simp [Expr.Ordered, Exprs.Ordered])
    (by simp [Expr.Ordered, Exprs.Ordered]) (by simp [Expr.Ordered])
    (by simp [Expr.reads]) (by simp [Expr.WellTyped, Exprs.WellTyped]), by decide⟩

/-! ### C04 -/

/-- **C04, full claim.** -/
def ChainShortCircuits : Prop :=
  ∀ (L : Lang) (e1 e2 e3 : Expr L.Val) (op1 op2 : Nat), Faithful L e1 → Faithful L e2 → Faithful L e3 →
    (e1.reads = false ∧ e2.reads = false) →
    Faithful L (.cmp e1 op1 e2 (.cons op2 e3 .nil))

/-- C04 is violated by `5 < 4 < x.m()`: Python does not call `m`, the translation
does (heap 10 instead of 3). -/
theorem C04_chain_short_circuit_fails : ¬ ChainShortCircuits := by
  intro h
  have hc : Faithful demo (.call 0 .nil) :=
    faithful_of_ordered _ _ (by simp [Expr.Ordered, Exprs.Ordered]) (by simp [Expr.WellTyped, Exprs.WellTyped])
  have hl : ∀ i, Faithful demo (lit i) := fun i =>
    faithful_of_ordered _ _ (by simp [Expr.Ordered, lit]) (by simp [Expr.WellTyped, lit])
  have := h demo (lit 5) (lit 4) (.call 0 .nil) 0 0 (hl 5) (hl 4) hc (by decide)
    (fun _ => (0 : Int)) 0 (3 : Int) (fun _ => (0 : Int))
  exact absurd this (by decide)

/-- **C04, proved part.** A chain of any length whose operands from the third on
do not call: the value is the conjunction of its links as computed by Python, the
first two operands are evaluated once, in order. -/
theorem C04_chain_partial (L : Lang) (first second : Expr L.Val) (op : Nat) (rest : Links L.Val)
    (h1 : first.Ordered) (h2 : second.Ordered) (h3 : rest.Ordered)
    (hr : first.reads = true → second.calls = false) (hc : rest.calls = false)
    (hw : Expr.WellTyped L (.cmp first op second rest)) : Faithful L (.cmp first op second rest) :=
  faithful_of_ordered L _ (by simp only [Expr.Ordered]; exact ⟨h1, h2, h3, hr, hc⟩) hw

example : Faithful demo (.cmp (lit 0) 0 (.call 1 .nil) (.cons 0 (.field (.var 0) 0) (.cons 0 (lit 3) .nil))) ∧
    demoRun (.cmp (lit 0) 0 (.call 1 .nil) (.cons 0 (.field (.var 0) 0) (.cons 0 (lit 3) .nil))) = (0, 4) ∧
    demoRun (.cmp (lit 0) 0 (.call 1 .nil) (.cons 0 (.field (.var 0) 0) (.cons 0 (lit 5) .nil))) = (1, 4) :=
  ⟨C04_chain_partial demo _ _ _ _ (by simp [Expr.Ordered, lit]) (by simp [Expr.Ordered, Exprs.Ordered])
    (by simp [Expr.Ordered, Links.Ordered, lit]) (by simp [Expr.calls, Expr.reads, lit]) (by decide)
    (by simp [Expr.WellTyped, Exprs.WellTyped, Links.WellTyped, lit]), by decide, by decide⟩

end Nagini.Hoist
