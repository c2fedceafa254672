import Verif.Lemmas.Stores

/-!
C111: assignments with several targets, and the order in which the right-hand side and the parts of the
targets are evaluated.
-/
namespace Nagini.Stores

open Nagini.Hoist

/-- What an observer sees after the translation of a statement list: variables and heap. -/
def observe (L : Lang) (ss : Stmts L.Val) (n : Nat) (env : Nat → L.Val) (h : L.Heap)
    (t : Nat → L.Val) : (Nat → L.Val) × L.Heap :=
  let s := runs L ⟨env, h, t⟩ (transStmts n ss).1
  (s.env, s.heap)

/-- **C111, full claim.** For every language (meaning of calls, field writes, setters and
`__setitem__`), every list of assignments, expression statements and conditionals and every state,
the translation leaves variables and heap as Python does. -/
def AssignmentsPreserved : Prop :=
  ∀ (L : Lang) (ss : Stmts L.Val), Stmts.WellTyped L ss →
    ∀ n env h t, observe L ss n env h t = pyStmts L env h ss

/-- A concrete language for witnesses: objects are integers, the heap maps an object and a field to an
integer; operation 0 is addition; method 0 sets field 0 of object 1 to 10 and returns object 2; field
`100 + i` of a list is its element `i`; a setter writes its field twice the value. -/
abbrev demo : Lang where
  Val := Int
  Heap := Int → Nat → Int
  truthy v := v != 0
  ofBool b := if b then 1 else 0
  truthy_ofBool b := by cases b <;> rfl
  read h r f := h r f
  app _ vs := vs.sum
  cmp _ a b := a < b
  call _ _ h := (2, fun o f => if o = 1 ∧ f = 0 then 10 else h o f)
  write h r f v := fun o g => if o = r ∧ g = f then v else h o g
  setter h r f v := fun o g => if o = r ∧ g = f then 2 * v else h o g
  setitem h r i v := fun o g => if o = r ∧ g = 100 + i.toNat then v else h o g

/-- Variable `a` is object 1, `b` object 3, all other variables are 0. -/
abbrev env0 : Nat → Int := fun x => if x = 0 then 1 else if x = 1 then 3 else 0

/-- Field 0 of object 1 is 3, everything else 0. -/
abbrev heap0 : Int → Nat → Int := fun o f => if o = 1 ∧ f = 0 then 3 else 0

/-- The variable `a`. -/
abbrev a : Expr Int := .var 0

/-- The variable `b`. -/
abbrev b : Expr Int := .var 1

/-- `a.f`. -/
abbrev af : Expr Int := .field a 0

/-- `m()`. -/
abbrev m : Expr Int := .call 0 .nil

/-- One statement. -/
abbrev one (s : Stmt Int) : Stmts Int := .cons s .nil

/-- `m().g = a.f`: Python reads `a.f` before the call (3), the translation after it (10). -/
theorem C111_target_call :
    (pyStmts demo env0 heap0 (one (.assign [.attr m 1] af))).2 2 1 = 3 ∧
    (observe demo (one (.assign [.attr m 1] af)) 0 env0 heap0 (fun _ => (0 : Int))).2 2 1 = 10 := by
  decide

/-- `a.f = b.f = a.f + 1`: Python stores 4 in both, the translation 4 and 5. -/
theorem C111_reevaluated :
    (pyStmts demo env0 heap0 (one (.assign [.attr a 0, .attr b 0]
      (.app 0 (.cons af (.cons (.const 1) .nil)))))).2 3 0 = 4 ∧
    (observe demo (one (.assign [.attr a 0, .attr b 0]
      (.app 0 (.cons af (.cons (.const 1) .nil))))) 0 env0 heap0 (fun _ => (0 : Int))).2 3 0 = 5 := by
  decide

/-- `x = y = x + 1`: Python makes both 1, the translation makes `y` 2. -/
theorem C111_reevaluated_variable :
    (pyStmts demo env0 heap0 (one (.assign [.name 5, .name 6]
      (.app 0 (.cons (.var 5) (.cons (.const 1) .nil)))))).1 6 = 1 ∧
    (observe demo (one (.assign [.name 5, .name 6]
      (.app 0 (.cons (.var 5) (.cons (.const 1) .nil))))) 0 env0 heap0 (fun _ => (0 : Int))).1 6 = 2 := by
  decide

/-- `a.f[m()] = 7`: Python reads the list `a.f` before the call of the index (3), the translation after
it (10), and so changes another list. -/
theorem C111_receiver_read_late :
    (pyStmts demo env0 heap0 (one (.assign [.item af m] (.const 7)))).2 3 102 = 7 ∧
    (observe demo (one (.assign [.item af m] (.const 7))) 0 env0 heap0 (fun _ => (0 : Int))).2 3 102 = 0 ∧
    (observe demo (one (.assign [.item af m] (.const 7))) 0 env0 heap0 (fun _ => (0 : Int))).2 10 102
      = 7 := by
  decide

/-- C111 is violated. -/
theorem C111_fails : ¬ AssignmentsPreserved := by
  intro h
  have h1 := h demo (one (.assign [.name 5, .name 6] (.app 0 (.cons (.var 5) (.cons (.const 1) .nil)))))
    (by simp [Stmts.WellTyped, Stmt.WellTyped, Target.WellTyped, Expr.WellTyped, Exprs.WellTyped])
    0 env0 heap0 (fun _ => (0 : Int))
  have h2 := congrArg (fun p => p.1 6) h1
  have h3 : (2 : Int) = 1 :=
    C111_reevaluated_variable.2.symm.trans (h2.trans C111_reevaluated_variable.1)
  exact absurd h3 (by decide)

/-- **C111, proved part.** The claim holds for every language, state and statement list whose
expressions are in an order the translation of expressions preserves (C01), whose subscript receivers
are not read from the heap before an index that calls, and whose right-hand sides are stable: they
don't read the heap if a target calls or if they are stored again after a store to the heap, and don't
use a variable that is a target to the left of another one.  Missing: the statements excluded, for
which the translation is wrong. -/
theorem C111_partial (L : Lang) (ss : Stmts L.Val) (ho : ss.Ok) (hw : Stmts.WellTyped L ss) :
    ∀ n env h t, observe L ss n env h t = pyStmts L env h ss := by
  intro n env h t
  obtain ⟨_, t', h1, _⟩ := transStmts_ok L ss n ⟨env, h, t⟩ ho hw
  simp only [observe, h1]

/-- An assignment to one name, attribute, property or element with a right-hand side that calls
anything but is followed by no call in the target. -/
theorem C111_single_partial (L : Lang) (t : Target L.Val) (e : Expr L.Val) (he : e.Ordered)
    (ht : t.Ordered) (hc : t.calls = false) (hwe : Expr.WellTyped L.toLang e)
    (hwt : Target.WellTyped L t) (n : Nat) (env : Nat → L.Val) (h : L.Heap) (tmp : Nat → L.Val) :
    observe L (.cons (.assign [t] e) .nil) n env h tmp =
      pyStore L env (pyEval L.toLang env e h).2 (pyEval L.toLang env e h).1 t := by
  rw [C111_partial L]
  · simp [pyStmts, pyStmt, pyStores]
  · exact ⟨⟨he, by simpa using ht, by cases t <;> exact fun _ => hc⟩, trivial⟩
  · exact ⟨⟨hwe, by simpa using hwt⟩, trivial⟩

/-- Non-vacuity: `if a.f: m().g = b[0] = x = m() else: x = 1` followed by `a.p = a.f`: the call's result
is stored three times, the heap changes, and the setter runs. -/
example :
    let ss : Stmts Int := .cons (.ite af
        (one (.assign [.attr m 1, .item b (.const 0), .name 5] m)) (one (.assign [.name 5] (.const 1))))
      (one (.assign [.prop a 4] af))
    ss.Ok ∧ Stmts.WellTyped demo ss ∧ (pyStmts demo env0 heap0 ss).1 5 = 2 ∧
    (pyStmts demo env0 heap0 ss).2 3 100 = 2 ∧ (pyStmts demo env0 heap0 ss).2 2 1 = 2 ∧
    (pyStmts demo env0 heap0 ss).2 1 4 = 20 ∧
    (observe demo ss 0 env0 heap0 (fun _ => (0 : Int))).2 1 4 = 20 := by
  refine ⟨?_, ?_, by decide⟩
  · simp [Stmts.Ok, Stmt.Ok, Target.Ordered, Expr.Ordered, Exprs.Ordered, Stable, Expr.reads,
      Expr.calls, Target.calls]
  · simp [Stmts.WellTyped, Stmt.WellTyped, Target.WellTyped, Expr.WellTyped, Exprs.WellTyped]

/-- Non-vacuity of `C111_single_partial`: `a.f = m() + a.f`. -/
example :
    (Expr.app 0 (.cons m (.cons af .nil))).Ordered ∧ (Target.attr a 0).Ordered ∧
    (Target.attr a 0).calls = false ∧
    (observe demo (one (.assign [.attr a 0] (.app 0 (.cons m (.cons af .nil))))) 0 env0 heap0
      (fun _ => (0 : Int))).2 1 0 = 12 := by
  refine ⟨?_, ?_, ?_, by decide⟩ <;>
    simp [Expr.Ordered, Exprs.Ordered, Target.Ordered, Target.calls, Expr.calls, Exprs.calls,
      Expr.reads]

end Nagini.Stores
