import Verif.Lemmas.Globals

/-!
C98: global variables and module-level code.
-/
set_option linter.unusedVariables false
namespace Nagini.Globals

/-- The main method is verified: no run of it fails, whatever the functions of the final variables mean
within their postconditions. -/
def Verified (p : Stmt) : Prop :=
  ∀ g, Posts p g → ∀ mv, ¬ Ex (isFinal p) g (translate p) (vinit mv) .fail

/-- The same outcome: both end with an error, or both end normally and every expression has the same value
(or reads an unbound name) afterwards. -/
def Same (p : Stmt) (g : Var → Int) : Out → VOut → Prop
  | .ok σ, .ok s => ∀ e, evalV (isFinal p) g s e = pyEval σ e
  | .err, .fail => True
  | _, _ => False

/-- **C98** (full claim): if the generated main method is verified, the module does not end with a NameError
or a failing assertion, and what it does is a run of the main method. -/
def C98 : Prop :=
  ∀ (p : Stmt), Verified p → ∀ mv o t, Py p (pyInit mv) o t → o ≠ .err ∧
    ∃ g o', Posts p g ∧ Ex (isFinal p) g (translate p) (vinit mv) o' ∧ Same p g o o'

/-- `for x in [1, 2]: pass` and then `assert False`. -/
abbrev forProg : Stmt := .seq (.forIn "x" [1, 2] .skip) (.assert (.lit 0))

/-- `if False: x = x + 1` and then `assert False`. -/
abbrev cycleProg : Stmt := .seq (.ite (.lit 0) (.assign "x" (.add (.var "x") (.lit 1))) .skip) (.assert (.lit 0))

/-- `i = 0`, `while i < 2: y = i; i = i + 1`, and then `assert False`. -/
abbrev whileProg : Stmt :=
  .seq (.assign "i" (.lit 0)) (.seq (.while (.lt (.var "i") (.lit 2))
    (.seq (.assign "y" (.var "i")) (.assign "i" (.add (.var "i") (.lit 1))))) (.assert (.lit 0)))

/-- The target of a module-level `for` loop has one store, so it counts as final and each of its assignments
is assumed as an equation of a constant: after two different elements everything is verified. -/
theorem C98_for_fails : ¬ C98 := by
  intro h
  have hv : Verified forProg := by
    intro g hg mv hx
    have hf : isFinal forProg "x" = true := by decide
    simp only [translate, trStmt, trFor, trAssign, hf, if_true] at hx
    cases hx with
    | seqErr h1 =>
      cases h1 with
      | seqErr h2 => cases h2 with
        | seqErr h3 => cases h3 with | inhaleErr he => simp [evalV] at he
        | seq _ h3 => cases h3
      | seq _ h2 => cases h2 with
        | seqErr h3 => cases h3
        | seq _ h3 => cases h3 with
          | seqErr h4 => cases h4 with
            | seqErr h5 => cases h5 with | inhaleErr he => simp [evalV] at he
            | seq _ h5 => cases h5
          | seq _ h4 => cases h4 with
            | seqErr h5 => cases h5
            | seq _ h5 => cases h5
    | seq h1 _ =>
      cases h1 with
      | seq h2 h3 =>
        cases h2 with
        | seq h4 _ =>
          cases h4 with
          | inhaleEq he1 =>
            cases h3 with
            | seq _ h5 => cases h5 with
              | seq h6 _ => cases h6 with
                | seq h7 _ => cases h7 with
                  | inhaleEq he2 =>
                    simp only [evalV, Option.some.injEq] at he1 he2
                    omega
  have hp : Py forProg (pyInit fun _ => 0) .err ([("x", 1)] ++ ([("x", 2)] ++ []) ++ []) :=
    .seq (.forCons .skip (.forCons .skip .forNil)) (.assertFail rfl)
  exact (h _ hv _ _ _ hp).1 rfl

/-- The same for an assignment in a `while` loop. -/
theorem C98_while_fails : Verified whileProg ∧ ∃ t, Py whileProg (pyInit fun _ => 0) .err t := by
  constructor
  · intro g hg mv hx
    obtain ⟨o, t, hp, hr, hs⟩ := reflect whileProg (rel_init whileProg g mv) hx
    cases o with
    | ok σ => exact hr.elim
    | err =>
      have hy0 : ("y", (0 : Int)) ∈ t ∧ ("y", (1 : Int)) ∈ t := by
        cases hp with
        | seqErr h1 => cases h1 with | assignErr he => simp [pyEval] at he
        | seq h1 h2 =>
          cases h1 with
          | assign he =>
            simp only [pyEval, Option.some.injEq] at he
            subst he
            cases h2 with
            | seqErr h3 =>
              cases h3 with
              | whileErr he => simp [pyEval, Store.set] at he
              | whileBody _ _ h4 => cases h4 with
                | seqErr h5 => cases h5 with | assignErr he => simp [pyEval, Store.set] at he
                | seq h5 h6 => cases h5 with
                  | assign _ => cases h6 with | assignErr he => simp [pyEval, Store.set] at he
              | whileT _ _ h4 h5 => cases h4 with
                | seq h6 h7 => cases h6 with
                  | assign e1 => cases h7 with
                    | assign e2 =>
                      simp [pyEval, Store.set] at e1 e2
                      subst e1 e2
                      cases h5 with
                      | whileErr he => simp [pyEval, Store.set] at he
                      | whileBody _ _ h4 => cases h4 with
                        | seqErr h5 => cases h5 with | assignErr he => simp [pyEval, Store.set] at he
                        | seq h5 h6 => cases h5 with
                          | assign _ => cases h6 with | assignErr he => simp [pyEval, Store.set] at he
                      | whileT _ _ h4 h5 => cases h4 with
                        | seq h6 h7 => cases h6 with
                          | assign e1 =>
                            simp [pyEval, Store.set] at e1
                            subst e1
                            simp
            | seq h3 h4 =>
              cases h3 with
              | whileF he => simp [pyEval, Store.set] at he
              | whileT _ _ h4 h5 => cases h4 with
                | seq h6 h7 => cases h6 with
                  | assign e1 => cases h7 with
                    | assign e2 =>
                      simp [pyEval, Store.set] at e1 e2
                      subst e1 e2
                      cases h5 with
                      | whileF he => simp [pyEval, Store.set] at he
                      | whileT _ _ h4 h5 => cases h4 with
                        | seq h6 h7 => cases h6 with
                          | assign e1 =>
                            simp [pyEval, Store.set] at e1
                            subst e1
                            simp
      have hf : isFinal whileProg "y" = true := by decide
      have h0 := hs "y" 0 hy0.1 hf
      have h1 := hs "y" 1 hy0.2 hf
      omega
  · refine ⟨_, .seq (.assign (v := 0) rfl) (.seq (.whileT (v := 1) (by simp [pyEval, Store.set]) (by decide)
      (.seq (.assign (v := 0) (by simp [pyEval, Store.set])) (.assign (v := 1) (by simp [pyEval, Store.set])))
      (.whileT (v := 1) (by simp [pyEval, Store.set]) (by decide)
      (.seq (.assign (v := 1) (by simp [pyEval, Store.set])) (.assign (v := 2) (by simp [pyEval, Store.set])))
      (.whileF (by simp [pyEval, Store.set])))) (.assertFail rfl))⟩

/-- The equation of a final variable is a postcondition of its function also if the assignment is never
executed, and nothing checks that the equations have a solution: all code of the program is then verified
(here the main method, but any other method as well). -/
theorem C98_cycle_fails : (¬ ∃ g, Posts cycleProg g) ∧ Verified cycleProg ∧
    ∃ t, Py cycleProg (pyInit fun _ => 0) .err t := by
  have h : ¬ ∃ g, Posts cycleProg g := by
    rintro ⟨g, hg⟩
    have := hg "x" (.add (.var "x") (.lit 1)) (by
      have hf : isFinal cycleProg "x" = true := by decide
      simp [posted, hf, value, valueNodes, heapDependent, Expr.reads])
    simp only [evalFun] at this
    omega
  exact ⟨h, fun g hg => absurd ⟨g, hg⟩ h, _, .seq (.iteF rfl .skip) (.assertFail rfl)⟩

theorem same_of_rel {p g o o'} (h : RelOut (isFinal p) g o o') : Same p g o o' := by
  cases o <;> cases o' <;> first | exact h | exact fun e => eval_rel h e

/-- **C98** (partial): if each run of the module gives every final variable only one value, and the
equations of the final variables do not depend on each other in a cycle, then every run of the module is a
run of the generated code for some meaning of the functions, so that errors are found. -/
theorem C98_partial (p : Stmt) (mv : Var → Int) (o : Out) (t : List (Var × Int)) (hp : Py p (pyInit mv) o t)
    (hone : ∀ x v w, isFinal p x = true → (x, v) ∈ t → (x, w) ∈ t → v = w)
    (rank : Var → Nat) (hacyclic : ∀ x e, posted p x = some e → ∀ y ∈ e.reads, rank y < rank x) :
    (Verified p → o ≠ .err) ∧
    ∃ g o', Posts p g ∧ Ex (isFinal p) g (translate p) (vinit mv) o' ∧ Same p g o o' := by
  obtain ⟨g, hg, ht⟩ := exists_interp hp hone hacyclic
  obtain ⟨o', hx, hr⟩ := simulate hp (rel_init p g mv) ht
  refine ⟨fun hv he => ?_, g, o', hg, hx, same_of_rel hr⟩
  subst he
  cases relOut_err hr
  exact hv g hg mv hx

/-- In particular if no final variable is assigned to in a loop. -/
theorem C98_straight_partial (p : Stmt) (hloop : ∀ x, isFinal p x = true → x ∉ loopStores p)
    (rank : Var → Nat) (hacyclic : ∀ x e, posted p x = some e → ∀ y ∈ e.reads, rank y < rank x)
    (hv : Verified p) (mv : Var → Int) (t : List (Var × Int)) : ¬ Py p (pyInit mv) .err t := fun hp =>
  (C98_partial p mv .err t hp (stable_of_straight hp hloop) rank hacyclic).1 hv rfl

/-- The other direction, for all modules: every run of the generated code under any meaning of the functions
is a run of the module with the same outcome, and the functions have the values that were assigned.  So the
errors that are reported are real. -/
theorem C98_runs (p : Stmt) (g mv : Var → Int) (o' : VOut) (hx : Ex (isFinal p) g (translate p) (vinit mv) o') :
    ∃ o t, Py p (pyInit mv) o t ∧ Same p g o o' ∧ ∀ x v, (x, v) ∈ t → isFinal p x = true → g x = v := by
  obtain ⟨o, t, hp, hr, hs⟩ := reflect p (rel_init p g mv) hx
  exact ⟨o, t, hp, same_of_rel hr, hs⟩

/-- Which variables are final: those with at most one store in the text of the module, other than `__name__`
and `__file__`. -/
theorem C98_final_iff (p : Stmt) (x : Var) : isFinal p x = true ↔
    (loopStores.allStores p).count x ≤ 1 ∧ x ≠ "__name__" ∧ x ≠ "__file__" := by
  rw [allStores_eq]
  simp [isFinal, moduleVars]

/-- A final variable that is assigned a constant has that value in every function of the program. -/
theorem C98_constant (p : Stmt) (x : Var) (n : Int) (g : Var → Int) (hg : Posts p g) (hf : isFinal p x = true)
    (hm : (x, Expr.lit n) ∈ valueNodes p) : g x = n := by
  have hv : ∃ e, value p x = some e := by
    unfold value
    cases hq : (valueNodes p).reverse.find? fun q => q.1 = x with
    | none =>
      have := List.find?_eq_none.1 hq _ (List.mem_reverse.2 hm)
      simp at this
    | some q => exact ⟨q.2, rfl⟩
  obtain ⟨e, hv⟩ := hv
  cases (final_value hf hv).2 hm
  exact hg x (.lit n) (by simp [posted, hf, hv, heapDependent, Expr.reads])

/-- `x = 3`, `y = x + 1`, `z = 0`, `while z < y: z = z + 1`, `assert y < z`: the assertion fails, and the
hypotheses of `C98_straight_partial` hold. -/
abbrev good : Stmt := .seq (.assign "x" (.lit 3)) (.seq (.assign "y" (.add (.var "x") (.lit 1)))
  (.seq (.assign "z" (.lit 0)) (.seq (.while (.lt (.var "z") (.var "y")) (.assign "z" (.add (.var "z") (.lit 1))))
    (.assert (.lt (.var "y") (.var "z"))))))

example : (∀ x, isFinal good x = true → x ∉ loopStores good) ∧
    (∀ x e, posted good x = some e → ∀ y ∈ e.reads, (if y = "x" then 0 else 1) < (if x = "x" then 0 else 1)) := by
  refine ⟨fun x hf hm => ?_, fun x e h y hy => ?_⟩
  · simp only [loopStores, loopStores.allStores, List.nil_append, List.append_nil, List.mem_singleton] at hm
    subst hm
    exact absurd hf (by decide)
  · by_cases h1 : x = "x"
    · subst h1
      have : posted good "x" = some (.lit 3) := by
        have hf : isFinal good "x" = true := by decide
        simp [posted, hf, value, valueNodes, heapDependent, Expr.reads]
      rw [this] at h
      cases h
      simp [Expr.reads] at hy
    · by_cases h2 : x = "y"
      · subst h2
        have : posted good "y" = some (.add (.var "x") (.lit 1)) := by
          have hf : isFinal good "y" = true := by decide
          have hfx : isFinal good "x" = true := by decide
          simp [posted, hf, hfx, value, valueNodes, heapDependent, Expr.reads]
        rw [this] at h
        cases h
        simp [Expr.reads] at hy
        simp [hy]
      · exfalso
        unfold posted at h
        split at h
        · next hf =>
          by_cases h3 : x = "z"
          · subst h3
            exact absurd hf (by decide)
          · have : value good x = none := by
              have e1 : ¬ "x" = x := fun e => h1 e.symm
              have e2 : ¬ "y" = x := fun e => h2 e.symm
              have e3 : ¬ "z" = x := fun e => h3 e.symm
              simp [value, valueNodes, e1, e2, e3]
            rw [this] at h
            cases h
        · cases h

example : Py (.seq (.assign "x" (.lit 3)) (.assert (.lt (.lit 5) (.var "x")))) (pyInit fun _ => 0) .err [("x", 3)] :=
  .seq (m := []) (.assign rfl) (.assertFail (by simp [pyEval, Store.set]))

example : isFinal good "y" = true ∧ isFinal good "z" = false ∧ isFinal forProg "x" = true := by decide

end Nagini.Globals
