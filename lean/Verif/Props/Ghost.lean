import Verif.Lemmas.GhostStmt
import Verif.Lemmas.GhostBack

/-!
C35: what the ghost checker accepts can be extracted without changing what the regular program does.
-/
namespace Nagini.Ghost

/-- Whenever the original function terminates the extracted one does, with the same effects, the same regular
result and the same regular variables. -/
def C35_statement : Prop := ∀ (W : Type) (L : Lib W) (P : Prog), Accepted P → PureOk P → Erases L P (extract P)

/-- Every job has at most one result, so the run of the extracted program whose existence `Erases` states is the
only one. -/
theorem C35_deterministic {W : Type} (L : Lib W) (P : Prog) {j : Job W} {r r' : Res W} (h : Run L P j r)
    (h' : Run L P j r') : r' = r := run_det h r' h'

/-- For programs which avoid the constructs of the counterexamples below, `Clean`, the extraction succeeds, and
whenever a function of the original program terminates the extracted function does, with the same effects on
the world, the same regular result and the same values of regular variables.
Missing: programs that are not `Clean`. -/
theorem C35_erases_partial {W : Type} (L : Lib W) (P : Prog) (ha : Accepted P) (hp : PureOk P) (hc : Clean P) :
    Erases L P (extract P) := by
  have hR := remains_of ha hc
  intro f fn hf hg
  obtain ⟨fn', hq, hpar, hbody⟩ := hR f fn hf hg
  refine ⟨fn', hq, ?_⟩
  intro vs ρ0 w ρ1 w' o hs hrun
  obtain ⟨ρ0', hs', ha0⟩ := sets_keep hs (Agree.refl _)
  obtain ⟨ρ1', o', hr', hag, hor⟩ := run_sim (noEffect_of ha hc hp) hR hrun _ _ _ _ ha0 hbody
  exact ⟨ρ0', ρ1', o', by rw [hpar]; exact hs', hr', hor, hag⟩

/-- Conversely, whenever the extracted function terminates the original one does, with the same effects and the
same regular result, whatever its ghost parameters are, unless code without effects gets stuck or does not
terminate.  Together with `C35_erases_partial`, a function whose ghost code terminates has exactly the regular
behaviours of the extracted function.
Missing: programs that are not `Clean`; that ghost code terminates, which Nagini checks with obligations
(translators/statement.py:84-138). -/
theorem C35_reflects_partial {W : Type} (L : Lib W) (P : Prog) (ha : Accepted P) (hp : PureOk P) (hc : Clean P) :
    Reflects L P (extract P) := by
  have hR := remains_of ha hc
  intro f fn hf hg
  obtain ⟨fn', hq, hpar, hbody⟩ := hR f fn hf hg
  refine ⟨fn', hq, ?_⟩
  intro vs ρ0 ρ0' w ρ1' w' o' hs hs' hrun
  obtain ⟨ρ2, hs2, ha0⟩ := sets_keep hs (Agree.refl _)
  rw [← hpar, hs'] at hs2
  cases hs2
  rcases run_back (noEffect_of ha hc hp) hR hrun _ _ _ _ ha0 hbody with ⟨ρ1, o, h1, h2, h3⟩ | hf
  · exact .inl ⟨ρ1, o, h1, h3, h2⟩
  · exact .inr hf

/-- The two cases of `Reflects` exclude each other: what fails has no run. -/
theorem C35_failing_code {W : Type} (L : Lib W) (P : Prog) {Γ : Nat → Bool} {j : Job W} (h : Fails L P Γ j) (r : Res W) :
    ¬ Run L P j r := fails_norun h r

/-- What is checked as ghost code has no effects: ghost functions of an accepted program do not change the
world, whatever they are called with.
Missing: programs in which receivers of field accesses call impure functions. -/
theorem C35_ghost_functions_partial {W : Type} (L : Lib W) (P : Prog) (ha : Accepted P) (hp : PureOk P) (hc : Clean P)
    {f : Nat} {fn : Fn} (hf : P f = some fn) (hg : fn.ghost = true) {ρ ρ' : Env} {w w' : W} {o : Out}
    (hr : Run L P (.block ρ w fn.body) (.done ρ' w' o)) : w' = w :=
  run_world (noEffect_of ha hc hp) hr (noEffect_of ha hc hp f fn hf (by simp [hg]))

/-! ### Programs -/

/-- The program with the given functions. -/
def ofList (fs : List Fn) : Prog := fun n => fs[n]?

/-- In the examples the variables from 10 on are ghost. -/
def late (x : Nat) : Bool := decide (10 ≤ x)

def num (n : Int) : Expr := .node (.const n) []
def var (x : Nat) : Expr := .node (.var x) []
def callE (f : Nat) (es : List Expr) : Expr := .node (.call f) es

/-- The world counts the calls of the library function 0; operator 0 adds. -/
def lib : Lib Nat where
  op := fun _ vs => match vs with
    | [.int a, .int b] => some (.int (a + b))
    | vs => some (.tup vs)
  builtin := fun _ _ => some (.int 0)
  attr := fun _ _ _ => some (.int 7)
  prim := fun _ w _ => some (w + 1, .int 1)
  truthy := fun v => match v with
    | .int n => decide (n ≠ 0)
    | _ => false
  iter := fun v => match v with
    | .tup vs => some vs
    | _ => none

theorem accepted_of {fs : List Fn} (h : ∀ fn ∈ fs, (checkFn (ofList fs) fn).isSome = true) : Accepted (ofList fs) :=
  fun _ fn hf => h fn (List.mem_of_getElem? hf)

theorem pureOk_of {fs : List Fn} (h : ∀ fn ∈ fs, fn.pure = false) : PureOk (ofList fs) := by
  intro f fn hf _ hp
  rw [h fn (List.mem_of_getElem? hf)] at hp
  cases hp

theorem clean_of {fs : List Fn} (h : ∀ fn ∈ fs, (if fn.ghost then quietB (ofList fs) fn.body
    else cleanB (ofList fs) fn.ret fn.gvar false fn.body) = true) : Clean (ofList fs) := by
  intro f fn hf
  have := h fn (List.mem_of_getElem? hf)
  cases hg : fn.ghost <;> simpa [hg] using this

/-- To refute the claim it suffices that the extracted function has no run with the right result. -/
theorem not_erases {W : Type} {L : Lib W} {P Q : Prog} {f : Nat} {fn : Fn} {vs : List Val} {ρ0 ρ1 : Env} {w w' : W}
    {o : Out} (hf : P f = some fn) (hg : fn.ghost = false) (hs : Env.empty.sets fn.params vs = some ρ0)
    (hrun : Run L P (.block ρ0 w fn.body) (.done ρ1 w' o))
    (hno : ∀ fn', Q f = some fn' → ∀ ρ0' ρ1' o', Env.empty.sets fn'.params (keep (fn.params.map fn.gvar) vs) = some ρ0' →
      Run L Q (.block ρ0' w fn'.body) (.done ρ1' w' o') → OutRel fn.ret o o' → Agree fn.gvar ρ1 ρ1' → False) :
    ¬ Erases L P Q := by
  intro h
  obtain ⟨fn', hq, h⟩ := h f fn hf hg
  obtain ⟨ρ0', ρ1', o', h1, h2, h3, h4⟩ := h vs ρ0 w ρ1 w' o hs hrun
  exact hno fn' hq ρ0' ρ1' o' h1 h2 h3 h4

/-- `def f() -> GInt: print(); return 1` -/
def noisyGhost : Fn := ⟨false, false, [], late, .ghost, [.expr (.node (.prim 0) []), .ret (some (num 1))]⟩

/-- `def f() -> int: print(); return 1` -/
def noisy : Fn := ⟨false, false, [], late, .reg, [.expr (.node (.prim 0) []), .ret (some (num 1))]⟩

theorem run_noisyGhost {P : Prog} {ρ : Env} {w : Nat} {f : Nat} (hf : P f = some noisyGhost) :
    Run lib P (.expr ρ w (callE f [])) (.val (w + 1) (.int 1)) :=
  .call (ρ0 := Env.empty) (ρ1 := Env.empty) (o := .ret (.int 1)) .nil hf rfl
    (.consN (.exprS (.prim .nil rfl)) (.consJ (.ret .const) (by simp))) rfl

theorem run_noisy {P : Prog} {ρ : Env} {w : Nat} {f : Nat} (hf : P f = some noisy) :
    Run lib P (.expr ρ w (callE f [])) (.val (w + 1) (.int 1)) :=
  .call (ρ0 := Env.empty) (ρ1 := Env.empty) (o := .ret (.int 1)) .nil hf rfl
    (.consN (.exprS (.prim .nil rfl)) (.consJ (.ret .const) (by simp))) rfl

/-! ### Non-vacuity -/

/--
```
def h(x: int, g: GInt) -> Tuple[int, GInt]:     # 1
    print()
    return x, g + 1

@Ghost
def k(g: int) -> int:                           # 2
    return g + 1

def main(x: int, g: GInt) -> int:               # 0
    g = k(g)
    x, g = h(x, g + 2)
    if g:
        g = x
        while g2: g2 = 0
    if x:
        g = 1
        return x
    return 0
```
-/
def sampleFns : List Fn :=
  [⟨false, false, [0, 10], late, .reg,
      [.assign [.var 11] (num 0),
       .assign [.var 10] (callE 2 [var 10]),
       .assign [.tup [0, 10]] (callE 1 [var 0, .node (.op 0) [var 10, num 2]]),
       .ite (var 10) [.assign [.var 10] (var 0), .whil (var 11) [.assign [.var 11] (num 0)] []] [],
       .ite (var 0) [.assign [.var 10] (num 1), .ret (some (var 0))] [],
       .ret (some (num 0))]⟩,
   ⟨false, false, [0, 10], late, .mixed,
      [.expr (.node (.prim 0) []), .ret (some (.node .tuple [var 0, .node (.op 0) [var 10, num 1]]))]⟩,
   ⟨true, false, [10], late, .reg, [.ret (some (.node (.op 0) [var 10, num 1]))]⟩]

def sample : Prog := ofList sampleFns

example : Accepted sample ∧ PureOk sample ∧ Clean sample :=
  ⟨accepted_of (by decide), pureOk_of (by decide), clean_of (by decide)⟩

/-- The extracted program of the example. -/
example : (extract sample 0).map (·.body) = some
    [.assign [.var 0] (callE 1 [var 0]), .ite (var 0) [.ret (some (var 0))] [], .ret (some (num 0))] ∧
    (extract sample 1).map (·.body) = some [.expr (.node (.prim 0) []), .ret (some (var 0))] ∧
    (extract sample 2).map (·.body) = none ∧ (extract sample 0).map (·.params) = some [0] := ⟨rfl, rfl, rfl, rfl⟩

example : Erases lib sample (extract sample) :=
  C35_erases_partial lib sample (accepted_of (by decide)) (pureOk_of (by decide)) (clean_of (by decide))

example : Reflects lib sample (extract sample) :=
  C35_reflects_partial lib sample (accepted_of (by decide)) (pureOk_of (by decide)) (clean_of (by decide))

/-- `def main(g: GInt) -> int: (while g: pass); return 0` -/
def spinFn : Fn := ⟨false, false, [10], late, .reg, [.whil (var 10) [.pass] [], .ret (some (num 0))]⟩

def spin : Prog := ofList [spinFn]

theorem spin_diverges {j : Job Nat} {r : Res Nat} (h : Run lib spin j r) :
    ∀ ρ w, ρ 10 = some (.int 1) → j ≠ .stmt ρ w (.whil (var 10) [.pass] []) := by
  induction h with
  | whileF h1 ht _ _ _ =>
    intro ρ w hρ hj
    cases hj
    cases h1 with
    | var hx => rw [hρ] at hx; cases hx; simp [lib] at ht
  | whileN _ _ h2 _ _ _ _ ih =>
    intro ρ w hρ hj
    cases hj
    cases h2 with
    | consN h3 h4 => cases h3; cases h4; exact ih _ _ hρ rfl
    | consJ h3 hne => cases h3; exact hne rfl
  | whileB _ _ h2 _ _ =>
    intro ρ w hρ hj
    cases hj
    cases h2 with
    | consN h3 h4 => cases h3; cases h4
    | consJ h3 hne => cases h3
  | whileR _ _ h2 _ _ =>
    intro ρ w hρ hj
    cases hj
    cases h2 with
    | consN h3 h4 => cases h3; cases h4
    | consJ h3 hne => cases h3
  | _ => intro ρ w hρ hj; cases hj

/-- Both cases of `Reflects` occur: the checker accepts the endless loop `while g: pass`, which the extraction
removes. -/
theorem C35_endless_loop : Accepted spin ∧ PureOk spin ∧ Clean spin ∧
    (∃ fn' ρ1', extract spin 0 = some fn' ∧ Run lib (extract spin) (.block Env.empty 0 fn'.body) (.done ρ1' 0 (.ret (.int 0)))) ∧
    ∀ r, ¬ Run lib spin (.block (Env.empty.set 10 (.int 1)) 0 spinFn.body) r := by
  refine ⟨accepted_of (by decide), pureOk_of (by decide), clean_of (by decide),
    ⟨_, Env.empty, rfl, .consJ (.ret .const) (by simp)⟩, ?_⟩
  intro r hr
  cases hr with
  | consN h _ => exact spin_diverges h _ _ rfl rfl
  | consJ h _ => exact spin_diverges h _ _ rfl rfl

/-! ### Counterexamples -/

/-- A regular function without parameters and with a regular result. -/
def proc (body : List Stmt) : Fn := ⟨false, false, [], late, .reg, body⟩

/-- The expression statement `f()` is erased, although `f` prints, because its result is ghost; the search for
impure calls starts below the call. -/
def dropCall : Prog := ofList [proc [.expr (callE 1 [])], noisyGhost]

theorem C35_call_statement_fails : Accepted dropCall ∧ PureOk dropCall ∧ ¬ Erases lib dropCall (extract dropCall) := by
  refine ⟨accepted_of (by decide), pureOk_of (by decide), ?_⟩
  refine not_erases (f := 0) (fn := proc [.expr (callE 1 [])]) (vs := []) (ρ0 := Env.empty) (w := 0) (w' := 1) rfl rfl rfl
    (.consN (.exprS (run_noisyGhost rfl)) .nilB) ?_
  intro fn' hq ρ0' ρ1' o' _ hr _ _
  cases hq
  cases hr

/-- `if f(): pass` is erased as well. -/
def dropIf : Prog := ofList [proc [.ite (callE 1 []) [.pass] []], noisyGhost]

theorem C35_if_fails : Accepted dropIf ∧ PureOk dropIf ∧ ¬ Erases lib dropIf (extract dropIf) := by
  refine ⟨accepted_of (by decide), pureOk_of (by decide), ?_⟩
  refine not_erases (f := 0) (fn := proc [.ite (callE 1 []) [.pass] []]) (vs := []) (ρ0 := Env.empty) (w := 0) (w' := 1)
    rfl rfl rfl (.consN (.iteT (run_noisyGhost rfl) rfl (.consN .pass .nilB)) .nilB) ?_
  intro fn' hq ρ0' ρ1' o' _ hr _ _
  cases hq
  cases hr

/-- `g = 0; g += f()` becomes `g += f()`, where `g` is not defined. -/
def augGhost : Prog := ofList [proc [.assign [.var 10] (num 0), .aug 10 0 (callE 1 [])], noisyGhost]

theorem C35_augmented_assignment_fails :
    Accepted augGhost ∧ PureOk augGhost ∧ ¬ Erases lib augGhost (extract augGhost) := by
  refine ⟨accepted_of (by decide), pureOk_of (by decide), ?_⟩
  refine not_erases (f := 0) (fn := proc [.assign [.var 10] (num 0), .aug 10 0 (callE 1 [])]) (vs := []) (ρ0 := Env.empty)
    (w := 0) (w' := 1) rfl rfl rfl
    (.consN (.assign .const rfl) (.consN (.aug (v0 := .int 0) rfl (run_noisyGhost rfl) rfl) .nilB)) ?_
  intro fn' hq ρ0' ρ1' o' hs hr _ _
  cases hq
  cases hs
  cases hr with
  | consN h1 _ => cases h1 with | aug hx _ _ => cases hx
  | consJ h1 _ => cases h1 with | aug hx _ _ => cases hx

/-- `g = len(f())` is erased with `f`: the value is a call, so it is not checked as ghost code. -/
def dropLen : Prog := ofList [proc [.assign [.var 10] (.node (.builtin 0) [callE 1 []])], noisy]

theorem C35_builtin_fails : Accepted dropLen ∧ PureOk dropLen ∧ ¬ Erases lib dropLen (extract dropLen) := by
  refine ⟨accepted_of (by decide), pureOk_of (by decide), ?_⟩
  refine not_erases (f := 0) (fn := proc [.assign [.var 10] (.node (.builtin 0) [callE 1 []])]) (vs := []) (ρ0 := Env.empty)
    (w := 0) (w' := 1) rfl rfl rfl
    (.consN (.assign (.builtin (.cons (run_noisy rfl) .nil) rfl) rfl) .nilB) ?_
  intro fn' hq ρ0' ρ1' o' _ hr _ _
  cases hq
  cases hr

/-- `g = 0; x = g.f` with a regular field `f` becomes `x = g.f`, where `g` is not defined. -/
def ghostReceiver : Prog := ofList [proc [.assign [.var 10] (num 0), .assign [.var 0] (.node (.attr 0) [var 10])]]

theorem C35_receiver_fails :
    Accepted ghostReceiver ∧ PureOk ghostReceiver ∧ ¬ Erases lib ghostReceiver (extract ghostReceiver) := by
  refine ⟨accepted_of (by decide), pureOk_of (by decide), ?_⟩
  refine not_erases (f := 0) (fn := proc [.assign [.var 10] (num 0), .assign [.var 0] (.node (.attr 0) [var 10])])
    (vs := []) (ρ0 := Env.empty) (w := 0) (w' := 0) rfl rfl rfl
    (.consN (.assign .const rfl) (.consN (.assign (.attr (v := .int 0) (.var rfl) rfl) rfl) .nilB)) ?_
  intro fn' hq ρ0' ρ1' o' hs hr _ _
  cases hq
  cases hs
  cases hr with
  | consN h1 _ =>
    cases h1 with
    | assign h2 _ => cases h2 with | attr h3 _ => cases h3 with | var hx => cases hx
  | consJ h1 _ => cases h1; contradiction

/-- `g = f().field` is erased with `f`. -/
def dropReceiver : Prog := ofList [proc [.assign [.var 10] (.node (.attr 0) [callE 1 []])], noisy]

theorem C35_receiver_effect_fails :
    Accepted dropReceiver ∧ PureOk dropReceiver ∧ ¬ Erases lib dropReceiver (extract dropReceiver) := by
  refine ⟨accepted_of (by decide), pureOk_of (by decide), ?_⟩
  refine not_erases (f := 0) (fn := proc [.assign [.var 10] (.node (.attr 0) [callE 1 []])]) (vs := []) (ρ0 := Env.empty)
    (w := 0) (w' := 1) rfl rfl rfl
    (.consN (.assign (.attr (run_noisy rfl) rfl) rfl) .nilB) ?_
  intro fn' hq ρ0' ρ1' o' _ hr _ _
  cases hq
  cases hr

/-- `g = 1; x = 5; y = 0; for i in (0, 1): y = x; for x in (g,): pass` with a ghost variable `g`: the variable
`x` counts as regular until the checker has seen the inner loop, so the regular variable `y` gets a ghost
value. -/
def lateFn : Fn := proc [.assign [.var 10] (num 1), .assign [.var 0] (num 5), .assign [.var 1] (num 0),
  .forr 2 (.node .tuple [num 0, num 1]) [.assign [.var 1] (var 0), .forr 0 (.node .tuple [var 10]) [.pass] []] []]

theorem C35_loop_variable_fails : Accepted (ofList [lateFn]) ∧ PureOk (ofList [lateFn]) ∧
    ¬ Erases lib (ofList [lateFn]) (extract (ofList [lateFn])) := by
  refine ⟨accepted_of (by decide), pureOk_of (by decide), ?_⟩
  refine not_erases (f := 0) (fn := lateFn)
    (vs := []) (ρ0 := Env.empty) (w := 0) (w' := 0) rfl rfl rfl
    (.consN (.assign .const rfl) (.consN (.assign .const rfl) (.consN (.assign .const rfl) (.consN
      (.forr (.tuple (.cons .const (.cons .const .nil))) rfl
        (.eachN (.consN (.assign (.var (v := .int 5) rfl) rfl)
            (.consN (.forr (.tuple (.cons (.var (v := .int 1) rfl) .nil)) rfl (.eachN (.consN .pass .nilB) (.inl rfl) (.eachE .nilB))) .nilB)) (.inl rfl)
          (.eachN (.consN (.assign (.var (v := .int 1) rfl) rfl)
            (.consN (.forr (.tuple (.cons (.var (v := .int 1) rfl) .nil)) rfl (.eachN (.consN .pass .nilB) (.inl rfl) (.eachE .nilB))) .nilB)) (.inl rfl)
            (.eachE .nilB)))) .nilB)))) ?_
  intro fn' hq ρ0' ρ1' o' hs hr _ hag
  cases hq
  cases hs
  have hrun : Run lib (extract (ofList [lateFn])) (.block Env.empty 0
      [.assign [.var 0] (num 5), .assign [.var 1] (num 0),
       .forr 2 (.node .tuple [num 0, num 1]) [.assign [.var 1] (var 0)] []]) _ :=
    .consN (.assign .const rfl) (.consN (.assign .const rfl) (.consN
      (.forr (.tuple (.cons .const (.cons .const .nil))) rfl
        (.eachN (.consN (.assign (.var (v := .int 5) rfl) rfl) .nilB) (.inl rfl)
          (.eachN (.consN (.assign (.var (v := .int 5) rfl) rfl) .nilB) (.inl rfl) (.eachE .nilB)))) .nilB))
  cases run_det hrun _ hr
  have := hag 1 rfl
  simp [Env.set] at this

/-- `g = 1; x = 5; if g: for x in (1, 2): pass` with a regular variable `x`: a loop in ghost code may assign a
regular variable. -/
def ghostLoopFn : Fn := proc [.assign [.var 10] (num 1), .assign [.var 0] (num 5),
  .ite (var 10) [.forr 0 (.node .tuple [num 1, num 2]) [.pass] []] []]

theorem C35_ghost_loop_fails : Accepted (ofList [ghostLoopFn]) ∧ PureOk (ofList [ghostLoopFn]) ∧
    ¬ Erases lib (ofList [ghostLoopFn]) (extract (ofList [ghostLoopFn])) := by
  refine ⟨accepted_of (by decide), pureOk_of (by decide), ?_⟩
  refine not_erases (f := 0) (fn := ghostLoopFn)
    (vs := []) (ρ0 := Env.empty) (w := 0) (w' := 0) rfl rfl rfl
    (.consN (.assign .const rfl) (.consN (.assign .const rfl) (.consN
      (.iteT (.var (v := .int 1) rfl) rfl (.consN (.forr (.tuple (.cons .const (.cons .const .nil))) rfl
        (.eachN (.consN .pass .nilB) (.inl rfl) (.eachN (.consN .pass .nilB) (.inl rfl) (.eachE .nilB)))) .nilB)) .nilB))) ?_
  intro fn' hq ρ0' ρ1' o' hs hr _ hag
  cases hq
  cases hs
  have hrun : Run lib (extract (ofList [ghostLoopFn])) (.block Env.empty 0 [.assign [.var 0] (num 5)]) _ :=
    .consN (.assign .const rfl) .nilB
  cases run_det hrun _ hr
  have := hag 0 rfl
  simp [Env.set] at this

/-- `x = g = 5` is accepted, but the extraction fails. -/
def chain : Prog := ofList [proc [.assign [.var 0, .var 10] (num 5)]]

theorem C35_extraction_fails : Accepted chain ∧ PureOk chain ∧ extract chain 0 = none ∧ ¬ Erases lib chain (extract chain) := by
  refine ⟨accepted_of (by decide), pureOk_of (by decide), rfl, ?_⟩
  intro h
  obtain ⟨fn', hq, _⟩ := h 0 _ rfl rfl
  cases hq

/-- `def h(x: int, g: GInt) -> int: return x` -/
def second : Fn := ⟨false, false, [0, 10], late, .reg, [.ret (some (var 0))]⟩
/-- `def f(x: int) -> int: return x` -/
def ident : Fn := ⟨false, false, [0], late, .reg, [.ret (some (var 0))]⟩

/-- `y = f(h(1, 2))`, where the second parameter of `h` is ghost, remains as it is, but `h` loses its
parameter. -/
def nestedFn : Fn := proc [.assign [.var 0] (callE 1 [callE 2 [num 1, num 2]])]

theorem C35_nested_call_fails : Accepted (ofList [nestedFn, ident, second]) ∧ PureOk (ofList [nestedFn, ident, second]) ∧
    ¬ Erases lib (ofList [nestedFn, ident, second]) (extract (ofList [nestedFn, ident, second])) := by
  refine ⟨accepted_of (by decide), pureOk_of (by decide), ?_⟩
  refine not_erases (f := 0) (fn := nestedFn) (vs := []) (ρ0 := Env.empty) (w := 0) (w' := 0) rfl rfl rfl
    (.consN (.assign (.call (.cons (.call (.cons .const (.cons .const .nil)) rfl rfl
      (.consJ (.ret (.var (v := .int 1) rfl)) (by simp)) rfl) .nil) rfl rfl
      (.consJ (.ret (.var (v := .int 1) rfl)) (by simp)) rfl) rfl) .nilB) ?_
  have hstuck : ∀ ρ w r, ¬ Run lib (extract (ofList [nestedFn, ident, second])) (.expr ρ w (callE 2 [num 1, num 2])) r := by
    intro ρ w r h
    cases h with
    | call ha hf hs _ _ =>
      cases hf
      cases ha with
      | cons h1 h2 => cases h2 with | cons h3 h4 => cases h4; cases hs
  intro fn' hq ρ0' ρ1' o' hs hr _ _
  cases hq
  cases hr with
  | consN h1 _ =>
    cases h1 with
    | assign h2 _ => cases h2 with | call h3 _ _ _ _ => cases h3 with | cons h4 _ => exact hstuck _ _ _ h4
  | consJ h1 _ => cases h1; contradiction

/-- `def main() -> GInt: return f() + 1`: the call is erased with the returned value. -/
def retGhostFn : Fn := ⟨false, false, [], late, .ghost, [.ret (some (.node (.op 0) [callE 1 [], num 1]))]⟩

theorem C35_return_fails : Accepted (ofList [retGhostFn, noisy]) ∧ PureOk (ofList [retGhostFn, noisy]) ∧
    ¬ Erases lib (ofList [retGhostFn, noisy]) (extract (ofList [retGhostFn, noisy])) := by
  refine ⟨accepted_of (by decide), pureOk_of (by decide), ?_⟩
  refine not_erases (f := 0) (fn := retGhostFn) (vs := []) (ρ0 := Env.empty) (w := 0) (w' := 1) rfl rfl rfl
    (.consJ (.ret (.op (.cons (run_noisy rfl) (.cons .const .nil)) rfl)) (by simp)) ?_
  intro fn' hq ρ0' ρ1' o' _ hr _ _
  cases hq
  cases hr with
  | consN h1 _ => cases h1
  | consJ h1 _ => cases h1

/-- `g = x = f()`, where `f` returns a ghost value: the regular variable `x` gets it. -/
def chainCallFn : Fn := proc [.assign [.var 10, .var 0] (callE 1 [])]

/-- `def f() -> GInt: return 1` -/
def ghostOne : Fn := ⟨false, false, [], late, .ghost, [.ret (some (num 1))]⟩

theorem C35_chained_call_fails : Accepted (ofList [chainCallFn, ghostOne]) ∧ PureOk (ofList [chainCallFn, ghostOne]) ∧
    ¬ Erases lib (ofList [chainCallFn, ghostOne]) (extract (ofList [chainCallFn, ghostOne])) := by
  refine ⟨accepted_of (by decide), pureOk_of (by decide), ?_⟩
  refine not_erases (f := 0) (fn := chainCallFn) (vs := []) (ρ0 := Env.empty) (w := 0) (w' := 0) rfl rfl rfl
    (.consN (.assign (.call .nil rfl rfl (.consJ (.ret .const) (by simp)) rfl) rfl) .nilB) ?_
  intro fn' hq ρ0' ρ1' o' hs hr _ hag
  cases hq
  cases hs
  have hrun : Run lib (extract (ofList [chainCallFn, ghostOne])) (.block Env.empty 0 [.assign [.var 0] (callE 1 [])]) _ :=
    .consN (.assign (.call .nil rfl rfl (.consJ .retN (by simp)) rfl) rfl) .nilB
  cases run_det hrun _ hr
  have := hag 0 rfl
  simp [Env.set] at this

/-- `def main() -> Tuple[int, GInt]: return 5, f()` with an impure `f` remains as it is, so the extracted function
returns a tuple and not 5. -/
def mixedCallFn : Fn := ⟨false, false, [], late, .mixed, [.ret (some (.node .tuple [num 5, callE 1 []]))]⟩

theorem C35_mixed_return_fails : Accepted (ofList [mixedCallFn, noisy]) ∧ PureOk (ofList [mixedCallFn, noisy]) ∧
    ¬ Erases lib (ofList [mixedCallFn, noisy]) (extract (ofList [mixedCallFn, noisy])) := by
  refine ⟨accepted_of (by decide), pureOk_of (by decide), ?_⟩
  refine not_erases (f := 0) (fn := mixedCallFn) (vs := []) (ρ0 := Env.empty) (w := 0) (w' := 1) rfl rfl rfl
    (.consJ (.ret (.tuple (.cons .const (.cons (run_noisy rfl) .nil)))) (by simp)) ?_
  intro fn' hq ρ0' ρ1' o' hs hr ho _
  cases hq
  cases hs
  have hrun : Run lib (extract (ofList [mixedCallFn, noisy])) (.block Env.empty 0
      [.ret (some (.node .tuple [num 5, callE 1 []]))]) _ :=
    .consJ (.ret (.tuple (.cons .const (.cons (.call .nil rfl rfl
      (.consN (.exprS (.prim .nil rfl)) (.consJ (.ret .const) (by simp))) rfl) .nil)))) (by simp)
  cases run_det hrun _ hr
  simp [OutRel, RetRel, mixedCallFn] at ho

/-- `x, = h((1,), 2)`, where the second parameter of `h` is ghost, becomes `x = h((1,))`. -/
def singleFn : Fn := proc [.assign [.tup [0]] (callE 1 [.node .tuple [num 1], num 2])]

theorem C35_single_target_fails : Accepted (ofList [singleFn, second]) ∧ PureOk (ofList [singleFn, second]) ∧
    ¬ Erases lib (ofList [singleFn, second]) (extract (ofList [singleFn, second])) := by
  refine ⟨accepted_of (by decide), pureOk_of (by decide), ?_⟩
  refine not_erases (f := 0) (fn := singleFn) (vs := []) (ρ0 := Env.empty) (w := 0) (w' := 0) rfl rfl rfl
    (.consN (.assign (v := .tup [.int 1]) (.call (.cons (.tuple (.cons .const .nil)) (.cons .const .nil)) rfl rfl
      (.consJ (.ret (.var rfl)) (by simp)) rfl) rfl) .nilB) ?_
  intro fn' hq ρ0' ρ1' o' hs hr _ hag
  cases hq
  cases hs
  have hrun : Run lib (extract (ofList [singleFn, second])) (.block Env.empty 0
      [.assign [.var 0] (callE 1 [.node .tuple [num 1]])]) _ :=
    .consN (.assign (v := .tup [.int 1]) (.call (.cons (.tuple (.cons .const .nil)) .nil) rfl rfl
      (.consJ (.ret (.var rfl)) (by simp)) rfl) rfl) .nilB
  cases run_det hrun _ hr
  have := hag 0 rfl
  simp [Env.set] at this

/-- The claim does not hold for all accepted programs. -/
theorem C35_fails : ¬ C35_statement :=
  fun h => C35_call_statement_fails.2.2 (h Nat lib dropCall C35_call_statement_fails.1 C35_call_statement_fails.2.1)

end Nagini.Ghost
