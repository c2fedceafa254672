/-
Specification for C117: the decisions Python takes while it executes a program, and the trusted
meaning of `Low` in the product of two executions.

Python: a statement is executed from a state; the result is the list of all decisions (which branch
of a condition, which class's method, whether a loop goes on) and the final state.  Loops are given
fuel; without fuel the decisions taken so far remain.

Product: Silver's extension for information flow (Scala code outside /repo) executes a method twice.
Each execution is active or not; an execution is inactive inside branches it does not take and after
it left a loop.  `assert Low(e)` compares the values of `e` of both executions if both are active.
-/

namespace Nagini.Prob

variable {σ : Type}

/-- Python statements, by the decisions they take.  Conditions, classes and effects are arbitrary
functions of the state.

* `act`: no decision is taken;
* `ite`: an `if` statement or a conditional expression with its parts;
* `circuit`: `x and y` (`conj`) or `x or y`, where `first` is the truth value of `x`, `rest` evaluates
  `y` and `last` is its truth value;
* `while`, `forEach` (`start` creates the iterator, `next` advances it, assigns the target, and
  `stop` tells whether it was exhausted);
* `case`: a `match` statement whose first case matches if `c`;
* `call`: a method is called on an object of class `cls`, `m` has the methods of all classes;
* `union`: the same on a variable whose type is a union; `opt` tells which type of the union it has;
* `operator`: the same where the method is called by an operator such as `+`;
* `comp`: a list comprehension over `n` elements; `keep` has the filter's value for each element, if
  there is a filter;
* `pureIf`: a pure function whose body is a conditional;
* `check`: the contract statement `Assert(Low(e))`. -/
inductive Stmt (σ : Type) where
  | act (f : σ → σ)
  | seq (a b : Stmt σ)
  | ite (c : σ → Bool) (a b : Stmt σ)
  | circuit (conj : Bool) (first : σ → Bool) (rest : Stmt σ) (last : σ → Bool)
  | while (c : σ → Bool) (b : Stmt σ)
  | forEach (start next : σ → σ) (stop : σ → Bool) (b : Stmt σ)
  | case (c : σ → Bool) (a rest : Stmt σ)
  | call (cls : σ → Nat) (m : Nat → Stmt σ)
  | union (opt cls : σ → Nat) (m : Nat → Stmt σ)
  | operator (cls : σ → Nat) (m : Nat → Stmt σ)
  | comp (n : σ → Nat) (keep : Option (σ → Nat → Bool)) (f : σ → σ)
  | pureIf (c : σ → Bool) (f g : σ → σ)
  | check (e : σ → Nat)

/-- Decisions taken and final state. -/
abbrev Res (σ : Type) := List Nat × Option σ

/-- One thing after another. -/
def Res.bind (r : Res σ) (f : σ → Res σ) : Res σ :=
  match r.2 with
  | none => (r.1, none)
  | some s => (r.1 ++ (f s).1, (f s).2)

/-- A loop: the condition is evaluated before each iteration. -/
def loop : Nat → (σ → Bool) → (σ → Res σ) → σ → Res σ
  | 0, _, _, _ => ([], none)
  | n + 1, c, b, s =>
    if c s then Res.bind ([1], some s) fun s => (b s).bind (loop n c b) else ([0], some s)

/-- The decisions of a comprehension: after each element one more is taken or not, and the filter
is applied to it. -/
def compDecisions (k : Nat) (keep : Option (Nat → Bool)) : List Nat :=
  (List.range k).flatMap (fun i => match keep with
    | none => [1]
    | some p => [1, (p i).toNat]) ++ [0]

/-- Python's execution of a statement, with fuel `n` for each loop. -/
def run (n : Nat) : Stmt σ → σ → Res σ
  | .act f, s => ([], some (f s))
  | .seq a b, s => (run n a s).bind (run n b)
  | .ite c a b, s => Res.bind ([(c s).toNat], some s) fun s => if c s then run n a s else run n b s
  | .circuit conj first rest _, s => Res.bind ([(first s).toNat], some s) fun s =>
      if first s = conj then run n rest s else ([], some s)
  | .while c b, s => loop n c (run n b) s
  | .forEach start next stop b, s =>
      loop n (fun s => !stop s) (fun s => (run n b s).bind fun s => ([], some (next s)))
        (next (start s))
  | .case c a rest, s =>
      Res.bind ([(c s).toNat], some s) fun s => if c s then run n a s else run n rest s
  | .call cls m, s => Res.bind ([cls s], some s) fun s => run n (m (cls s)) s
  | .union _ cls m, s => Res.bind ([cls s], some s) fun s => run n (m (cls s)) s
  | .operator cls m, s => Res.bind ([cls s], some s) fun s => run n (m (cls s)) s
  | .comp k keep f, s => (compDecisions (k s) (keep.map fun p => p s), some (f s))
  | .pureIf c f g, s => ([(c s).toNat], some (if c s then f s else g s))
  | .check _, s => ([], some s)

/-! ### Products -/

/-- Statements of the generated program. -/
inductive T (σ : Type) where
  | act (f : σ → σ)
  | seq (a b : T σ)
  | assertLow (e : σ → Nat)
  | switch (d : σ → Nat) (m : Nat → T σ)
  | while (c : σ → Bool) (b : T σ)

/-- Result of the product: out of fuel, an assertion failed, or the states of the executions, where
an inactive execution has none. -/
inductive Prod (σ : Type) where
  | out
  | fail
  | ok (x y : Option σ)

/-- One thing after another. -/
def Prod.bind (r : Prod σ) (f : Option σ → Option σ → Prod σ) : Prod σ :=
  match r with
  | .out => .out
  | .fail => .fail
  | .ok x y => f x y

/-- A loop of the product goes on while one of the executions does; the other one waits. -/
def ploop : Nat → (σ → Bool) → (Option σ → Option σ → Prod σ) → Option σ → Option σ → Prod σ
  | 0, _, _, _, _ => .out
  | n + 1, c, b, x, y =>
    let x' := x.filter c
    let y' := y.filter c
    if x'.isNone && y'.isNone then .ok x y
    else (b x' y').bind fun x'' y'' =>
      ploop n c b (if x'.isSome then x'' else x) (if y'.isSome then y'' else y)

/-- The product of two executions. -/
def prod (n : Nat) : T σ → Option σ → Option σ → Prod σ
  | .act f, x, y => .ok (x.map f) (y.map f)
  | .seq a b, x, y => (prod n a x y).bind (prod n b)
  | .assertLow e, some x, some y => if e x = e y then .ok (some x) (some y) else .fail
  | .assertLow _, x, y => .ok x y
  | .switch _ _, none, none => .ok none none
  | .switch d m, some x, none => prod n (m (d x)) (some x) none
  | .switch d m, none, some y => prod n (m (d y)) none (some y)
  | .switch d m, some x, some y =>
      if d x = d y then prod n (m (d x)) (some x) (some y)
      else (prod n (m (d x)) (some x) none).bind fun x' _ =>
        (prod n (m (d y)) none (some y)).bind fun _ y' => .ok x' y'
  | .while c b, x, y => ploop n c (prod n b) x y

/-- The verifier accepts the program for two initial states. -/
def Accepted (t : T σ) (x y : σ) : Prop := ∀ n, prod n t (some x) (some y) ≠ .fail

/-- Programs without `match`, unions, operators that call methods, filters and conditionals in pure
functions, in which every `while` loop ends with an assertion that its condition is low. -/
inductive Checked : Stmt σ → Prop where
  | act (f : σ → σ) : Checked (.act f)
  | seq {a b} : Checked a → Checked b → Checked (.seq a b)
  | ite {c a b} : Checked a → Checked b → Checked (.ite c a b)
  | circuit {conj first rest last} : Checked rest → Checked (.circuit conj first rest last)
  | while {c b} : Checked b → Checked (.while c (.seq b (.check fun s => (c s).toNat)))
  | forEach {start next stop b} : Checked b → Checked (.forEach start next stop b)
  | call {cls m} : (∀ k, Checked (m k)) → Checked (.call cls m)
  | comp {k f} : Checked (.comp k none f)
  | check {e} : Checked (.check e)

end Nagini.Prob
