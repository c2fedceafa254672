import Verif.Spec.Prob

/-!
Specification for C143: termination of Python programs, and the trusted meaning of `Low` and
`LowEvent` in the product of two executions.

Product: as for C117 (Spec/Prob.lean).  `assert LowEvent()` says that both executions get there: it
fails if exactly one of them is active.
-/
namespace Nagini.Poss

open Prob (Prod ploop)

variable {σ : Type}

/-- Python statements.  Conditions and effects are arbitrary functions of the state.

* `act`: anything that terminates;
* `while`, `forEach` (`start` creates the iterator, `next` advances it and assigns the target, `stop`
  tells whether it was exhausted): loops without `TerminatesSif`;
* `call`: a call of method `m`;
* `check`: the contract statement `Assert(Low(c))`. -/
inductive Stmt (σ : Type) where
  | act (f : σ → σ)
  | seq (a b : Stmt σ)
  | ite (c : σ → Bool) (a b : Stmt σ)
  | while (c : σ → Bool) (b : Stmt σ)
  | forEach (start next : σ → σ) (stop : σ → Bool) (b : Stmt σ)
  | call (m : Nat)
  | check (c : σ → Bool)

/-- The methods of a program: their bodies, and whether they have the precondition `LowEvent()`. -/
structure Prog (σ : Type) where
  body : Nat → Stmt σ
  event : Nat → Bool

/-- A loop: the condition is evaluated before each iteration; `none` if the fuel is used up. -/
def loop : Nat → (σ → Bool) → (σ → Option σ) → σ → Option σ
  | 0, _, _, _ => none
  | n + 1, c, b, s => if c s then (b s).bind (loop n c b) else some s

/-- Python's execution of a statement with fuel `n` for each loop, where `rec` executes methods. -/
def runWith (rec : Nat → σ → Option σ) (n : Nat) : Stmt σ → σ → Option σ
  | .act f, s => some (f s)
  | .seq a b, s => (runWith rec n a s).bind (runWith rec n b)
  | .ite c a b, s => if c s then runWith rec n a s else runWith rec n b s
  | .while c b, s => loop n c (runWith rec n b) s
  | .forEach start next stop b, s =>
      loop n (fun s => !stop s) (fun s => (runWith rec n b s).map next) (next (start s))
  | .call m, s => rec m s
  | .check _, s => some s

/-- Execution of a method with fuel. -/
def callRun (P : Prog σ) : Nat → Nat → σ → Option σ
  | 0, _, _ => none
  | n + 1, m, s => runWith (callRun P n) n (P.body m) s

/-- Execution of a statement with fuel. -/
def run (P : Prog σ) (n : Nat) (p : Stmt σ) (s : σ) : Option σ := runWith (callRun P n) n p s

/-- The execution of a statement from a state terminates. -/
def Terminates (P : Prog σ) (p : Stmt σ) (s : σ) : Prop := ∃ n s', run P n p s = some s'

/-! ### Products -/

/-- Statements of the generated program. -/
inductive T (σ : Type) where
  | act (f : σ → σ)
  | seq (a b : T σ)
  | assertLow (c : σ → Bool)
  | assertEvent
  | ite (c : σ → Bool) (a b : T σ)
  | while (c : σ → Bool) (b : T σ)
  | call (m : Nat)

/-- The product of two executions, where `rec` is the product of the executions of methods. -/
def prodWith (rec : Nat → Option σ → Option σ → Prod σ) (n : Nat) :
    T σ → Option σ → Option σ → Prod σ
  | .act f, x, y => .ok (x.map f) (y.map f)
  | .seq a b, x, y => (prodWith rec n a x y).bind (prodWith rec n b)
  | .assertLow c, some x, some y => if c x = c y then .ok (some x) (some y) else .fail
  | .assertLow _, x, y => .ok x y
  | .assertEvent, some _, none => .fail
  | .assertEvent, none, some _ => .fail
  | .assertEvent, x, y => .ok x y
  | .ite _ _ _, none, none => .ok none none
  | .ite c a b, some x, none => if c x then prodWith rec n a (some x) none else prodWith rec n b (some x) none
  | .ite c a b, none, some y => if c y then prodWith rec n a none (some y) else prodWith rec n b none (some y)
  | .ite c a b, some x, some y =>
      if c x then
        if c y then prodWith rec n a (some x) (some y)
        else (prodWith rec n a (some x) none).bind fun x' _ =>
          (prodWith rec n b none (some y)).bind fun _ y' => .ok x' y'
      else
        if c y then (prodWith rec n a none (some y)).bind fun _ y' =>
          (prodWith rec n b (some x) none).bind fun x' _ => .ok x' y'
        else prodWith rec n b (some x) (some y)
  | .while c b, x, y => ploop n c (prodWith rec n b) x y
  | .call m, x, y => rec m x y

/-- The product of two executions of a method; the body takes the place of the contract. -/
def callProd (body : Nat → T σ) : Nat → Nat → Option σ → Option σ → Prod σ
  | 0, _, _, _ => .out
  | n + 1, m, x, y => prodWith (callProd body n) n (body m) x y

/-- The verifier accepts a statement for two initial states. -/
def Accepted (body : Nat → T σ) (t : T σ) (x y : σ) : Prop :=
  ∀ n, prodWith (callProd body n) n t (some x) (some y) ≠ .fail

/-- Statements in which the condition of every `while` loop is asserted to be low at the end of its
body, which is what the invariant `Low(c)` does. -/
inductive Checked : Stmt σ → Prop where
  | act (f : σ → σ) : Checked (.act f)
  | seq {a b} : Checked a → Checked b → Checked (.seq a b)
  | ite {c a b} : Checked a → Checked b → Checked (.ite c a b)
  | while {c b} : Checked b → Checked (.while c (.seq b (.check c)))
  | forEach {start next stop b} : Checked b → Checked (.forEach start next stop b)
  | call (m : Nat) : Checked (.call m)
  | check (c : σ → Bool) : Checked (.check c)

end Nagini.Poss
