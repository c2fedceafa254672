import Mathlib.Data.List.Count
import Mathlib.Algebra.Group.Even
import Mathlib.Algebra.Ring.Parity

/-!
The Viper statements that occur around threads and what they do, what threads do in Python, and how Python binds the
arguments of the constructor of threads.
-/
namespace Nagini.ThreadArgs

/-! ### Viper -/

/-- What the uninterpreted functions `getMethod` and `getArg` are for the (fresh) thread object. -/
structure Ghost (V : Type) where
  meth : Nat
  arg : Nat → V

/-- Full permissions held to `MayStart` and `ThreadPost` of the thread. -/
structure St where
  start : Nat
  post : Nat
  deriving DecidableEq

/-- Statements; `E` are the values of everything that is not related to the thread. -/
inductive Cmd (E V : Type) where
  | skip
  | assert (p : E → Ghost V → Prop)
  | assume (p : E → Ghost V → Prop)
  | giveStart
  | takeStart
  | givePost (p : E → Ghost V → Prop)
  | seq (a b : Cmd E V)
  | ifThen (c : E → Ghost V → Prop) (b : Cmd E V)

variable {E V : Type}

/-- The statement can end in the second state. -/
def Ends (e : E) (G : Ghost V) : Cmd E V → St → St → Prop
  | .skip, s, s' => s' = s
  | .assert p, s, s' => p e G ∧ s' = s
  | .assume p, s, s' => p e G ∧ s' = s
  | .giveStart, s, s' => s' = ⟨s.start + 1, s.post⟩
  | .takeStart, s, s' => 1 ≤ s.start ∧ s' = ⟨s.start - 1, s.post⟩
  | .givePost p, s, s' => (p e G ∧ s' = ⟨s.start, s.post + 1⟩) ∨ (¬ p e G ∧ s' = s)
  | .seq a b, s, s' => ∃ m, Ends e G a s m ∧ Ends e G b m s'
  | .ifThen c b, s, s' => (c e G ∧ Ends e G b s s') ∨ (¬ c e G ∧ s' = s)

/-- The statement can fail. -/
def Fails (e : E) (G : Ghost V) : Cmd E V → St → Prop
  | .skip, _ => False
  | .assert p, _ => ¬ p e G
  | .assume _, _ => False
  | .giveStart, _ => False
  | .takeStart, s => ¬ 1 ≤ s.start
  | .givePost _, _ => False
  | .seq a b, s => Fails e G a s ∨ ∃ m, Ends e G a s m ∧ Fails e G b m
  | .ifThen c b, s => c e G ∧ Fails e G b s

/-- Viper verifies a statement: it fails for no values and no interpretation of the functions. -/
def Verified (c : Cmd E V) : Prop := ∀ e G, ¬ Fails e G c ⟨0, 0⟩

/-! ### Python -/

/-- What is relevant about a method: the types of its parameters, its precondition, and the condition under which it
promises to terminate. -/
structure Meth (V : Type) where
  params : List (V → Prop)
  pre : List V → Prop
  term : List V → Prop

/-- The values of the arguments. -/
def vals (args : List (E → V)) (e : E) : List V := args.map (· e)

/-- Every argument has the type of its parameter. -/
def TypesOk (ps : List (V → Prop)) (vs : List V) : Prop := List.Forall₂ (fun P v => P v) ps vs

open Classical in
/-- How many arguments do not have the type of their parameter. -/
noncomputable def wrong (ps : List (V → Prop)) (vs : List V) : Nat :=
  ((ps.zip vs).filter (fun x => ¬ x.1 x.2)).length

/-- What a user wants to know about a thread that is created with arguments `args` for method `m`, started for each element
of `starts`, followed by an assertion: arguments have the right types, the thread is started at most once (Python raises a
`RuntimeError` otherwise), the precondition holds if it is started, and the assertion holds. -/
def Safe (m : Meth V) (args : List (E → V)) (starts : List (List Nat)) (Q : E → Prop) : Prop :=
  ∀ e, TypesOk m.params (vals args e) ∧ starts.length ≤ 1 ∧ (starts ≠ [] → m.pre (vals args e)) ∧ Q e

/-- What is checked for values `vs` of the arguments of `m`, which is method `t`. -/
def Checked (m : Meth V) (t : Nat) (vs : List V) (Q : Prop) : List (List Nat) → Prop
  | [] => Even (wrong m.params vs) ∧ Q
  | o :: r => Even (wrong m.params vs) ∧ t ∈ o ∧ (TypesOk m.params vs → m.pre vs ∧ r = [] ∧ Q)

/-! ### Arguments of the constructor -/

/-- The parameters of the constructor of `Thread`. -/
inductive Kw
  | group | target | name | args | kwargs | daemon
  deriving DecidableEq

/-- The position of a parameter. -/
def Kw.pos : Kw → Nat
  | .group => 0
  | .target => 1
  | .name => 2
  | .args => 3
  | .kwargs => 4
  | .daemon => 5

/-- Python binds a parameter to the positional argument, or else to the keyword argument with its name. -/
def binds {X : Type} (pos : List X) (kws : List (Kw × X)) (k : Kw) : Option X :=
  match pos[k.pos]? with
  | some x => some x
  | none => kws.lookup k

end Nagini.ThreadArgs
