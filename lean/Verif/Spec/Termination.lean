import Verif.Model.Termination
import Mathlib.Data.List.Chain
/-!
Executions of verified programs, as far as termination is concerned.
-/
namespace Nagini.Termination

/-- A contract promises termination (in the given state). -/
def Active (is : List Inst) : Prop := ∃ i ∈ is, i.term = true ∧ i.guard = true

/-- A loop in progress: the states at the beginning of the iterations so far; all of them
satisfied the loop condition and the invariant and passed the checks. -/
structure LoopRun (ct : Nat) (held : Nat) where
  first : LoopState
  later : List LoopState
  leakFree : Bool
  entry : loopEntry ct held leakFree first = true
  wf : ∀ s ∈ first :: later, ∀ i ∈ s.insts, i.wf ct = true
  cond : ∀ s ∈ first :: later, s.cond = true
  ends : List.IsChain (fun s s' => loopEnd ct (loopFlag ct first) s s' = true) (first :: later)

/-- The permission to `MustTerminate` in the current iteration. -/
def LoopRun.held {ct h : Nat} (l : LoopRun ct h) : Nat :=
  inhaled ((l.first :: l.later).getLast (by simp)).insts

/-- A place in a method body: inside of nested loops.  The first number is the permission at
the beginning of the body, the second one the permission at the place. -/
inductive Site (ct : Nat) : Nat → Nat → Prop
  | body (h : Nat) : Site ct h h
  | loop {h h' : Nat} (l : LoopRun ct h) : Site ct l.held h' → Site ct h h'

/-- An activation of a method: the evaluated obligations of its contract, and whether the body
is the one verified in the check for inherited methods (`create_inherit_check`). -/
structure Frame where
  insts : List Inst
  inherited : Bool

/-- Contracts of a method and of methods overriding it, one after the other. -/
inductive Overrides (ct : Nat) : List Inst → List Inst → Prop
  | refl (is : List Inst) : Overrides ct is is
  | step {a b c : List Inst} (leakFree : Bool) : Overrides ct a b →
      (∀ i ∈ c, i.wf ct = true) → overrideCheck ct leakFree b c = true → Overrides ct a c

/-- A call in a verified program: `f` makes the call somewhere in its body; the check for the
statically known method (with obligations `stat`) succeeds; the method executed, `g`, is that
method or overrides it, possibly through several classes. -/
def Calls (ct : Nat) (f g : Frame) : Prop :=
  ∃ held leakFree stat, Site ct (inhaled f.insts) held ∧ (∀ i ∈ stat, i.wf ct = true) ∧
    callCheck (initMap f.inherited f.insts) ct held leakFree (.python stat) = true ∧
    positive stat = true ∧ Overrides ct stat g.insts

end Nagini.Termination
