import Verif.Model.Ops

/-!
Binary operators in Python (language reference, 3.3.8 "Emulating numeric types"): the reflected method
of the right operand is tried first if its class is a proper subclass of the class of the left operand
and provides a different implementation; otherwise the method of the left operand is tried first, and
the reflected one only if the classes differ.  A method that does not accept the class of the other
operand returns `NotImplemented`.
-/
namespace Nagini.Ops

open Classes

variable (H : Hier) (D : Members)

/-- The methods of one class, whichever dictionary they are in. -/
def own (funcs methods : Nat → Option Meth) (c : Nat) : Option Meth :=
  match methods c with
  | some m => some m
  | none => funcs c

/-- The method `m` accepts an operand of class `d`. -/
def Takes (m : Meth) (d : Nat) : Prop := ∃ s p, m.params = [s, p] ∧ ∃ c ∈ p, Anc H d c

/-- `m` is what `type(left).__op__` is. -/
def LeftOp (L : Nat) (m : Meth) : Prop := Nearest H (own D.lfuncs D.lmethods) L m

/-- `m` is what `type(right).__rop__` is. -/
def RightOp (R : Nat) (m : Meth) : Prop := Nearest H (own D.rfuncs D.rmethods) R m

/-- The right operand is tried first. -/
def RightPriority (L R : Nat) : Prop :=
  L ≠ R ∧ Anc H R L ∧ ∃ m, RightOp H D R m ∧ ¬ RightOp H D L m

/-- Python gets the value of `left op right` from this method. -/
inductive PyCalls (L R : Nat) : Choice → Prop
  | left {m : Meth} (hm : LeftOp H D L m) (ht : Takes H m R)
      (hr : RightPriority H D L R → ∀ m', RightOp H D R m' → ¬ Takes H m' L) : PyCalls L R (.left m)
  | right {m : Meth} (hne : L ≠ R) (hm : RightOp H D R m) (ht : Takes H m L)
      (hl : RightPriority H D L R ∨ ∀ m', LeftOp H D L m' → ¬ Takes H m' R) : PyCalls L R (.right m)

/-- Members as the analyzer stores them: every method knows its class, has two parameters, the first
of which is the receiver, and no class contains a name both as function and as method. -/
structure Members.Wf (D : Members) : Prop where
  lf : ∀ c m, D.lfuncs c = some m → m.cls = c ∧ ∃ p, m.params = [[c], p]
  lm : ∀ c m, D.lmethods c = some m → m.cls = c ∧ ∃ p, m.params = [[c], p]
  rf : ∀ c m, D.rfuncs c = some m → m.cls = c ∧ ∃ p, m.params = [[c], p]
  rm : ∀ c m, D.rmethods c = some m → m.cls = c ∧ ∃ p, m.params = [[c], p]

/-- No class redefines a pure function of a superclass by a method (or the other way round), so that
the order of the two dictionaries does not matter. -/
def Members.Unmixed (D : Members) : Prop :=
  (∀ c d, Anc H c d → ∀ f m, ¬ (D.lfuncs d = some f ∧ D.lmethods c = some m)) ∧
  (∀ c d, Anc H c d → ∀ f m, ¬ (D.rfuncs d = some f ∧ D.rmethods c = some m))

end Nagini.Ops
