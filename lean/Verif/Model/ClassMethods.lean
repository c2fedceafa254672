import Verif.Model.Overrides

/-!
Model of the creation of objects by `cls(...)` in class methods (translators/call.py) and of the checks
of overriding `__init__` methods (translators/program.py).
Simplified: the arguments of the call are part of the state; the state before the call contains the
permissions to create the fields of the new object (`MaySet`), which the translation provides for all
contracts involved (translators/call.py:1802-1806, translators/method.py:434-447,
translators/program.py:335-338).  Not modelled: the number of arguments, declared exceptions.
-/
set_option linter.unusedVariables false
namespace Nagini.ClassMethods

open Classes
open Overrides (Contract overrideCheck)

/-- What the classes contain: contracts of their own `__init__` methods (written in the program, or
added to a data class), whether the latter is the case, contracts of `__post_init__` methods and whether
there is a class method.  Models `methods`, `implicit_init` and `_has_classmethod`,
lib/program_nodes.py:405-425; analyzer.py:688-734 and 872-874. -/
structure Program (S : Type) where
  init : Nat → Option (Contract S)
  implicit : Nat → Bool
  postInit : Nat → Option (Contract S)
  classmethod : Nat → Bool

variable {S : Type} (H : Hier) (P : Program S)

/-- `has_classmethod`: the class or one of its superclasses contains a class method.
Models lib/program_nodes.py:667-673. -/
def hasClassmethod (c : Nat) : Bool :=
  if P.classmethod c then true
  else match h : H.sup c with
    | none => false
    | some p => hasClassmethod p
termination_by H.depth c
decreasing_by exact H.depth_lt c p h

/-- The check of the `__init__` method of class `c`: there is one only if the superclass has class
methods and itself contains an `__init__` method.
Models translators/program.py:1440-1447 (for `__init__`) and lib/program_nodes.py:1139-1152. -/
def initAccepted (recv : S → Nat) (c : Nat) : Prop :=
  match P.init c, H.sup c with
  | some k, some p =>
    if hasClassmethod H P p then
      match P.init p with
      | some k' => overrideCheck H recv c k k'
      | none => True
    else True
  | _, _ => True

/-- The check of the `__post_init__` method of class `c`, an ordinary method.
Models translators/program.py:1440-1447 and lib/program_nodes.py:1139-1152. -/
def postInitAccepted (recv : S → Nat) (c : Nat) : Prop :=
  match P.postInit c, H.sup c with
  | some k, some p =>
    match P.postInit p with
    | some k' => overrideCheck H recv c k k'
    | none => True
  | _, _ => True

/-- All classes are accepted.  Models the loop over classes, translators/program.py:1406-1447. -/
def accepted (recv : S → Nat) : Prop :=
  ∀ c, initAccepted H P recv c ∧ postInitAccepted H P recv c

/-- The effect of `cls(...)` in a class method of class `a`: a call of the `__init__` method that class
`a` has or inherits; nothing if there is none.  Models translators/call.py:1785-1838 (a call of a Viper
method: its precondition is asserted, its postcondition is assumed). -/
def clsCall (a : Nat) : Contract S :=
  match lookup H P.init a with
  | some k => k
  | none => ⟨fun _ => True, fun s s' => s' = s⟩

end Nagini.ClassMethods
