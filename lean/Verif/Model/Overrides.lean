import Verif.Model.Classes

/-!
Model of the treatment of overridden methods and functions (translators/program.py), for one name.
Contracts are a precondition and a postcondition over arbitrary states; a state contains the dynamic
class of the receiver.  An exceptional outcome is part of the state after the call.
Not modelled: the comparison of parameter names, default values and declared exceptions
(translators/program.py:379-397, 421-431).
-/
set_option linter.unusedVariables false
namespace Nagini.Overrides

open Classes

/-- A contract: precondition, and postcondition relating the states before and after the call.
Models the result of `extract_contract`, translators/program.py:315. -/
structure Contract (S : Type) where
  pre : S → Prop
  post : S → S → Prop

/-- What a class contains under the name: an impure method with its contract, or a pure function
with its value.  Models the dictionaries `methods` and `functions`, lib/program_nodes.py:734-744. -/
inductive Member (S V : Type)
  | method (c : Contract S)
  | function (f : S → V)

variable {S V : Type} (H : Hier) (own : Nat → Option (Member S V))

/-- `overrides` of the member of class `c`: what the *direct* superclass contains.
Models lib/program_nodes.py:1139-1152. -/
def overrides (c : Nat) : Option (Member S V) :=
  match H.sup c with
  | none => none
  | some p => own p

/-- The check method verifies: it has the contract of the overridden method, assumes that the receiver
is an instance of `c` and calls the overriding method.
Models translators/program.py:283-351 and 398-413. -/
def overrideCheck (recv : S → Nat) (c : Nat) (sub sup : Contract S) : Prop :=
  ∀ s, Anc H (recv s) c → sup.pre s → sub.pre s ∧ ∀ s', sub.post s s' → sup.post s s'

/-- The translation of the member of class `c` raises no exception and its override check, if there
is one, verifies.  A function must not override anything (`exempt`: the special names that may,
translators/program.py:1425-1427); methods and functions must not override each other.
Models translators/program.py:1418-1447 and 432-437 (for a name other than `__init__`). -/
def classAccepted (recv : S → Nat) (exempt : Bool) (c : Nat) : Prop :=
  match own c with
  | none => True
  | some (.function _) => exempt = true ∨ (overrides H own c).isNone = true
  | some (.method m) =>
    match overrides H own c with
    | none => True
    | some (.method m') => overrideCheck H recv c m m'
    | some (.function _) => False

/-- All classes are accepted.  Models the loop over classes, translators/program.py:1406-1447. -/
def accepted (recv : S → Nat) (exempt : Bool) : Prop := ∀ c, classAccepted H own recv exempt c

end Nagini.Overrides
