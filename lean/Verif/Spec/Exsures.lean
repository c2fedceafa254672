import Verif.Spec.Classes

/-!
Contracts of methods that may raise exceptions, as written, and the outcomes they allow.
An outcome is `none` for a normal return and `some e` if the exception `e` leaves the method.
-/
namespace Nagini.Exsures

open Classes

/-- A contract: precondition, the `Ensures` and `Exsures` statements in source order, and the states
whose result has the declared type.  An assertion of an `Exsures` may mention the exception. -/
structure Method (S E : Type) where
  pre : S → Prop
  ensures : List (S → S → Prop)
  exsures : List (Nat × (S → Option E → S → Prop))
  resultOk : S → Prop

variable {S E : Type} (H : Hier) (cls : E → Nat)

/-- The contract allows to end with the outcome in state `s'` when called in `s`: a normal return
satisfies all `Ensures`; an exception is an instance of some declared class and satisfies the
assertions of all declared classes it is an instance of. -/
def Allowed (m : Method S E) (s : S) : Option E → S → Prop
  | none, s' => m.resultOk s' ∧ ∀ p ∈ m.ensures, p s s'
  | some e, s' => (∃ x ∈ m.exsures, Anc H (cls e) x.1) ∧
      ∀ x ∈ m.exsures, Anc H (cls e) x.1 → x.2 s (some e) s'

/-- A method that satisfies `sub` may be called where `sup` is expected, on receivers of class `c`. -/
def Refines (recv : S → Nat) (c : Nat) (sub sup : Method S E) : Prop :=
  ∀ s, Anc H (recv s) c → sup.pre s →
    sub.pre s ∧ ∀ o s', Allowed H cls sub s o s' → Allowed H cls sup s o s'

/-- Every class in an `Exsures` of `sub` is a subclass of one in an `Exsures` of `sup`. -/
def DeclaresLess (sub sup : Method S E) : Prop :=
  ∀ x ∈ sub.exsures, ∃ y ∈ sup.exsures, Anc H x.1 y.1

end Nagini.Exsures
