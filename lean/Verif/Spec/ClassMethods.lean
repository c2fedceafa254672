import Verif.Model.ClassMethods

/-!
What Python runs when an object is created.
-/
namespace Nagini.ClassMethods

open Classes
open Overrides (Contract)

variable {S : Type} (H : Hier) (P : Program S)

/-- Running one method after another. -/
def Contract.andThen (k q : Contract S) : Contract S :=
  ⟨fun s => k.pre s ∧ ∀ s1, k.post s s1 → q.pre s1, fun s s' => ∃ s1, k.post s s1 ∧ q.post s1 s'⟩

/-- The nearest `__init__` method of class `d` is `k` in class `d0`. -/
def InitAt (d d0 : Nat) (k : Contract S) : Prop :=
  Anc H d d0 ∧ P.init d0 = some k ∧ ∀ e, Anc H d e → Anc H e d0 → e ≠ d0 → P.init e = none

/-- The `__init__` method of class `d0` calls `__post_init__`: it was added to a data class that has
or inherits such a method. -/
def CallsPost (d0 : Nat) : Prop :=
  P.implicit d0 = true ∧ ∃ e, Anc H d0 e ∧ P.postInit e ≠ none

/-- Creating an object of class `d` runs `k`. -/
inductive Runs (d : Nat) : Contract S → Prop
  | nothing : (∀ e, Anc H d e → P.init e = none) → Runs d ⟨fun _ => True, fun s s' => s' = s⟩
  | init {d0 : Nat} {k : Contract S} : InitAt H P d d0 k → ¬ CallsPost H P d0 → Runs d k
  | post {d0 : Nat} {k q : Contract S} : InitAt H P d d0 k → CallsPost H P d0 →
      Nearest H P.postInit d q → Runs d (Contract.andThen k q)

/-- Whatever class a class method of `a` is called on, reasoning with `known a` about the objects it
creates is correct: what runs may be run, and has only the effects that are known. -/
def CreationSound (recv : S → Nat) (known : Nat → Contract S) : Prop :=
  ∀ s a k, P.classmethod a = true → Anc H (recv s) a → Runs H P (recv s) k →
    (known a).pre s → k.pre s ∧ ∀ s', k.post s s' → (known a).post s s'

/-- Below a class with a class method, a class contains an `__init__` method but its direct superclass
does not. -/
def Hole (inits classmethods : Nat → Prop) : Prop :=
  ∃ a p c, classmethods a ∧ H.sup c = some p ∧ Anc H p a ∧ inits c ∧ ¬ inits p

/-- Objects created by a class method are initialised by an `__init__` method that calls
`__post_init__`. -/
def PostInitRuns (inits implicit posts classmethods : Nat → Prop) : Prop :=
  ∃ a d d0 e, classmethods a ∧ Anc H d a ∧ Anc H d d0 ∧ inits d0 ∧
    (∀ e', Anc H d e' → Anc H e' d0 → e' ≠ d0 → ¬ inits e') ∧ implicit d0 ∧ Anc H d0 e ∧ posts e

end Nagini.ClassMethods
