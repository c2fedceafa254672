import Verif.Model.Guards
/-!
Meaning of assertions, without reference to guards.
-/
namespace Nagini.Guards

/-- The truth value of an assertion in a state (obligations are assertions about permissions:
they count as true here). -/
def A.val (σ : Nat → Bool) : A → Bool
  | .atom x => σ x
  | .obl _ => true
  | .sif _ _ => true
  | .and l r => l.val σ && r.val σ
  | .implies c a => if c.val σ then a.val σ else true
  | .ife c a b => if c.val σ then a.val σ else b.val σ
  | .unfolding a => a.val σ

/-- The obligations reached when the assertion is evaluated from left to right, `and` being
short-circuiting. -/
def A.reach (σ : Nat → Bool) : A → List Nat
  | .atom _ => []
  | .obl k => [k]
  | .sif c k => if c.val σ then [k] else []
  | .and l r => if l.val σ then l.reach σ ++ r.reach σ else l.reach σ
  | .implies c a => if c.val σ then a.reach σ else []
  | .ife c a b => if c.val σ then a.reach σ else b.reach σ
  | .unfolding a => a.reach σ

/-- The obligations of all conjuncts, as obtained by inhaling the assertion. -/
def A.inhaled (σ : Nat → Bool) : A → List Nat
  | .atom _ => []
  | .obl k => [k]
  | .sif c k => if c.val σ then [k] else []
  | .and l r => l.inhaled σ ++ r.inhaled σ
  | .implies c a => if c.val σ then a.inhaled σ else []
  | .ife c a b => if c.val σ then a.inhaled σ else b.inhaled σ
  | .unfolding a => a.inhaled σ

/-- All occurrences. -/
def A.occs : A → List Nat
  | .atom _ => []
  | .obl k => [k]
  | .sif c k => k :: c.occs
  | .and l r => l.occs ++ r.occs
  | .implies c a => c.occs ++ a.occs
  | .ife c a b => c.occs ++ (a.occs ++ b.occs)
  | .unfolding a => a.occs

/-- Occurrences in assertion position (not inside of a condition). -/
def A.asserted : A → List Nat
  | .atom _ => []
  | .obl k => [k]
  | .sif _ k => [k]
  | .and l r => l.asserted ++ r.asserted
  | .implies _ a => a.asserted
  | .ife _ a b => a.asserted ++ b.asserted
  | .unfolding a => a.asserted

/-- The truth value of a guard. -/
def Cond.holds (σ : Nat → Bool) : Cond → Bool
  | .pos c => c.val σ
  | .neg c => !c.val σ

/-- The instances whose guard holds. -/
def active (σ : Nat → Bool) (out : List (Nat × List Cond)) : List Nat :=
  (out.filter fun p => p.2.all (·.holds σ)).map (·.1)

end Nagini.Guards
