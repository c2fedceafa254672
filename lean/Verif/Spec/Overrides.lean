import Verif.Model.Overrides

/-!
Soundness of modular reasoning about dynamically dispatched calls: a call is reasoned about with the
member of the static class of the receiver, while Python executes the member of its dynamic class.
-/
namespace Nagini.Overrides

open Classes

variable {S V : Type} (H : Hier) (own : Nat → Option (Member S V))

/-- Executing `run` is covered by reasoning with `known` in state `s`: a method may be called wherever
`known` may, and guarantees at least as much; a function has the same value. -/
def Covers (s : S) : Member S V → Member S V → Prop
  | .method known, .method run => known.pre s → run.pre s ∧ ∀ s', run.post s s' → known.post s s'
  | .function known, .function run => run s = known s
  | _, _ => False

/-- Calls with receivers of any class are covered. -/
def DispatchSound (recv : S → Nat) : Prop :=
  ∀ s a known run, Anc H (recv s) a → Nearest H own a known → Nearest H own (recv s) run →
    Covers s known run

/-- A class redefines an inherited member, but its direct superclass does not contain one itself. -/
def Gap (defines : Nat → Prop) : Prop :=
  ∃ c p a, defines c ∧ H.sup c = some p ∧ ¬ defines p ∧ Anc H p a ∧ defines a

end Nagini.Overrides
