import Verif.Model.History

/-!
What the settings for a program should be.
-/
namespace Nagini.History

/-- The value of `disable_all` used to encode a program: the start-up setting, or, without one,
obligations are disabled iff the program does not need them. -/
def expected (start : Option Bool) (needs : Bool) : Option Bool :=
  match start, needs with
  | some b, _ => some b
  | none, true => none
  | none, false => some true

end Nagini.History
