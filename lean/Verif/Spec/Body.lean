import Verif.Model.Body
/-!
Specification: which statements are contracts or declarations without run-time effect.
-/
namespace Nagini.Body

/-- Genuine contract statements (calls of the contract functions themselves), docstrings and
global declarations. -/
def Genuine : Stmt → Prop
  | .str => True
  | .glob => True
  | .call (.name .invariant) => True
  | .call (.name .requires) => True
  | .call (.name .decreases) => True
  | .call (.name .ensures) => True
  | .call (.name .exsures) => True
  | .call (.call (.name .ioExists)) => True
  | _ => False

/-- A name of a contract function. -/
def contractName : Nm → Bool
  | .user _ => false
  | .ioExists => false
  | _ => true

/-- The name at the end of a chain `f(..)(..)`, `e.f(..)`. -/
def lastName : Fn → Option Nm
  | .name n => some n
  | .attr n => some n
  | .call f => lastName f
  | _ => none

/-- A call that is not a call of a contract function but ends in the name of one: a method
call `e.Ensures(..)` or a call `Ensures(..)(..)`. -/
def Disguised : Stmt → Bool
  | .call (.name _) => false
  | .call f => match lastName f with
    | some n => contractName n
    | none => false
  | _ => false

end Nagini.Body
