import Verif.Spec.ExprTypes

/-!
What the prelude assumes of pure collections: `PSeq___contains__`, `PSeq___getitem__`,
`PSet___contains__` and `PMultiset_num` promise that what is in a collection created with the type `t`
has type `t` (the promises are modelled in `Prelude`, which shows them contradictory for other
collections, C88).
-/
namespace Nagini.Creates

open ExprTypes

/-- A collection is created with a type of its elements. -/
def Typed (sub : Nat → Nat → Prop) (vs : List Val) (t : Ty) : Prop := ∀ v ∈ vs, Has sub v t

/-- Nothing but `None` is an instance of `NoneType`. -/
def OnlyNone (sub : Nat → Nat → Prop) : Prop := ∀ v : Val, sub (clsOf v) 3 → v = .none

/-- Types between which `ToSeq` and `ToMS` cannot tell: optional types and tuples whose elements have
different types. -/
def Uniform : Ty → Prop
  | .opt _ => False
  | .tup ts => ∀ a ∈ ts, ∀ b ∈ ts, a = b
  | _ => True

/-- The arguments of conversions have uniform types. -/
def UniformArg (P : Prog) (tenv : Nat → Option Ty) : Exp → Prop
  | .toSeq e => ∀ t, typ P tenv e = some t → Uniform t
  | .toMS e => ∀ t, typ P tenv e = some t → Uniform t
  | _ => True

end Nagini.Creates
