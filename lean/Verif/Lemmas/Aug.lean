import Verif.Model.Aug

/-!
Lemmas about augmented assignments.
-/
set_option linter.unusedVariables false
namespace Nagini.Aug

/-- For everything but lists the translator applies the same operator as Python. -/
theorem op_eq (W : World) (op : Op) (v w : Val) (h : Heap) (hv : ∀ a, v ≠ .list a) :
    nagOp W op v w h = pyOp W op v w h := by
  cases v with
  | list a => exact absurd rfl (hv a)
  | int i => cases w <;> simp [nagOp, inplaceFunc, operator, pyOp]
  | obj c a =>
    simp only [nagOp, inplaceFunc, operator, pyOp]
    cases W.iop c op <;> rfl

end Nagini.Aug
