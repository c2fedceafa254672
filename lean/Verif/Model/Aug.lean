import Verif.Spec.Aug

/-!
Model of `translate_stmt_AugAssign` (translators/statement.py).  Static types are taken to be the classes
of the values; the right-hand side is given by its effect (C01 is about its translation).  Indices are not
negative.  Permissions are left out.
-/
set_option linter.unusedVariables false
namespace Nagini.Aug

/-- `list___add__` and `list___mul__`: a new list.
Models resources/list.sil:107-117 and 119-127. -/
def newList (h : Heap) (l : List Val) : Val × Heap :=
  (.list h.next, { h.setList h.next l with next := h.next + 1 })

/-- `translate_operator` for operands of these types; builtin lists and integers have no in-place
operators (resources/builtins.json:37-133).  Models translators/expression.py:1291-1334. -/
def operator (W : World) (op : Op) (v w : Val) (h : Heap) : Option (Val × Heap) :=
  match v, w, op with
  | .int i, .int j, op => some (.int (W.int op i j), h)
  | .list a, .list b, .add => some (newList h (h.lists a ++ h.lists b))
  | .list a, .int n, .mul => some (newList h (repeatList (h.lists a) n))
  | .obj c a, w, op => (W.bop c op).map fun f => f (.obj c a) w h
  | _, _, _ => none

/-- The in-place function of the type of the left operand, if there is one.
Models translators/statement.py:454-455. -/
def inplaceFunc (W : World) (v : Val) (op : Op) : Option (Val → Val → Heap → Val × Heap) :=
  match v with
  | .obj c _ => W.iop c op
  | _ => none

/-- The call of the in-place function or the operator.  Models translators/statement.py:456-461. -/
def nagOp (W : World) (op : Op) (v w : Val) (h : Heap) : Option (Val × Heap) :=
  match inplaceFunc W v op with
  | some f => some (f v w h)
  | none => operator W op v w h

/-- `translate_stmt_AugAssign`: the statements of the right-hand side come first, then those of the
operator, whose left operand is the pure expression for the target, then the assignment, where the receiver
and the index of the target are translated again.  Models translators/statement.py:444-466,
1392-1393, 1432 and 1509-1516. -/
def nagAug (W : World) (t : Target) (op : Op) (e : Env → Heap → Val × Heap) (ρ : Env) (h : Heap) :
    Option (Env × Heap) :=
  let (w, h1) := e ρ h
  ((t.loc ρ h1).bind fun l => l.read ρ h1).bind fun v =>
  (nagOp W op v w h1).bind fun r =>
  (t.loc ρ r.2).bind fun l => l.write ρ r.2 r.1

end Nagini.Aug
