import Verif.Spec.Members
import Mathlib.Data.Finset.Basic
import Mathlib.Data.Finset.Card

/-!
Model of the contracts for `in`, sets and dictionaries (resources/list.sil, tuple.sil, range.sil,
set_dict.sil).  References are compared by identity (`=` on `V`).  Permissions and element types are
left out.  A Viper `Map` is a finite domain and a function that is only used on it.
-/
set_option linter.unusedVariables false
namespace Nagini.Members

variable {V : Type} [DecidableEq V]

/-- `list___contains__`, `tuple___contains__`, `PSeq___contains__`: `item in` a sequence of references.
Models resources/list.sil:19-23, resources/tuple.sil:176-178, resources/seq.sil:17-21. -/
def contains (l : List V) (x : V) : Bool := decide (x ∈ l)

/-- `in` and `not in`.  Models translators/expression.py:1539-1551. -/
def translateContains (neg : Bool) (l : List V) (x : V) : Bool :=
  if neg then !contains l x else contains l x

/-- `range___contains__`: the item must be an `int` (also a `bool`), and is contained in
`range___sil_seq__` if its type is exactly `int`.
Models resources/range.sil:66-71 and 82-86. -/
def rangeContains (start stop : Int) (x : Val) : Option Bool :=
  match x with
  | .int i => some (decide (start ≤ i ∧ i < stop))
  | .bool _ => some false
  | _ => none

/-- The state of a set after a call that verifies; `none` if a precondition fails.
`set_add`, `set_remove`, `set_clear`.  Models resources/set_dict.sil:52-80. -/
def setStep (s : Finset V) : SetOp V → Option (Finset V)
  | .add x => some (s ∪ {x})
  | .remove x => if x ∈ s then some (s \ {x}) else none
  | .clear => some ∅

/-- A sequence of calls.  Models resources/set_dict.sil:52-80. -/
def setRun : Finset V → List (SetOp V) → Option (Finset V)
  | s, [] => some s
  | s, o :: os => (setStep s o).bind fun s' => setRun s' os

/-- `set___contains__`.  Models resources/set_dict.sil:24-28. -/
def setContains (s : Finset V) (x : V) : Bool := decide (x ∈ s)

/-- `set___len__`.  Models resources/set_dict.sil:18-22. -/
def setLen (s : Finset V) : Nat := s.card

/-- `set___bool__`.  Models resources/set_dict.sil:30-35. -/
def setBool (s : Finset V) : Bool := decide (s.card ≠ 0)

/-- The postconditions of `set___sil_seq__`, what iterating over a set yields.
Models resources/set_dict.sil:82-89. -/
def SetSeq (s : Finset V) (l : List V) : Prop :=
  l.length = s.card ∧ (∀ x, x ∈ s ↔ x ∈ l) ∧ ∀ i x, l[i]? = some x → x ∉ l.take i

/-- `Map[Ref, Ref]`.  Models the field `dict_acc`, resources/set_dict.sil:91. -/
structure VMap (V : Type) where
  dom : Finset V
  val : V → V

/-- `dict___init__`.  Models resources/set_dict.sil:93-96. -/
def dictEmpty (dflt : V) : VMap V := ⟨∅, fun _ => dflt⟩

/-- `dict___setitem__`.  Models resources/set_dict.sil:147-154. -/
def dictStore (m : VMap V) (k v : V) : VMap V :=
  ⟨m.dom ∪ {k}, fun k' => if k' = k then v else m.val k'⟩

/-- A sequence of assignments.  Models resources/set_dict.sil:147-154. -/
def dictStores (m : VMap V) (us : List (V × V)) : VMap V :=
  us.foldl (fun m u => dictStore m u.1 u.2) m

/-- `dict___contains__`.  Models resources/set_dict.sil:99-103. -/
def dictContains (m : VMap V) (k : V) : Bool := decide (k ∈ m.dom)

/-- `dict___getitem__`, `none` if its precondition fails.  Models resources/set_dict.sil:133-139. -/
def dictGetitem (m : VMap V) (k : V) : Option V :=
  if dictContains m k then some (m.val k) else none

/-- `dict_get` with null as `none`.  Models resources/set_dict.sil:141-145. -/
def dictGet (null : V) (m : VMap V) (k : V) : V :=
  if dictContains m k then m.val k else null

/-- `dict___len__`.  Models resources/set_dict.sil:166-170. -/
def dictLen (m : VMap V) : Nat := m.dom.card

/-- The postconditions of `dict___sil_seq__`.  Models resources/set_dict.sil:172-177. -/
def DictSeq (m : VMap V) (l : List V) : Prop :=
  l.length = m.dom.card ∧ ∀ x, x ∈ m.dom ↔ x ∈ l

/-- The postconditions of `dict_values`.  Models resources/set_dict.sil:156-164. -/
def DictValues (m : VMap V) (l : List V) : Prop :=
  l.length = m.dom.card ∧ ∀ r, r ∈ l ↔ ∃ k ∈ m.dom, m.val k = r

end Nagini.Members
