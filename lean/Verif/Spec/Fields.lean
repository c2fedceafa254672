import Verif.Model.Fields
import Mathlib.Algebra.Order.Field.Rat
import Mathlib.Algebra.BigOperators.Group.Finset.Basic
import Mathlib.Data.Fintype.BigOperators

/-! Attributes in Python, and executions with permissions. -/
set_option linter.unusedVariables false
namespace Nagini.Fields

/-- Names that Python mangles. -/
def Private (n : Name) : Prop := (∃ r, n = '_' :: '_' :: r) ∧ ¬ ∃ r, n = r ++ ['_', '_']

/-- The name Python uses for `n` in the code of a class: `__x` in a class `_A` becomes `_A__x`. -/
def mangleIn (cls n : Name) : Name :=
  match cls.dropWhile (· = '_') with
  | [] => n
  | s => '_' :: s ++ n

open Classical in
/-- The name Python uses for `n` in code of the class `encl`. -/
noncomputable def pyName (T : Table) (encl : Option Nat) (n : Name) : Name :=
  if Private n then (match encl with
    | none => n
    | some c => mangleIn (T c).name n) else n

/-- The class `c` has a property which Python calls `p`. -/
def Defines (T : Table) (c : Nat) (p : Name) : Prop :=
  ∃ m, (T c).members.lookup m = some .prop ∧ pyName T (some c) m = p

/-- Accessing the attribute `p` of an object of the class `D` uses the property of the class `c`: the first one. -/
def UsesProp (T : Table) (D : List Nat) (p : Name) (c : Nat) : Prop :=
  ∃ l l', D = l ++ c :: l' ∧ Defines T c p ∧ ∀ b ∈ l, ¬ Defines T b p

/-- Executions of Python and Viper: the classes of the objects that have been created, the permissions of every thread of
execution (and everybody else who holds permissions), the Viper heap, and the attributes of Python's objects. -/
structure St (N : Nat) where
  cls : Nat → Option (List Nat)
  acc : Nat → Nat × Name → Fin N → ℚ
  may : Nat → Nat × Name → Fin N → ℚ
  heap : Nat → Nat × Name → Int
  dict : Nat → Name → Option Int

/-- Programs: the classes that objects are created of, and the `del` statements, with the class they occur in, the class
of the receiver and the name. -/
structure Prog where
  table : Table
  classes : List Nat → Prop
  dels : Option Nat → List Nat → Name → Prop

/-- Change a function of objects and fields. -/
def upd {α : Type} (h : Nat → Nat × Name → α) (o : Nat) (f : Nat × Name) (v : α) : Nat → Nat × Name → α :=
  fun o' f' => if o' = o ∧ f' = f then v else h o' f'

/-- Change the amount of one owner. -/
def add {N : Nat} (q : Fin N → ℚ) (i : Fin N) (x : ℚ) : Fin N → ℚ := fun j => if j = i then q j + x else q j

/-- Change an attribute. -/
def setAttr (d : Nat → Name → Option Int) (o : Nat) (p : Name) (v : Option Int) : Nat → Name → Option Int :=
  fun o' p' => if o' = o ∧ p' = p then v else d o' p'

open Classical in
/-- Assigning to an attribute, or deleting it, does not change the attributes of the object if there is a property. -/
noncomputable def assignAttr (T : Table) (D : List Nat) (d : Nat → Name → Option Int) (o : Nat) (p : Name) (v : Option Int) :
    Nat → Name → Option Int :=
  if ∃ c, UsesProp T D p c then d else setAttr d o p v

/-- Exchange the permission to create a field for a permission to the field. -/
def exchange {N : Nat} (s : St N) (i : Fin N) (o : Nat) (f : Nat × Name) : St N :=
  { s with may := upd s.may o f (add (s.may o f) i (-1)), acc := upd s.acc o f (add (s.acc o f) i 1) }

/-- Verified steps.  An assignment exchanges the permission to create the field if there is one. -/
inductive Step (P : Prog) {N : Nat} : St N → St N → Prop
  /-- `D()`: the object has no attributes, and permission to create all fields is obtained. -/
  | create (s i o D) : s.cls o = none → P.classes D → Step P s
      { s with cls := fun o' => if o' = o then some D else s.cls o',
               may := fun o' f => if o' = o then add (s.may o f) i ((allFields P.table D).count f) else s.may o' f,
               dict := fun o' p => if o' = o then none else s.dict o' p }
  /-- `o.n = v`. -/
  | assign (s i o D S encl n c m v) : s.cls o = some D → S <:+ D → lookupField P.table encl S n = some (.field c m) →
      1 ≤ s.acc o (c, m) i → ¬ 0 < s.may o (c, m) i → Step P s
      { s with heap := upd s.heap o (c, m) v, dict := assignAttr P.table D s.dict o (pyName P.table encl n) (some v) }
  /-- `o.n = v`, where the permission is exchanged. -/
  | assignNew (s i o D S encl n c m v) : s.cls o = some D → S <:+ D → lookupField P.table encl S n = some (.field c m) →
      1 ≤ s.may o (c, m) i → Step P s
      { exchange s i o (c, m) with
        heap := upd s.heap o (c, m) v, dict := assignAttr P.table D s.dict o (pyName P.table encl n) (some v) }
  /-- `del o.n`. -/
  | delete (s i o D S encl n f) : s.cls o = some D → S <:+ D → P.dels encl S n → deleted P.table S n = some f →
      1 ≤ s.acc o f i → Step P s
      { s with acc := upd s.acc o f (add (s.acc o f) i (-1)), may := upd s.may o f (add (s.may o f) i 1),
               dict := assignAttr P.table D s.dict o (pyName P.table encl n) none }
  /-- Permissions are given to somebody else (calls, locks, predicates, ..). -/
  | transfer (s i j o f a b) : 0 ≤ a → a ≤ s.acc o f i → 0 ≤ b → b ≤ s.may o f i → Step P s
      { s with acc := upd s.acc o f (add (add (s.acc o f) i (-a)) j a),
               may := upd s.may o f (add (add (s.may o f) i (-b)) j b) }
  /-- Permissions are lost. -/
  | lose (s i o f a b) : 0 ≤ a → a ≤ s.acc o f i → 0 ≤ b → b ≤ s.may o f i → Step P s
      { s with acc := upd s.acc o f (add (s.acc o f) i (-a)), may := upd s.may o f (add (s.may o f) i (-b)) }

/-- At the beginning there are no objects and no permissions. -/
def start (N : Nat) (h : Nat → Nat × Name → Int) : St N := ⟨fun _ => none, fun _ _ _ => 0, fun _ _ _ => 0, h, fun _ _ => none⟩

/-- Reachable states. -/
inductive Reach (P : Prog) {N : Nat} : St N → Prop
  | start (h) : Reach P (start N h)
  | step {s s'} : Reach P s → Step P s s' → Reach P s'

end Nagini.Fields
