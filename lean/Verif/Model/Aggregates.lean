import Verif.Spec.Aggregates
import Mathlib.Data.Multiset.Basic

/-!
Model of the contracts of `sum`, `sorted`, `max`, `min` and `abs` (resources/bool.sil).  Functions are
interpreted arbitrarily subject to their postconditions (triggers are ignored); `__toMS` is the multiset
of a sequence.  Permissions are left out; the arguments are lists of `int` and `bool` objects, or such
objects.
-/
set_option linter.unusedVariables false
namespace Nagini.Aggregates

/-- Interpretations of `__seq_ref_to_seq_int` and `__sum`.  Models resources/bool.sil:547 and 559. -/
structure Interp where
  toInts : List Num → List Int
  sum : List Int → Int

/-- `typeof(r) == int()`.  Models resources/bool.sil:553. -/
def Num.isInt : Num → Bool
  | .int _ => true
  | .bool _ => false

/-- The postconditions of `__seq_ref_to_seq_int`.  The fifth, which is contradictory for booleans (C88),
is restricted to sequences of elements whose type is exactly `int`.
Models resources/bool.sil:547-555. -/
structure SeqContract (I : Interp) : Prop where
  length : ∀ sr, (I.toInts sr).length = sr.length
  elem : ∀ (sr : List Num) (i : Nat) (x : Num), sr[i]? = some x → (I.toInts sr)[i]? = some x.val
  empty : ∀ sr, sr = [] → I.toInts sr = []
  single : ∀ r : Num, I.toInts [r] = [r.val]
  append : ∀ sr1 sr2, I.toInts (sr1 ++ sr2) = I.toInts sr1 ++ I.toInts sr2
  memInt : ∀ sr, (∀ x ∈ sr, x.isInt = true) → ∀ i ∈ I.toInts sr,
    ∃ x ∈ sr, x.isInt = true ∧ i = x.val ∧ x = .int i
  mem : ∀ sr, ∀ i ∈ I.toInts sr, ∃ x ∈ sr, i = x.val

/-- The axioms of `__sum`.  Models resources/bool.sil:558-576. -/
structure SumAxioms (I : Interp) : Prop where
  nil : I.sum [] = 0
  single : ∀ t, I.sum [t] = t
  append : ∀ s1 s2, I.sum (s1 ++ s2) = I.sum s1 + I.sum s2
  perm : ∀ s1 s2 : List Int, (s1 : Multiset Int) = s2 → I.sum s1 = I.sum s2

/-- `sum`.  Models resources/bool.sil:542-545. -/
def sumFn (I : Interp) (r : List Num) : Int := I.sum (I.toInts r)

/-- The postconditions of `sorted`.  Models resources/bool.sil:524-537. -/
structure SortedPost (I : Interp) (r rs : List Num) : Prop where
  length : rs.length = r.length
  elems : (r : Multiset Num) = rs
  sum : sumFn I r = sumFn I rs
  order : ∀ (i1 i2 : Nat) (a b : Num), i1 < i2 → rs[i1]? = some a → rs[i2]? = some b → a.val ≤ b.val
  one : r.length = 1 → rs = r
  lower : r.length > 1 → ∀ (i : Nat) (x y : Num), r[i]? = some x → rs[0]? = some y → x.val ≥ y.val
  upper : r.length > 1 → ∀ (i : Nat) (x y : Num), r[i]? = some x → rs[r.length - 1]? = some y → x.val ≤ y.val

/-- `max` of two numbers.  Models resources/bool.sil:505. -/
def max2 (a b : Num) : Int := if a.val > b.val then a.val else b.val

/-- `min` of two numbers.  Models resources/bool.sil:513. -/
def min2 (a b : Num) : Int := if a.val > b.val then b.val else a.val

/-- The postcondition of `max` and `min` for a list: the boxed result is an element.
Models resources/bool.sil:506 and 514. -/
def ListMaxPost (l : List Num) (res : Int) : Prop := Num.int res ∈ l

/-- `abs`.  Models resources/bool.sil:516-518. -/
def absFn (a : Int) : Int := if a ≥ 0 then a else -a

end Nagini.Aggregates
