import Verif.Spec.Seqs

/-!
Model of the contracts of the sequence operations in resources/list.sil, tuple.sil,
bytes.sil, bytearray.sil, range.sil and slice.sil.

A contract is modelled as a precondition (`…Pre`) and a relation between inputs and
outputs (`…Post`).  Permissions and the type side conditions are not modelled.
Viper's sequence primitives have their documented meaning: `s[..n]` is empty for
negative `n` and `s` for `n ≥ |s|`, `s[n..]` is `s` for negative `n` and empty for
`n ≥ |s|`, `s[a..b]` is `s[..b][a..]`.
-/
namespace Nagini.Seqs

variable {α : Type}

/-- Viper's `s[..n]`, as used in resources/list.sil:56. -/
def vTake (s : List α) (n : Int) : List α := s.take n.toNat

/-- Viper's `s[n..]`, as used in resources/list.sil:56. -/
def vDrop (s : List α) (n : Int) : List α := s.drop n.toNat

/-- Viper's `s[a..b]`, as used in resources/list.sil:56. -/
def vSlice (s : List α) (a b : Int) : List α := vDrop (vTake s b) a

/-- `slice___start__`.  Models resources/slice.sil:20-27. -/
def sliceStart (start : Option Int) (len : Int) : Int :=
  match start with
  | none => 0
  | some i => if i < 0 then len + i else i

/-- `slice___stop__`.  Models resources/slice.sil:29-36. -/
def sliceStop (stop : Option Int) (len : Int) : Int :=
  match stop with
  | none => len
  | some i => if i < 0 then len + i else i

/-- `list___getitem_slice__` (and `bytearray___getitem_slice__`): no restriction on the
indices.  Models resources/list.sil:48-59 and resources/bytearray.sil:98-105. -/
def listSlice (s : List α) (start stop : Option Int) : List α :=
  vSlice s (sliceStart start s.length) (sliceStop stop s.length)

/-- Index requirements of the immutable slices.  Models resources/bytes.sil:106-107,
resources/range.sil:59-60 and resources/tuple.sil:169-170. -/
def immSlicePre (s : List α) (start stop : Option Int) : Prop :=
  (sliceStart start s.length ≥ 0 ∧ sliceStart start s.length ≤ s.length) ∧
  (sliceStop stop s.length ≥ 0 ∧ sliceStop stop s.length ≤ s.length)

/-- Postcondition of `bytes___getitem_slice__` and `range___getitem_slice__`.
Models resources/bytes.sil:109-110 and resources/range.sil:62-63. -/
def immSlicePost (s : List α) (start stop : Option Int) (res : List α) : Prop :=
  (res.length : Int) = sliceStop stop s.length - sliceStart start s.length ∧
  res = vSlice s (sliceStart start s.length) (sliceStop stop s.length)

/-- A tuple object: its contents, its type arguments and its length as given by the
uninterpreted functions `tuple___val__`, `tuple_args(typeof(·))` and `tuple___len__`.
Models resources/tuple.sil:8-9 and 152-155. -/
structure TupleObj (α τ : Type) where
  /-- tuple___val__ -/
  val : List α
  /-- tuple_args(typeof(self)) -/
  args : List τ
  /-- tuple___len__ -/
  len : Int

/-- The postcondition of `tuple___len__`, which holds for every tuple.
Models resources/tuple.sil:154-155. -/
def TupleObj.wf {τ : Type} (t : TupleObj α τ) : Prop := t.len = t.args.length ∧ t.len = t.val.length

/-- Postcondition of `tuple___getitem_slice__`.  Models resources/tuple.sil:171-174. -/
def tupleSlicePost {τ : Type} (t : TupleObj α τ) (start stop : Option Int) (res : TupleObj α τ) : Prop :=
  res.args = vSlice t.args (sliceStart start t.len) (sliceStop stop t.len) ∧
  (∀ i : Nat, (i : Int) < sliceStop stop t.len - sliceStart start t.len →
    res.args[i]? = t.args[((i : Int) + sliceStart start t.len).toNat]?) ∧
  res.len = sliceStop stop t.len - sliceStart start t.len ∧
  res.val = vSlice t.val (sliceStart start t.len) (sliceStop stop t.len)

/-- The length clause of `tuple___create<n>__`.  Models resources/tuple.sil lines 15,
27, 38, 51, 65, 79, 94, 110, 127 and 145 (resources/tuple.sil:15-145). -/
def createLen : Nat → Option Int
  | 0 => some 0 | 1 => some 1 | 2 => some 2 | 3 => some 3 | 4 => some 4 | 5 => some 5
  | 6 => some 6 | 7 => some 6 | 8 => some 6 | 9 => some 6
  | _ => none

/-- Postcondition of `tuple___create<n>__` for `n = vs.length` (longer tuples are
rejected, translators/expression.py:734-735).  `typeof` gives the dynamic types of the
components.  Models resources/tuple.sil:11-145. -/
def tupleCreatePost {τ : Type} (typeof : α → τ) (vs : List α) (res : TupleObj α τ) : Prop :=
  res.args = vs.map typeof ∧ res.val = vs ∧ createLen vs.length = some res.len ∧
  ∀ i : Nat, i < vs.length → res.val[i]? = vs[i]?

/-- Index requirement of `__getitem__`.  Models resources/list.sil:43-44,
resources/tuple.sil:159-160, resources/bytes.sil:96-97, resources/bytearray.sil:93-94 and
resources/range.sil:49-50. -/
def getitemPre (s : List α) (i : Int) : Prop :=
  (i < 0 → i ≥ -(s.length : Int)) ∧ (i ≥ 0 → i < s.length)

/-- Result of `__getitem__`.  Models resources/list.sil:45, resources/tuple.sil:163-164,
resources/bytes.sil:99-100, resources/bytearray.sil:95 and resources/range.sil:51-52. -/
def getitem (s : List α) (i : Int) : Option α :=
  if i ≥ 0 then s[i.toNat]? else s[((s.length : Int) + i).toNat]?

/-- Viper's `[start..stop)`, the value of `range___create__` (requires
`stop >= start`).  Models resources/range.sil:8-14. -/
def rangeVal (start stop : Int) : List Int := (List.range (stop - start).toNat).map fun (i : Nat) => start + i

/-- Postcondition of `range___create_step__` (requires `step >= 1`).
Models resources/range.sil:20-27. -/
def rangeStepPost (start stop step : Int) (val : List Int) : Prop :=
  (val.length : Int) = (if stop ≤ start then 0 else (stop - start + step - 1) / step) ∧
  ∀ i (h : i < val.length), val[i] = start + i * step

/-- `range___contains__` (requires the item to be an `int`, which includes `bool`).
Models resources/range.sil:66-71 and 82-86. -/
def rangeContains (val : List Int) : Obj → Bool
  | .int i => decide (i ∈ val)
  | _ => false

/-- `bytearray___contains__` (requires the item to be an `int`).  Models
resources/bytearray.sil:59-64. -/
def bytearrayContains (val : List Int) (item : Obj) : Option Bool := item.num.map fun i => decide (i ∈ val)

/-- `list___setitem__`: only non-negative indices are accepted.
Models resources/list.sil:61-69. -/
def setitemPre (s : List α) (i : Int) : Prop := i ≥ 0 ∧ i < s.length

/-- New contents after `list___setitem__`.  Models resources/list.sil:68. -/
def setitem (s : List α) (i : Int) (x : α) : List α := s.set i.toNat x

/-- `list_insert`.  Models resources/list.sil:75-85. -/
def insert (s : List α) (index : Int) (item : α) : List α :=
  let resolved := if index < 0 then index + s.length else index
  let clamped := if resolved < 0 then 0 else if resolved > s.length then (s.length : Int) else resolved
  vTake s clamped ++ [item] ++ vDrop s clamped

/-- `list_append`.  Models resources/list.sil:87-95. -/
def append (s : List α) (item : α) : List α := s ++ [item]

/-- `list_extend` (the two lists must be different objects) and the result of
`list___add__`.  Models resources/list.sil:97-117. -/
def extend (s other : List α) : List α := s ++ other

/-- Postcondition of `list___mul__`.  Models resources/list.sil:119-127. -/
def mulPost (s : List α) (factor : Int) (res : List α) : Prop :=
  (res.length : Int) = (if factor > 0 then factor else 0) * s.length ∧
  (factor > 0 → ∀ i : Nat, i < res.length → res[i]? = s[i % s.length]?)

/-- `list_reverse`: the receiver keeps its contents, a new list is returned.
`self'` is the receiver afterwards.  Models resources/list.sil:129-136. -/
def reversePost (s self' res : List α) : Prop :=
  self' = s ∧ res.length = s.length ∧ ∀ i : Nat, i < res.length → res[i]? = s[s.length - 1 - i]?

/-- `bytearray_reverse`: in place.  Models resources/bytearray.sil:136-141. -/
def bytearrayReversePost (s self' : List α) : Prop :=
  s.length = self'.length ∧ ∀ i : Nat, i < self'.length → self'[i]? = s[self'.length - 1 - i]?

/-- Requirement of `list_remove` and `list_index`: membership is reference
membership.  Models resources/list.sil:151 and 163. -/
def findPre (s : List α) (item : α) : Prop := item ∈ s

/-- `list___contains__`.  Models resources/list.sil:19-23. -/
def contains [DecidableEq α] (s : List α) (item : α) : Bool := decide (item ∈ s)

/-- Postcondition of `list_remove`.  Models resources/list.sil:147-157. -/
def removePost (s : List α) (item : α) (self' : List α) : Prop :=
  (self'.length : Int) = s.length - 1 ∧
  ∃ i : Nat, i < s.length ∧ s[i]? = some item ∧ (∀ j : Nat, j < i → s[j]? ≠ some item) ∧
    self' = s.take i ++ s.drop (i + 1)

/-- Postcondition of `list_index`.  Models resources/list.sil:159-167. -/
def indexPost (s : List α) (item : α) (res : Nat) : Prop :=
  res < s.length ∧ s[res]? = some item ∧ ∀ j : Nat, j < res → s[j]? ≠ some item

/-- `bytes___mul__helper` (requires `factor >= 0`).  Models
resources/bytes.sil:61-68. -/
def bytesMul (s : List α) : Nat → List α
  | 0 => []
  | 1 => s
  | (n + 2) => bytesMul s (n + 1) ++ s

/-- `bytes_join_val_helper`, called with index 0 for a non-empty list; the list is
represented by its suffix starting at the index.  Models resources/bytes.sil:70-91. -/
def bytesJoin (sep : List α) : List (List α) → List α
  | [] => []
  | [x] => x
  | x :: y :: ys => x ++ sep ++ bytesJoin sep (y :: ys)

/-- Postcondition of `bytearray___initFromInt__` (no requirement on the sign).
Models resources/bytearray.sil:17-23. -/
def initFromIntPost (length : Int) (res : List Int) : Prop :=
  (res.length : Int) = length ∧ ∀ i : Nat, (i : Int) < length → res[i]? = some 0

/-- Contents of the list inhaled for `enumerate(s, start)`.  Models
translators/call.py:555-588. -/
def enumeratePost (s : List α) (start : Int) (res : List (Int × α)) : Prop :=
  res.length = s.length ∧ ∀ i : Nat, i < res.length → res[i]? = s[i]?.map fun x => (start + i, x)

end Nagini.Seqs
