import Verif.Model.Prelude

/-!
What the contracts of the builtin values are compared with: the arguments that a translated program
can pass, and Python's `==` on builtin values.
-/

namespace Nagini.Prelude

/-- The arguments a translated, type-correct Python program passes to the functions whose contracts
restrict nothing: string literals are created with their length and their code points
(src/nagini_translation/translators/expression.py:642-659), bytes literals from boxed bytes (expression.py:694-711), `PSeq`,
`PSet` and `PMultiset` values from elements of the element type (translators/contract.py:723-863), a
`PByteSeq` from the contents of a bytearray (contract.py:742-757).  The bounds on `PByteSeq_update` and
the exact types of `__seq_ref_to_seq_int` are *not* ensured by the translation. -/
def Guard.produced (I : Interp) : Guard I where
  str n v := n = v.length ∧ ∀ c ∈ v, 0 ≤ c
  strAdd b := I.isa b .str
  bytes v := ∀ x ∈ v, ∃ n, x = I.intBox n ∧ byteBounds n
  seq l t := ∀ x ∈ l, I.isa x t
  set l t := ∀ x ∈ l, I.isa x t
  ms l t := ∀ x ∈ l, I.isa x t
  fromBytes l := ∀ i ∈ l, byteBounds i
  update v := byteBounds v
  ints s := ∀ x ∈ s, I.typeof x = .int

/-- Builtin Python values. -/
inductive PV where
  | none
  | int (n : Int)
  | bool (b : Bool)
  | str (s : List Nat)
  | bytes (s : List (Fin 256))
deriving DecidableEq

/-- Python's `==` on builtin values: booleans are the integers 0 and 1, otherwise values of different
types are different. -/
def pyEq : PV → PV → Bool
  | .bool a, .int m => (if a then 1 else 0) == m
  | .int n, .bool b => n == (if b then 1 else 0)
  | v, w => decide (v = w)

/-- The reference of a Python value. -/
def PV.ref (I : Interp) : PV → I.Ref
  | .none => I.null
  | .int n => I.intBox n
  | .bool b => I.boolBox b
  | .str s => I.strCreate s.length (s.map (fun c : Nat => (c : Int)))
  | .bytes s => I.bytesCreate (s.map (fun c : Fin 256 => I.intBox (c.val : Int))) 0

/-- The function called for `v == w`, which is the one of the class of `v`. -/
def eqCall (I : Interp) : PV → I.Ref → I.Ref → Prop
  | .none => I.objEq
  | .int _ => I.intEq
  | .bool _ => I.boolEq
  | .str _ => I.strEq
  | .bytes _ => I.bytesEq

/-- Expressions over pure sequences, with their value as a list. -/
inductive SeqE (R : Type) where
  | lit (l : List R)
  | take (e : SeqE R) (n : Nat)
  | drop (e : SeqE R) (n : Nat)
  | update (e : SeqE R) (i : Nat) (x : R)
  | add (a b : SeqE R)

/-- The elements of a pure sequence. -/
def SeqE.val {R : Type} : SeqE R → List R
  | .lit l => l
  | .take e n => e.val.take n
  | .drop e n => e.val.drop n
  | .update e i x => e.val.set i x
  | .add a b => a.val ++ b.val

/-- Elements satisfy `p` and updates are within bounds. -/
def SeqE.ok {R : Type} (p : R → Prop) : SeqE R → Prop
  | .lit l => ∀ x ∈ l, p x
  | .take e _ => e.ok p
  | .drop e _ => e.ok p
  | .update e i x => e.ok p ∧ i < e.val.length ∧ p x
  | .add a b => a.ok p ∧ b.ok p

/-- The translation of a `PSeq` expression with elements of type `t`. -/
def SeqE.pseq (I : Interp) (t : Ty) : SeqE I.Ref → I.Ref
  | .lit l => I.seqCreate l t
  | .take e n => I.seqTake (e.pseq I t) n
  | .drop e n => I.seqDrop (e.pseq I t) n
  | .update e i x => I.seqUpdate (e.pseq I t) i x
  | .add a b => I.seqAdd (a.pseq I t) (b.pseq I t)

/-- The translation of a `PByteSeq` expression. -/
def SeqE.pbyteseq (I : Interp) : SeqE Int → I.Ref
  | .lit l => I.bsCreate l
  | .take e n => I.bsTake (e.pbyteseq I) n
  | .drop e n => I.bsDrop (e.pbyteseq I) n
  | .update e i x => I.bsUpdate (e.pbyteseq I) i x
  | .add a b => I.bsAdd (a.pbyteseq I) (b.pbyteseq I)

/-- Python's index: negative indices count from the end. -/
def pyIndex {R : Type} (l : List R) (i : Int) : Option R :=
  if 0 ≤ i then l[i.toNat]?
  else if 0 ≤ (l.length : Int) + i then l[((l.length : Int) + i).toNat]? else .none

/-- Expressions over pure sets and multisets. -/
inductive SetE (L : Type) where
  | lit (l : L)
  | add (a b : SetE L)
  | sub (a b : SetE L)

/-- The value of a set expression, given union and difference. -/
def SetE.val {L : Type} (union diff : L → L → L) : SetE L → L
  | .lit l => l
  | .add a b => union (a.val union diff) (b.val union diff)
  | .sub a b => diff (a.val union diff) (b.val union diff)

/-- All literals satisfy `p`. -/
def SetE.ok {L : Type} (p : L → Prop) : SetE L → Prop
  | .lit l => p l
  | .add a b => a.ok p ∧ b.ok p
  | .sub a b => a.ok p ∧ b.ok p

/-- The translation of a `PSet` expression. -/
def SetE.pset (I : Interp) (t : Ty) : SetE (Finset I.Ref) → I.Ref
  | .lit l => I.setCreate l t
  | .add a b => I.setAdd (a.pset I t) (b.pset I t)
  | .sub a b => I.setSub (a.pset I t) (b.pset I t)

/-- The translation of a `PMultiset` expression. -/
def SetE.pmset (I : Interp) (t : Ty) : SetE (Multiset I.Ref) → I.Ref
  | .lit l => I.msCreate l t
  | .add a b => I.msAdd (a.pmset I t) (b.pmset I t)
  | .sub a b => I.msSub (a.pmset I t) (b.pmset I t)

end Nagini.Prelude
