import Mathlib.Data.Finset.Basic
import Mathlib.Data.Finset.Card
import Mathlib.Data.Multiset.Count
import Mathlib.Data.Multiset.UnionInter

/-!
Model of the specifications of the immutable builtin values in the Silver files under
src/nagini_translation/resources: boxed integers and booleans, equality, strings, bytes, ranges,
`PSeq`, `PSet`, `PMultiset`, `PByteSeq`, and the conversion of sequences of references to sequences
of integers.

The functions are abstract, so a verifier takes their contracts as axioms: for all arguments that
satisfy the precondition the postcondition holds of the result.  An interpretation gives a total
function for every one of them; the contracts are predicates over interpretations.  Triggers and
`decreases` clauses are ignored.  `Set` and `Multiset` are finite, as in Silver.

Simplifications: type literals are interpreted by the nominal types of the classes involved
(C24 and C25 are about the type domain).  Floats and slices are not modelled (C18 is about slices,
C52 about floats).
-/

set_option linter.unusedVariables false
set_option linter.dupNamespace false

namespace Nagini.Prelude

open Classical

/-- The types of the builtin values.  Models resources/builtins.json:835-957 and resources/pytype.sil:43
(the `PyType` constants that occur in the contracts below). -/
inductive Ty where
  | object | none | float | int | bool | str | bytes | range | pbyteseq
  | pseq (t : Ty) | pset (t : Ty) | pmset (t : Ty)
  | cls (c : Nat)

/-- `issubtype` on these types: `bool` below `int` below `float`, everything below `object`.
Models the axioms created at translators/type_domain_factory.py:656-731 for the builtin classes; user
classes extend `object` directly here (simplification). -/
def sub (a b : Ty) : Prop :=
  a = b ∨ b = .object ∨ (a = .bool ∧ (b = .int ∨ b = .float)) ∨ (a = .int ∧ b = .float)

/-- `PSeq_arg(t, 0)`, `PSet_arg(t, 0)` and `PMultiset_arg(t, 0)`.  Models the functions created at
translators/type_domain_factory.py:261-320; the value on other types is irrelevant. -/
def arg : Ty → Ty
  | .pseq t => t
  | .pset t => t
  | .pmset t => t
  | _ => .object

/-- `int___byte_bounds__`.  Models resources/bool.sil:464-468. -/
def byteBounds (v : Int) : Prop := 0 ≤ v ∧ v < 256

/-- An interpretation of the functions of the contracts.  Models the declarations cited at the
contracts below, e.g. resources/bool.sil:298-336. -/
structure Interp where
  Ref : Type
  null : Ref
  typeof : Ref → Ty
  objEq : Ref → Ref → Prop
  intBox : Int → Ref
  intUnbox : Ref → Int
  boolBox : Bool → Ref
  boolUnbox : Ref → Bool
  intEq : Ref → Ref → Prop
  boolEq : Ref → Ref → Prop
  strLen : Ref → Int
  strVal : Ref → List Int
  strCreate : Int → List Int → Ref
  strBool : Ref → Prop
  strEq : Ref → Ref → Prop
  strAdd : Ref → Ref → Ref
  bytesVal : Ref → List Ref
  bytesCreate : List Ref → Int → Ref
  bytesBool : Ref → Prop
  bytesEq : Ref → Ref → Prop
  bytesAdd : Ref → Ref → Ref
  bytesGet : Ref → Int → Ref
  rangeVal : Ref → List Int
  rangeStart : Ref → Int
  rangeStop : Ref → Int
  rangeCreate : Int → Int → Int → Ref
  rangeStep : Int → Int → Int → Int → Ref
  rangeSeq : Ref → List Ref
  rangeEq : Ref → Ref → Prop
  seqCreate : List Ref → Ty → Ref
  seqVal : Ref → List Ref
  seqContains : Ref → Ref → Prop
  seqGet : Ref → Ref → Ref
  seqLen : Ref → Int
  seqTake : Ref → Int → Ref
  seqDrop : Ref → Int → Ref
  seqUpdate : Ref → Int → Ref → Ref
  seqAdd : Ref → Ref → Ref
  seqEq : Ref → Ref → Prop
  setCreate : Finset Ref → Ty → Ref
  setVal : Ref → Finset Ref
  setContains : Ref → Ref → Prop
  setSeq : Ref → List Ref
  setLen : Ref → Int
  setAdd : Ref → Ref → Ref
  setSub : Ref → Ref → Ref
  setEq : Ref → Ref → Prop
  msCreate : Multiset Ref → Ty → Ref
  msVal : Ref → Multiset Ref
  msNum : Ref → Ref → Int
  msSeq : Ref → List Ref
  msLen : Ref → Int
  msAdd : Ref → Ref → Ref
  msSub : Ref → Ref → Ref
  msEq : Ref → Ref → Prop
  bsVal : Ref → List Int
  bsLen : Ref → Int
  bsCreate : List Int → Ref
  bsFromBytes : List Int → Ref
  bsContains : Ref → Int → Prop
  bsGet : Ref → Ref → Int
  bsTake : Ref → Int → Ref
  bsDrop : Ref → Int → Ref
  bsUpdate : Ref → Int → Int → Ref
  bsAdd : Ref → Ref → Ref
  bsEq : Ref → Ref → Prop
  bsSeq : Ref → List Ref
  toInts : List Ref → List Int

/-- The arguments for which the contract of a function is taken.  The contracts in the files have no
precondition on these arguments; `Guard.none` is what the files say.  Models the parameters of
resources/str.sil:15, resources/byteseq.sil:56 and the functions cited at the fields. -/
structure Guard (I : Interp) where
  /-- arguments of `str___create__`, resources/str.sil:15-19 -/
  str : Int → List Int → Prop
  /-- second argument of `str___add__`, resources/str.sil:34-39 -/
  strAdd : I.Ref → Prop
  /-- first argument of `bytes___create__`, resources/bytes.sil:19-23 -/
  bytes : List I.Ref → Prop
  /-- arguments of `PSeq___create__`, resources/seq.sil:8-11 -/
  seq : List I.Ref → Ty → Prop
  /-- arguments of `PSet___create__`, resources/pset.sil:8-11 -/
  set : Finset I.Ref → Ty → Prop
  /-- arguments of `PMultiset___create__`, resources/pset.sil:60-63 -/
  ms : Multiset I.Ref → Ty → Prop
  /-- argument of `PByteSeq___from_bytes__`, resources/byteseq.sil:25-28 -/
  fromBytes : List Int → Prop
  /-- value of `PByteSeq_update`, resources/byteseq.sil:56-61 -/
  update : Int → Prop
  /-- argument of `__seq_ref_to_seq_int`, resources/bool.sil:547-555 -/
  ints : List I.Ref → Prop

/-- The contracts as they are in the files: none of these arguments is restricted.  Models
resources/str.sil:15-19, resources/byteseq.sil:56-61 and the other declarations cited at `Guard`. -/
def Guard.none (I : Interp) : Guard I where
  str _ _ := True
  strAdd _ := True
  bytes _ := True
  seq _ _ := True
  set _ _ := True
  ms _ _ := True
  fromBytes _ := True
  update _ := True
  ints _ := True

namespace Interp
variable (I : Interp)

/-- `issubtype(typeof(r), t)`; models the first precondition of e.g. resources/bool.sil:305. -/
def isa (r : I.Ref) (t : Ty) : Prop := sub (I.typeof r) t

/-- `Seq` index with an integer; models e.g. resources/seq.sil:30. -/
def at' (l : List I.Ref) (i : Int) : I.Ref := l[i.toNat]?.getD I.null

/-- The axiom on `null` of the type domain.  Models translators/type_domain_factory.py:602-624. -/
def axNull : Prop := ∀ r, I.isa r .none ↔ r = I.null

/-- The domain `__ObjectEquality`.  Models resources/bool.sil:470-488. -/
def axObjEq : Prop :=
  (∀ a b c, I.objEq a b → I.objEq b c → I.objEq a c) ∧
  (∀ a b, (I.objEq a b ↔ I.objEq b a) ∧ (a = b → I.objEq a b) ∧
    (¬ ((a = I.null) ↔ (b = I.null)) → ¬ I.objEq a b))

/-- `__prim__int___box__`.  Models resources/bool.sil:298-301. -/
def axIntBox : Prop := ∀ n, I.typeof (I.intBox n) = .int ∧ I.intUnbox (I.intBox n) = n

/-- `int___unbox__`.  Models resources/bool.sil:303-308. -/
def axIntUnbox : Prop := ∀ r, I.isa r .int →
  (I.typeof r = .int → I.intBox (I.intUnbox r) = r) ∧
  (I.isa r .bool → I.boolBox (decide (I.intUnbox r ≠ 0)) = r) ∧
  (∀ i, I.objEq r i ∧ I.isa i .int → I.intUnbox i = I.intUnbox r)

/-- `__prim__bool___box__`.  Models resources/bool.sil:310-314. -/
def axBoolBox : Prop := ∀ b, I.typeof (I.boolBox b) = .bool ∧ I.boolUnbox (I.boolBox b) = b ∧
  I.intUnbox (I.boolBox b) = (if b then 1 else 0)

/-- `bool___unbox__`.  Models resources/bool.sil:316-319. -/
def axBoolUnbox : Prop := ∀ r, I.isa r .bool → I.boolBox (I.boolUnbox r) = r

/-- `int___eq__`; the postcondition on floats is not modelled.  Models resources/bool.sil:321-327. -/
def axIntEq : Prop := ∀ a b, I.isa a .int →
  (¬ (I.isa b .int ∨ I.isa b .float) → ¬ I.intEq a b) ∧
  (I.isa b .int → (I.intEq a b ↔ I.intUnbox a = I.intUnbox b)) ∧
  (I.isa b .int → (I.intEq a b ↔ I.objEq a b))

/-- `bool___eq__`.  Models resources/bool.sil:330-336. -/
def axBoolEq : Prop := ∀ a b, I.isa a .bool →
  (¬ I.isa b .int → ¬ I.boolEq a b) ∧
  (I.isa b .bool → (I.boolEq a b ↔ I.boolUnbox a = I.boolUnbox b)) ∧
  (I.isa b .int ∧ ¬ I.isa b .bool → (I.boolEq a b ↔ I.intUnbox a = I.intUnbox b)) ∧
  (I.boolEq a b ↔ I.objEq a b)

/-- `str___len__`.  Models resources/str.sil:8-10. -/
def axStrLen : Prop := ∀ r, 0 ≤ I.strLen r

/-- `str___create__`.  Models resources/str.sil:15-19. -/
def axStrCreate (g : Int → List Int → Prop) : Prop := ∀ n v, g n v →
  I.strLen (I.strCreate n v) = n ∧ I.strVal (I.strCreate n v) = v ∧
  I.typeof (I.strCreate n v) = .str

/-- `str___bool__`.  Models resources/str.sil:21-25. -/
def axStrBool : Prop := ∀ r, (r ≠ I.null → I.isa r .str) →
  (r ≠ I.null → (I.strBool r ↔ I.strLen r ≠ 0)) ∧ (r = I.null → ¬ I.strBool r)

/-- `str___eq__`.  Models resources/str.sil:27-32. -/
def axStrEq : Prop := ∀ a b, I.isa a .str →
  (I.strVal a = I.strVal b ↔ I.strEq a b) ∧
  (I.strEq a b → I.strLen a = I.strLen b) ∧
  (I.strEq a b ↔ I.objEq a b)

/-- `str___add__`.  Models resources/str.sil:34-39. -/
def axStrAdd (g : I.Ref → Prop) : Prop := ∀ a b, I.isa a .str → g b →
  I.strLen (I.strAdd a b) = I.strLen a + I.strLen b ∧
  I.typeof (I.strAdd a b) = .str ∧
  I.strVal (I.strAdd a b) = I.strVal a ++ I.strVal b

/-- `bytes___len__`, which is defined by its body.  Models resources/bytes.sil:8-14. -/
def bytesLen (r : I.Ref) : Int := (I.bytesVal r).length

/-- `bytes___create__`.  Models resources/bytes.sil:19-23. -/
def axBytesCreate (g : List I.Ref → Prop) : Prop := ∀ v c, g v →
  I.typeof (I.bytesCreate v c) = .bytes ∧
  I.bytesLen (I.bytesCreate v c) = v.length ∧
  I.bytesVal (I.bytesCreate v c) = v

/-- `bytes___bool__`.  Models resources/bytes.sil:25-29. -/
def axBytesBool : Prop := ∀ r, (r ≠ I.null → I.isa r .bytes) →
  (r = I.null → ¬ I.bytesBool r) ∧ (r ≠ I.null → (I.bytesBool r ↔ I.bytesLen r ≠ 0))

/-- `bytes___eq__`.  Models resources/bytes.sil:31-36. -/
def axBytesEq : Prop := ∀ a b, I.isa a .bytes →
  (I.bytesVal a = I.bytesVal b ↔ I.bytesEq a b) ∧
  (I.bytesEq a b → I.isa b .bytes ∧ I.bytesLen a = I.bytesLen b) ∧
  (I.bytesEq a b ↔ I.objEq a b)

/-- `bytes___add__`.  Models resources/bytes.sil:44-50. -/
def axBytesAdd : Prop := ∀ a b, I.isa a .bytes → I.isa b .bytes →
  I.typeof (I.bytesAdd a b) = .bytes ∧
  I.bytesLen (I.bytesAdd a b) = I.bytesLen a + I.bytesLen b ∧
  I.bytesVal (I.bytesAdd a b) = I.bytesVal a ++ I.bytesVal b

/-- `bytes___getitem__`.  Models resources/bytes.sil:93-100. -/
def axBytesGet : Prop := ∀ r i, I.isa r .bytes →
  (0 ≤ i → i < I.bytesLen r) → (i < 0 → -I.bytesLen r ≤ i) →
  I.isa (I.bytesGet r i) .int ∧
  (0 ≤ i → I.bytesGet r i = I.at' (I.bytesVal r) i) ∧
  (i < 0 → I.bytesGet r i = I.at' (I.bytesVal r) (I.bytesLen r + i))

/-- `range___create__`.  Models resources/range.sil:8-14. -/
def axRangeCreate : Prop := ∀ a b c, a ≤ b →
  I.rangeVal (I.rangeCreate a b c) = (List.range (b - a).toNat).map (fun i : Nat => a + (i : Int)) ∧
  I.rangeStart (I.rangeCreate a b c) = a ∧
  I.rangeStop (I.rangeCreate a b c) = b ∧
  I.typeof (I.rangeCreate a b c) = .range

/-- `range___create_step__`; Viper's `\` is division rounding towards negative infinity for positive
divisors.  Models resources/range.sil:20-27. -/
def axRangeStep : Prop := ∀ a b s c, 1 ≤ s →
  I.rangeStart (I.rangeStep a b s c) = a ∧
  I.rangeStop (I.rangeStep a b s c) = b ∧
  I.typeof (I.rangeStep a b s c) = .range ∧
  ((I.rangeVal (I.rangeStep a b s c)).length : Int) =
    (if b ≤ a then 0 else (b - a + s - 1) / s) ∧
  ∀ i : Nat, i < (I.rangeVal (I.rangeStep a b s c)).length →
    (I.rangeVal (I.rangeStep a b s c))[i]? = some (a + i * s)

/-- `range___len__`.  Models resources/range.sil:40-43. -/
def rangeLen (r : I.Ref) : Int := (I.rangeVal r).length

/-- `range___sil_seq__`.  Models resources/range.sil:66-71. -/
def axRangeSeq : Prop := ∀ r, I.isa r .range →
  ((I.rangeSeq r).length : Int) = I.rangeLen r ∧
  (∀ i : Nat, i < (I.rangeVal r).length →
    (I.rangeSeq r)[i]? = ((I.rangeVal r)[i]?).map I.intBox) ∧
  (∀ i, i ∈ I.rangeSeq r ↔ (I.typeof i = .int ∧ I.intUnbox i ∈ I.rangeVal r))

/-- `range___eq__`.  Models resources/range.sil:74-79. -/
def axRangeEq : Prop := ∀ a b, I.isa a .range →
  (I.rangeVal a = I.rangeVal b ↔ I.rangeEq a b) ∧
  (I.rangeEq a b → I.isa b .range ∧ I.rangeLen a = I.rangeLen b) ∧
  (I.rangeEq a b ↔ I.objEq a b)

/-- `issubtype(typeof(r), PSeq(PSeq_arg(typeof(r), 0)))`.  Models resources/seq.sil:15. -/
def isSeq (r : I.Ref) : Prop := I.isa r (.pseq (arg (I.typeof r)))

/-- `PSeq___create__`.  Models resources/seq.sil:8-11. -/
def axSeqCreate (g : List I.Ref → Ty → Prop) : Prop := ∀ l t, g l t →
  I.typeof (I.seqCreate l t) = .pseq t ∧ I.seqVal (I.seqCreate l t) = l

/-- `PSeq___contains__`.  Models resources/seq.sil:17-21. -/
def axSeqContains : Prop := ∀ s x, I.isSeq s →
  (I.seqContains s x ↔ x ∈ I.seqVal s) ∧
  (I.seqContains s x → I.isa x (arg (I.typeof s)))

/-- `PSeq___getitem__`.  Models resources/seq.sil:23-30. -/
def axSeqGet : Prop := ∀ s i, I.isSeq s → I.isa i .int →
  (I.intUnbox i < 0 → -I.seqLen s ≤ I.intUnbox i) →
  (0 ≤ I.intUnbox i → I.intUnbox i < I.seqLen s) →
  I.seqGet s i = (if 0 ≤ I.intUnbox i then I.at' (I.seqVal s) (I.intUnbox i)
    else I.at' (I.seqVal s) (I.seqLen s + I.intUnbox i)) ∧
  I.isa (I.seqGet s i) (arg (I.typeof s))

/-- `PSeq___len__`.  Models resources/seq.sil:32-35. -/
def axSeqLen : Prop := ∀ s, I.isSeq s → I.seqLen s = (I.seqVal s).length

/-- `PSeq_take`.  Models resources/seq.sil:37-41. -/
def axSeqTake : Prop := ∀ s n, I.isSeq s →
  I.seqTake s n = I.seqCreate ((I.seqVal s).take n.toNat) (arg (I.typeof s)) ∧
  (n = I.seqLen s → I.seqTake s n = s)

/-- `PSeq_drop`.  Models resources/seq.sil:43-47. -/
def axSeqDrop : Prop := ∀ s n, I.isSeq s →
  I.seqDrop s n = I.seqCreate ((I.seqVal s).drop n.toNat) (arg (I.typeof s)) ∧
  (n = 0 → I.seqDrop s n = s)

/-- `PSeq_update`.  Models resources/seq.sil:49-53. -/
def axSeqUpdate : Prop := ∀ s i x, I.isSeq s → 0 ≤ i → i < I.seqLen s →
  I.seqUpdate s i x = I.seqCreate ((I.seqVal s).set i.toNat x) (arg (I.typeof s))

/-- `PSeq___add__`.  Models resources/seq.sil:55-60. -/
def axSeqAdd : Prop := ∀ a b, I.isSeq a → I.isSeq b → arg (I.typeof a) = arg (I.typeof b) →
  I.seqAdd a b = I.seqCreate (I.seqVal a ++ I.seqVal b) (arg (I.typeof a))

/-- `PSeq___eq__`.  Models resources/seq.sil:62-69. -/
def axSeqEq : Prop := ∀ a b, I.isSeq a → I.isSeq b → arg (I.typeof a) = arg (I.typeof b) →
  (I.seqEq a b ↔ I.seqVal a = I.seqVal b) ∧
  (I.seqEq a b → a = b) ∧
  (I.seqEq a b ↔ I.objEq a b)

/-- `issubtype(typeof(r), PSet(PSet_arg(typeof(r), 0)))`.  Models resources/pset.sil:15. -/
def isSet (r : I.Ref) : Prop := I.isa r (.pset (arg (I.typeof r)))

/-- `PSet___create__`.  Models resources/pset.sil:8-11. -/
def axSetCreate (g : Finset I.Ref → Ty → Prop) : Prop := ∀ l t, g l t →
  I.typeof (I.setCreate l t) = .pset t ∧ I.setVal (I.setCreate l t) = l

/-- `PSet___contains__`.  Models resources/pset.sil:17-21. -/
def axSetContains : Prop := ∀ s x, I.isSet s →
  (I.setContains s x ↔ x ∈ I.setVal s) ∧
  (I.setContains s x → I.isa x (arg (I.typeof s)))

/-- `PSet___sil_seq__`.  Models resources/pset.sil:23-27. -/
def axSetSeq : Prop := ∀ s, I.isSet s →
  (∀ r, r ∈ I.setSeq s ↔ r ∈ I.setVal s) ∧ (I.setSeq s).length = (I.setVal s).card

/-- `PSet___len__`.  Models resources/pset.sil:29-32. -/
def axSetLen : Prop := ∀ s, I.isSet s → I.setLen s = (I.setVal s).card

/-- `PSet___add__`.  Models resources/pset.sil:34-39. -/
def axSetAdd : Prop := ∀ a b, I.isSet a → I.isSet b → arg (I.typeof a) = arg (I.typeof b) →
  I.setAdd a b = I.setCreate (I.setVal a ∪ I.setVal b) (arg (I.typeof a))

/-- `PSet___sub__`.  Models resources/pset.sil:41-46. -/
def axSetSub : Prop := ∀ a b, I.isSet a → I.isSet b → arg (I.typeof a) = arg (I.typeof b) →
  I.setSub a b = I.setCreate (I.setVal a \ I.setVal b) (arg (I.typeof a))

/-- `PSet___eq__`.  Models resources/pset.sil:48-55. -/
def axSetEq : Prop := ∀ a b, I.isSet a → I.isSet b → arg (I.typeof a) = arg (I.typeof b) →
  (I.setEq a b ↔ I.setVal a = I.setVal b) ∧
  (I.setEq a b → a = b) ∧
  (I.setEq a b ↔ I.objEq a b)

/-- `issubtype(typeof(r), PMultiset(PMultiset_arg(typeof(r), 0)))`.  Models resources/pset.sil:67. -/
def isMs (r : I.Ref) : Prop := I.isa r (.pmset (arg (I.typeof r)))

/-- `PMultiset___create__`.  Models resources/pset.sil:60-63. -/
def axMsCreate (g : Multiset I.Ref → Ty → Prop) : Prop := ∀ l t, g l t →
  I.typeof (I.msCreate l t) = .pmset t ∧ I.msVal (I.msCreate l t) = l

/-- `PMultiset_num`.  Models resources/pset.sil:69-73. -/
def axMsNum : Prop := ∀ s x, I.isMs s →
  I.msNum s x = ((I.msVal s).count x : Int) ∧
  (0 < I.msNum s x → I.isa x (arg (I.typeof s)))

/-- `PMultiset___sil_seq__`.  Models resources/pset.sil:75-79. -/
def axMsSeq : Prop := ∀ s, I.isMs s →
  (∀ r, r ∈ I.msSeq s ↔ 0 < (I.msVal s).count r) ∧ (I.msSeq s).length = (I.msVal s).card

/-- `PMultiset___len__`.  Models resources/pset.sil:81-84. -/
def axMsLen : Prop := ∀ s, I.isMs s → I.msLen s = (I.msVal s).card

/-- `PMultiset___add__`; `union` of Viper multisets adds the multiplicities.  Models
resources/pset.sil:86-91. -/
def axMsAdd : Prop := ∀ a b, I.isMs a → I.isMs b → arg (I.typeof a) = arg (I.typeof b) →
  I.msAdd a b = I.msCreate (I.msVal a + I.msVal b) (arg (I.typeof a))

/-- `PMultiset___sub__`.  Models resources/pset.sil:93-98. -/
def axMsSub : Prop := ∀ a b, I.isMs a → I.isMs b → arg (I.typeof a) = arg (I.typeof b) →
  I.msSub a b = I.msCreate (I.msVal a - I.msVal b) (arg (I.typeof a))

/-- `PMultiset___eq__`.  Models resources/pset.sil:100-107. -/
def axMsEq : Prop := ∀ a b, I.isMs a → I.isMs b → arg (I.typeof a) = arg (I.typeof b) →
  (I.msEq a b ↔ I.msVal a = I.msVal b) ∧
  (I.msEq a b → a = b) ∧
  (I.msEq a b ↔ I.objEq a b)

/-- `PByteSeq___val__`.  Models resources/byteseq.sil:9-12. -/
def axBsVal : Prop := ∀ s, I.isa s .pbyteseq → ∀ i ∈ I.bsVal s, byteBounds i

/-- `PByteSeq___len__`.  Models resources/byteseq.sil:14-17. -/
def axBsLen : Prop := ∀ s, I.isa s .pbyteseq → I.bsLen s = (I.bsVal s).length

/-- `PByteSeq___create__`.  Models resources/byteseq.sil:19-23. -/
def axBsCreate : Prop := ∀ l, (∀ i ∈ l, byteBounds i) →
  I.typeof (I.bsCreate l) = .pbyteseq ∧ I.bsVal (I.bsCreate l) = l

/-- `PByteSeq___from_bytes__`.  Models resources/byteseq.sil:25-28. -/
def axBsFromBytes (g : List Int → Prop) : Prop := ∀ l, g l →
  I.typeof (I.bsFromBytes l) = .pbyteseq ∧ I.bsVal (I.bsFromBytes l) = l

/-- `PByteSeq___contains__`.  Models resources/byteseq.sil:30-33. -/
def axBsContains : Prop := ∀ s i, I.isa s .pbyteseq → (I.bsContains s i ↔ i ∈ I.bsVal s)

/-- `PByteSeq___getitem__`.  Models resources/byteseq.sil:35-42. -/
def axBsGet : Prop := ∀ s i, I.isa s .pbyteseq → I.isa i .int →
  (I.intUnbox i < 0 → -I.bsLen s ≤ I.intUnbox i) →
  (0 ≤ I.intUnbox i → I.intUnbox i < I.bsLen s) →
  some (I.bsGet s i) = (if 0 ≤ I.intUnbox i then (I.bsVal s)[(I.intUnbox i).toNat]?
    else (I.bsVal s)[(I.bsLen s + I.intUnbox i).toNat]?) ∧
  byteBounds (I.bsGet s i)

/-- `PByteSeq_take`.  Models resources/byteseq.sil:44-48. -/
def axBsTake : Prop := ∀ s n, I.isa s .pbyteseq →
  I.bsTake s n = I.bsCreate ((I.bsVal s).take n.toNat) ∧ (n = I.bsLen s → I.bsTake s n = s)

/-- `PByteSeq_drop`.  Models resources/byteseq.sil:50-54. -/
def axBsDrop : Prop := ∀ s n, I.isa s .pbyteseq →
  I.bsDrop s n = I.bsCreate ((I.bsVal s).drop n.toNat) ∧ (n = 0 → I.bsDrop s n = s)

/-- `PByteSeq_update`.  Models resources/byteseq.sil:56-61. -/
def axBsUpdate (g : Int → Prop) : Prop := ∀ s i v, I.isa s .pbyteseq → 0 ≤ i → i < I.bsLen s → g v →
  byteBounds v ∧ I.bsUpdate s i v = I.bsCreate ((I.bsVal s).set i.toNat v)

/-- `PByteSeq___add__`.  Models resources/byteseq.sil:63-67. -/
def axBsAdd : Prop := ∀ a b, I.isa a .pbyteseq → I.isa b .pbyteseq →
  I.bsAdd a b = I.bsCreate (I.bsVal a ++ I.bsVal b)

/-- `PByteSeq___eq__`.  Models resources/byteseq.sil:69-75. -/
def axBsEq : Prop := ∀ a b, I.isa a .pbyteseq → I.isa b .pbyteseq →
  (I.bsEq a b ↔ I.bsVal a = I.bsVal b) ∧
  (I.bsEq a b → a = b) ∧
  (I.bsEq a b ↔ I.objEq a b)

/-- `PByteSeq___sil_seq__`.  Models resources/byteseq.sil:78-81. -/
def axBsSeq : Prop := ∀ s, I.isa s .pbyteseq → I.bsVal s = I.toInts (I.bsSeq s)

/-- The postconditions of `__seq_ref_to_seq_int` on length, elements and structure.  Models
resources/bool.sil:547-552. -/
def axToInts : Prop := ∀ s : List I.Ref,
  (I.toInts s).length = s.length ∧
  (∀ i : Nat, ∀ r, s[i]? = some r → I.isa r .int → (I.toInts s)[i]? = some (I.intUnbox r)) ∧
  (s = [] → I.toInts s = []) ∧
  (∀ r, I.isa r .int → I.toInts [r] = [I.intUnbox r]) ∧
  (∀ s₁ s₂, I.toInts (s₁ ++ s₂) = I.toInts s₁ ++ I.toInts s₂)

/-- The two postconditions of `__seq_ref_to_seq_int` on membership.  Models resources/bool.sil:553-554. -/
def axToIntsMem (g : List I.Ref → Prop) : Prop := ∀ s : List I.Ref, g s → ∀ i ∈ I.toInts s,
  (∃ r ∈ s, I.typeof r = .int ∧ i = I.intUnbox r ∧ r = I.intBox i) ∧
  (∃ r ∈ s, I.isa r .int ∧ i = I.intUnbox r)

end Interp

/-- All contracts together.  Models the parts of resources/bool.sil:298-336, 464-488 and 547-555,
resources/str.sil:8-39, resources/bytes.sil:8-100, resources/range.sil:8-86, resources/seq.sil:8-69,
resources/pset.sil:8-107 and resources/byteseq.sil:9-89 that are cited at the contracts. -/
structure Contracts (I : Interp) (g : Guard I) : Prop where
  null : I.axNull
  objEq : I.axObjEq
  intBox : I.axIntBox
  intUnbox : I.axIntUnbox
  boolBox : I.axBoolBox
  boolUnbox : I.axBoolUnbox
  intEq : I.axIntEq
  boolEq : I.axBoolEq
  strLen : I.axStrLen
  strCreate : I.axStrCreate g.str
  strBool : I.axStrBool
  strEq : I.axStrEq
  strAdd : I.axStrAdd g.strAdd
  bytesCreate : I.axBytesCreate g.bytes
  bytesBool : I.axBytesBool
  bytesEq : I.axBytesEq
  bytesAdd : I.axBytesAdd
  bytesGet : I.axBytesGet
  rangeCreate : I.axRangeCreate
  rangeStep : I.axRangeStep
  rangeSeq : I.axRangeSeq
  rangeEq : I.axRangeEq
  seqCreate : I.axSeqCreate g.seq
  seqContains : I.axSeqContains
  seqGet : I.axSeqGet
  seqLen : I.axSeqLen
  seqTake : I.axSeqTake
  seqDrop : I.axSeqDrop
  seqUpdate : I.axSeqUpdate
  seqAdd : I.axSeqAdd
  seqEq : I.axSeqEq
  setCreate : I.axSetCreate g.set
  setContains : I.axSetContains
  setSeq : I.axSetSeq
  setLen : I.axSetLen
  setAdd : I.axSetAdd
  setSub : I.axSetSub
  setEq : I.axSetEq
  msCreate : I.axMsCreate g.ms
  msNum : I.axMsNum
  msSeq : I.axMsSeq
  msLen : I.axMsLen
  msAdd : I.axMsAdd
  msSub : I.axMsSub
  msEq : I.axMsEq
  bsVal : I.axBsVal
  bsLen : I.axBsLen
  bsCreate : I.axBsCreate
  bsFromBytes : I.axBsFromBytes g.fromBytes
  bsContains : I.axBsContains
  bsGet : I.axBsGet
  bsTake : I.axBsTake
  bsDrop : I.axBsDrop
  bsUpdate : I.axBsUpdate g.update
  bsAdd : I.axBsAdd
  bsEq : I.axBsEq
  bsSeq : I.axBsSeq
  toInts : I.axToInts
  toIntsMem : I.axToIntsMem g.ints

/-- The contents of the bytearray returned by `bytearray___initFromInt__(n)`.  Models
resources/bytearray.sil:17-23. -/
def bytearrayFromInt (n : Int) (content : List Int) : Prop :=
  (content.length : Int) = n ∧ ∀ i : Nat, (i : Int) < n → content[i]? = some 0

end Nagini.Prelude
