import Verif.Spec.Prelude
import Mathlib.Tactic.Linarith
import Mathlib.Tactic.SplitIfs

set_option linter.unusedVariables false
set_option linter.unusedSimpArgs false

namespace Nagini.Prelude

open Classical

/-- Values of the standard interpretation. -/
inductive V where
  | none
  | int (n : Int)
  | bool (b : Bool)
  | str (l : List Int)
  | bytes (l : List V)
  | range (a b : Int) (l : List Int)
  | pseq (t : Ty) (l : List V)
  | pset (t : Ty) (l : List V)
  | pmset (t : Ty) (l : List V)
  | pbs (l : List Int)

namespace V

noncomputable def typeof : V → Ty
  | none => .none
  | int _ => .int
  | bool _ => .bool
  | str l => if ∀ c ∈ l, 0 ≤ c then .str else .object
  | bytes l => if ∀ x ∈ l, ∃ n, x = int n ∧ byteBounds n then .bytes else .object
  | range _ _ l => if l.Pairwise (· < ·) then .range else .object
  | pseq t l => if ∀ x : {x // x ∈ l}, sub (typeof x.1) t then .pseq t else .object
  | pset t l =>
    if l.toFinset.toList = l ∧ ∀ x : {x // x ∈ l}, sub (typeof x.1) t then .pset t else .object
  | pmset t l =>
    if (l : Multiset V).toList = l ∧ ∀ x : {x // x ∈ l}, sub (typeof x.1) t then .pmset t
    else .object
  | pbs l => if ∀ c ∈ l, byteBounds c then .pbyteseq else .object
termination_by v => sizeOf v
decreasing_by
  all_goals (have := List.sizeOf_lt_of_mem x.2; simp; omega)

theorem isa_none (v : V) : sub v.typeof .none ↔ v = none := by
  cases v <;> rw [typeof] <;> (try split_ifs) <;> simp [sub]

theorem isa_bool (v : V) : sub v.typeof .bool ↔ ∃ b, v = bool b := by
  cases v <;> rw [typeof] <;> (try split_ifs) <;> simp [sub]

theorem isa_int (v : V) : sub v.typeof .int ↔ (∃ n, v = int n) ∨ ∃ b, v = bool b := by
  cases v <;> rw [typeof] <;> (try split_ifs) <;> simp [sub]

theorem isa_float (v : V) : sub v.typeof .float ↔ (∃ n, v = int n) ∨ ∃ b, v = bool b := by
  cases v <;> rw [typeof] <;> (try split_ifs) <;> simp [sub]

theorem typeof_int (v : V) : v.typeof = .int ↔ ∃ n, v = int n := by
  cases v <;> rw [typeof] <;> (try split_ifs) <;> simp

theorem isa_str (v : V) : sub v.typeof .str ↔ ∃ l, v = str l ∧ ∀ c ∈ l, 0 ≤ c := by
  cases v <;> rw [typeof] <;> (try split_ifs with h) <;> simp [sub]
  · exact h
  · simpa using h

theorem isa_bytes (v : V) : sub v.typeof .bytes ↔
    ∃ l, v = bytes l ∧ ∀ x ∈ l, ∃ n, x = int n ∧ byteBounds n := by
  cases v <;> rw [typeof] <;> (try split_ifs with h) <;> simp [sub]
  · exact h
  · simpa using h

theorem isa_range (v : V) : sub v.typeof .range ↔
    ∃ a b l, v = range a b l ∧ l.Pairwise (· < ·) := by
  cases v <;> rw [typeof] <;> (try split_ifs with h) <;> simp [sub]
  · exact h
  · exact h

theorem isa_pbs (v : V) : sub v.typeof .pbyteseq ↔ ∃ l, v = pbs l ∧ ∀ c ∈ l, byteBounds c := by
  cases v <;> rw [typeof] <;> (try split_ifs with h) <;> simp [sub]
  · exact h
  · simpa using h

theorem isa_pseq (v : V) (t : Ty) : sub v.typeof (.pseq t) ↔
    ∃ l, v = pseq t l ∧ ∀ x ∈ l, sub x.typeof t := by
  cases v <;> rw [typeof] <;> (try split_ifs with h) <;> simp [sub]
  · rintro rfl; simpa [sub] using h
  · rintro rfl; simpa [sub] using h

theorem isa_pset (v : V) (t : Ty) : sub v.typeof (.pset t) ↔
    ∃ l, v = pset t l ∧ l.toFinset.toList = l ∧ ∀ x ∈ l, sub x.typeof t := by
  cases v <;> rw [typeof] <;> (try split_ifs with h) <;> simp [sub]
  · rintro rfl; simpa [sub] using h
  · rintro rfl; simpa [sub] using h

theorem isa_pmset (v : V) (t : Ty) : sub v.typeof (.pmset t) ↔
    ∃ l, v = pmset t l ∧ (l : Multiset V).toList = l ∧ ∀ x ∈ l, sub x.typeof t := by
  cases v <;> rw [typeof] <;> (try split_ifs with h) <;> simp [sub]
  · rintro rfl; simpa [sub] using h
  · rintro rfl; simpa [sub] using h

/-- Representative of the equality class.  With `tw`, the string "a" is equal to the integer 5,
which the contracts do not exclude. -/
noncomputable def key (tw : Prop) : V → V
  | bool b => int (if b then 1 else 0)
  | range _ _ l => range 0 0 l
  | str l => if tw ∧ l = [97] then int 5 else str l
  | v => v

noncomputable def strVal (tw : Prop) : V → List Int
  | str l => l
  | int n => if tw ∧ n = 5 then [97] else [-1]
  | _ => [-1]

def intUnbox : V → Int
  | int n => n
  | bool b => if b then 1 else 0
  | _ => 0

def boolUnbox : V → Bool
  | bool b => b
  | _ => false

def bytesVal : V → List V
  | bytes l => l
  | _ => [none]

def rangeVal : V → List Int
  | range _ _ l => l
  | _ => [0, 0]

def rangeStart : V → Int
  | range a _ _ => a
  | _ => 0

def rangeStop : V → Int
  | range _ b _ => b
  | _ => 0

def seqVal : V → List V
  | pseq _ l => l
  | _ => []

noncomputable def setVal : V → Finset V
  | pset _ l => l.toFinset
  | _ => ∅

def msVal : V → Multiset V
  | pmset _ l => l
  | _ => 0

def bsVal : V → List Int
  | pbs l => l
  | _ => []

def nth (l : List V) (i : Int) : V := l[i.toNat]?.getD none

noncomputable def listSet (l : List V) (i : Int) (x : V) : List V := l.set i.toNat x

def stepLen (a b s : Int) : Int := if b ≤ a then 0 else (b - a + s - 1) / s

end V

open V

/-- The standard interpretation: references are Python values. -/
noncomputable def std (tw : Prop) : Interp where
  Ref := V
  null := V.none
  typeof := V.typeof
  objEq a b := key tw a = key tw b
  intBox := V.int
  intUnbox := V.intUnbox
  boolBox := V.bool
  boolUnbox := V.boolUnbox
  intEq a b := sub b.typeof .int ∧ a.intUnbox = b.intUnbox
  boolEq a b := key tw a = key tw b
  strLen r := (strVal tw r).length
  strVal := strVal tw
  strCreate _ v := V.str v
  strBool r := (strVal tw r) ≠ [] ∧ r ≠ V.none
  strEq a b := strVal tw a = strVal tw b
  strAdd a b := V.str (strVal tw a ++ strVal tw b)
  bytesVal := V.bytesVal
  bytesCreate v _ := V.bytes v
  bytesBool r := r.bytesVal ≠ [] ∧ r ≠ V.none
  bytesEq a b := a.bytesVal = b.bytesVal
  bytesAdd a b := V.bytes (a.bytesVal ++ b.bytesVal)
  bytesGet r i := if 0 ≤ i then nth r.bytesVal i else nth r.bytesVal (r.bytesVal.length + i)
  rangeVal := V.rangeVal
  rangeStart := V.rangeStart
  rangeStop := V.rangeStop
  rangeCreate a b _ := V.range a b ((List.range (b - a).toNat).map (fun i : Nat => a + (i : Int)))
  rangeStep a b s _ :=
    V.range a b ((List.range (stepLen a b s).toNat).map (fun i : Nat => a + (i : Int) * s))
  rangeSeq r := r.rangeVal.map V.int
  rangeEq a b := a.rangeVal = b.rangeVal
  seqCreate l t := V.pseq t l
  seqVal := V.seqVal
  seqContains s x := x ∈ s.seqVal
  seqGet s i := if 0 ≤ i.intUnbox then nth s.seqVal i.intUnbox
    else nth s.seqVal (s.seqVal.length + i.intUnbox)
  seqLen s := s.seqVal.length
  seqTake s n := V.pseq (arg s.typeof) (s.seqVal.take n.toNat)
  seqDrop s n := V.pseq (arg s.typeof) (s.seqVal.drop n.toNat)
  seqUpdate s i x := V.pseq (arg s.typeof) (s.seqVal.set i.toNat x)
  seqAdd a b := V.pseq (arg a.typeof) (a.seqVal ++ b.seqVal)
  seqEq a b := a.seqVal = b.seqVal
  setCreate l t := V.pset t l.toList
  setVal := V.setVal
  setContains s x := x ∈ s.setVal
  setSeq s := s.setVal.toList
  setLen s := s.setVal.card
  setAdd a b := V.pset (arg a.typeof) (a.setVal ∪ b.setVal).toList
  setSub a b := V.pset (arg a.typeof) (a.setVal \ b.setVal).toList
  setEq a b := a.setVal = b.setVal
  msCreate l t := V.pmset t l.toList
  msVal := V.msVal
  msNum s x := s.msVal.count x
  msSeq s := s.msVal.toList
  msLen s := s.msVal.card
  msAdd a b := V.pmset (arg a.typeof) (a.msVal + b.msVal).toList
  msSub a b := V.pmset (arg a.typeof) (a.msVal - b.msVal).toList
  msEq a b := a.msVal = b.msVal
  bsVal := V.bsVal
  bsLen s := s.bsVal.length
  bsCreate := V.pbs
  bsFromBytes := V.pbs
  bsContains s i := i ∈ s.bsVal
  bsGet s i := (if 0 ≤ i.intUnbox then s.bsVal[i.intUnbox.toNat]?
    else s.bsVal[(s.bsVal.length + i.intUnbox).toNat]?).getD 0
  bsTake s n := V.pbs (s.bsVal.take n.toNat)
  bsDrop s n := V.pbs (s.bsVal.drop n.toNat)
  bsUpdate s i v := V.pbs (s.bsVal.set i.toNat v)
  bsAdd a b := V.pbs (a.bsVal ++ b.bsVal)
  bsEq a b := a.bsVal = b.bsVal
  bsSeq s := s.bsVal.map V.int
  toInts s := s.map V.intUnbox

theorem std_isa (tw : Prop) (r : V) (t : Ty) : (std tw).isa r t ↔ sub r.typeof t := Iff.rfl

section
variable (tw : Prop)

theorem std_null : (std tw).axNull := fun r => isa_none r

theorem std_objEq : (std tw).axObjEq := by
  refine ⟨fun a b c h1 h2 => Eq.trans h1 h2, fun a b => ⟨⟨Eq.symm, Eq.symm⟩, ?_, ?_⟩⟩
  · rintro rfl; rfl
  · intro h he
    apply h
    change key tw a = key tw b at he
    show a = V.none ↔ b = V.none
    cases a <;> cases b <;> simp only [key] at he <;> (try split_ifs at he) <;> simp_all

theorem std_intBox : (std tw).axIntBox := fun n => ⟨by show V.typeof _ = _; simp [std, V.typeof], rfl⟩

theorem std_intUnbox : (std tw).axIntUnbox := by
  intro (r : V) hr
  replace hr := (isa_int r).1 hr
  refine ⟨?_, ?_, ?_⟩
  · intro h
    obtain ⟨n, rfl⟩ := (typeof_int r).1 h
    rfl
  · intro h
    obtain ⟨b, rfl⟩ := (isa_bool r).1 h
    cases b <;> simp [std, V.intUnbox]
  · rintro (i : V) ⟨he, hi⟩
    replace hi := (isa_int i).1 hi
    change key tw r = key tw i at he
    show V.intUnbox i = V.intUnbox r
    rcases hr with ⟨n, rfl⟩ | ⟨n, rfl⟩ <;> rcases hi with ⟨m, rfl⟩ | ⟨m, rfl⟩ <;>
      simp [key] at he <;> simp [V.intUnbox, he]

theorem std_boolBox : (std tw).axBoolBox := fun n =>
  ⟨by show V.typeof _ = _; simp [std, V.typeof], rfl, rfl⟩

theorem std_boolUnbox : (std tw).axBoolUnbox := by
  intro (r : V) hr
  obtain ⟨b, rfl⟩ := (isa_bool r).1 hr
  rfl

theorem std_intEq : (std tw).axIntEq := by
  intro (a : V) (b : V) ha
  refine ⟨?_, ?_, ?_⟩
  · rintro h ⟨h1, _⟩; exact h (Or.inl h1)
  · intro h
    exact ⟨fun h => h.2, fun h' => ⟨h, h'⟩⟩
  · intro h
    replace ha := (isa_int a).1 ha
    have h0 := h
    replace h := (isa_int b).1 h
    show (sub b.typeof .int ∧ a.intUnbox = b.intUnbox) ↔ key tw a = key tw b
    rcases ha with ⟨n, rfl⟩ | ⟨n, rfl⟩ <;> rcases h with ⟨m, rfl⟩ | ⟨m, rfl⟩ <;>
      simp [key, V.intUnbox, typeof, sub]

theorem std_boolEq : (std tw).axBoolEq := by
  intro (a : V) (b : V) ha
  obtain ⟨c, rfl⟩ := (isa_bool a).1 ha
  refine ⟨?_, ?_, ?_, Iff.rfl⟩
  · intro h he
    apply h
    change key tw (.bool c) = key tw b at he
    rw [std_isa, isa_int]
    cases b <;> simp only [key] at he <;> (try split_ifs at he) <;> simp_all
  · intro h
    obtain ⟨d, rfl⟩ := (isa_bool b).1 h
    show key tw _ = key tw _ ↔ _
    cases c <;> cases d <;> simp [key, std, V.boolUnbox]
  · rintro ⟨h, h'⟩
    replace h := (isa_int b).1 h
    rw [std_isa, isa_bool] at h'
    rcases h with ⟨n, rfl⟩ | h
    · show key tw _ = key tw _ ↔ _
      cases c <;> simp [key, std, V.intUnbox]
    · exact absurd h h'

theorem std_strLen : (std tw).axStrLen := fun r => by show (0:Int) ≤ ((strVal tw r).length : Int); omega

theorem std_strCreate : (std tw).axStrCreate (Guard.produced (std tw)).str := by
  rintro n v ⟨rfl, h⟩
  exact ⟨rfl, rfl, by show V.typeof (.str v) = _; rw [V.typeof, if_pos h]⟩

theorem std_strBool : (std tw).axStrBool := by
  intro (r : V) hr
  refine ⟨fun h => ?_, fun h h' => h'.2 h⟩
  show (strVal tw r ≠ [] ∧ r ≠ V.none) ↔ ((strVal tw r).length : Int) ≠ 0
  have : r ≠ V.none := h
  simp only [ne_eq, this, not_false_eq_true, and_true]
  simp

theorem key_str {l : List Int} (hl : ∀ c ∈ l, 0 ≤ c) (b : V) :
    l = strVal tw b ↔ key tw (.str l) = key tw b := by
  have hne : l ≠ [-1] := by rintro rfl; have := hl (-1) (by simp); omega
  cases b with
  | int n =>
    simp only [strVal, key]
    by_cases h1 : tw ∧ n = 5 <;> by_cases h2 : tw ∧ l = [97] <;> simp [h1, h2, hne]
    all_goals first | exact fun h => h2 ⟨h1.1, h⟩ | exact fun h => h1 ⟨h2.1, h⟩ | exact fun h => h1 ⟨h2.1, h.symm⟩ | (constructor <;> exact fun h => h.symm)
  | bool c =>
    simp only [strVal, key]
    by_cases h2 : tw ∧ l = [97] <;> simp [h2, hne]
    cases c <;> simp
  | str l' =>
    simp only [strVal, key]
    by_cases h1 : tw ∧ l' = [97] <;> by_cases h2 : tw ∧ l = [97] <;> simp [h1, h2]
    all_goals first | exact fun h => h2 ⟨h1.1, h⟩ | exact fun h => h1 ⟨h2.1, h⟩ | exact fun h => h1 ⟨h2.1, h.symm⟩ | (constructor <;> exact fun h => h.symm)
  | _ =>
    simp only [strVal, key]
    by_cases h2 : tw ∧ l = [97] <;> simp [h2, hne]

theorem std_strEq : (std tw).axStrEq := by
  intro (a : V) (b : V) ha
  obtain ⟨l, rfl, hl⟩ := (isa_str a).1 ha
  refine ⟨Iff.rfl, ?_, ?_⟩
  · intro h
    change strVal tw _ = strVal tw b at h
    show ((strVal tw _).length : Int) = ((strVal tw b).length : Int)
    rw [h]
  · exact key_str tw hl b

theorem std_strAdd : (std tw).axStrAdd (Guard.produced (std tw)).strAdd := by
  intro (a : V) (b : V) ha hb
  obtain ⟨l, rfl, hl⟩ := (isa_str a).1 ha
  obtain ⟨l', rfl, hl'⟩ := (isa_str b).1 hb
  refine ⟨?_, ?_, rfl⟩
  · show (((l ++ l') : List Int).length : Int) = (l.length : Int) + (l'.length : Int)
    simp
  · show V.typeof (.str (l ++ l')) = _
    rw [V.typeof, if_pos]
    intro c hc
    rcases List.mem_append.1 hc with h | h
    · exact hl c h
    · exact hl' c h

theorem std_bytesCreate : (std tw).axBytesCreate (Guard.produced (std tw)).bytes := by
  intro (v : List V) c h
  refine ⟨?_, rfl, rfl⟩
  show V.typeof (.bytes v) = _
  rw [V.typeof, if_pos]
  exact h

theorem std_bytesBool : (std tw).axBytesBool := by
  intro (r : V) hr
  refine ⟨fun h h' => h'.2 h, fun h => ?_⟩
  show (r.bytesVal ≠ [] ∧ r ≠ V.none) ↔ ((r.bytesVal).length : Int) ≠ 0
  have : r ≠ V.none := h
  simp only [ne_eq, this, not_false_eq_true, and_true]
  simp

theorem key_bytes {l : List V} (hl : ∀ x ∈ l, ∃ n, x = V.int n ∧ byteBounds n) (b : V) :
    l = b.bytesVal ↔ V.bytes l = key tw b := by
  have hne : l ≠ [V.none] := by
    rintro rfl
    obtain ⟨n, hn, _⟩ := hl V.none (by simp)
    cases hn
  cases b with
  | str l' =>
    simp only [bytesVal, key]
    split_ifs <;> simp [hne]
  | _ => simp [bytesVal, key, hne]

theorem std_bytesEq : (std tw).axBytesEq := by
  intro (a : V) (b : V) ha
  obtain ⟨l, rfl, hl⟩ := (isa_bytes a).1 ha
  refine ⟨Iff.rfl, ?_, key_bytes tw hl b⟩
  intro h
  have hb : b = V.bytes l := by
    have := (key_bytes tw hl b).1 h
    cases b <;> simp only [key] at this <;> (try split_ifs at this) <;> simp_all
  subst hb
  exact ⟨ha, rfl⟩

theorem std_bytesAdd : (std tw).axBytesAdd := by
  intro (a : V) (b : V) ha hb
  obtain ⟨l, rfl, hl⟩ := (isa_bytes a).1 ha
  obtain ⟨l', rfl, hl'⟩ := (isa_bytes b).1 hb
  refine ⟨?_, ?_, rfl⟩
  · show V.typeof (.bytes (l ++ l')) = _
    rw [V.typeof, if_pos]
    intro c hc
    rcases List.mem_append.1 hc with h | h
    · exact hl c h
    · exact hl' c h
  · show (((l ++ l') : List V).length : Int) = (l.length : Int) + (l'.length : Int)
    simp

theorem nth_mem {l : List V} {i : Int} (h0 : 0 ≤ i) (h : i < l.length) : nth l i ∈ l := by
  have : i.toNat < l.length := by omega
  rw [nth, List.getElem?_eq_getElem this]
  exact List.getElem_mem this

theorem std_bytesGet : (std tw).axBytesGet := by
  intro (r : V) i hr h1 h2
  obtain ⟨l, rfl, hl⟩ := (isa_bytes r).1 hr
  change 0 ≤ i → i < (l.length : Int) at h1
  change i < 0 → -(l.length : Int) ≤ i at h2
  refine ⟨?_, ?_, ?_⟩
  · show sub (V.typeof (if 0 ≤ i then nth l i else nth l (l.length + i))) .int
    have hm : (if 0 ≤ i then nth l i else nth l (l.length + i)) ∈ l := by
      split_ifs with h
      · exact nth_mem h (h1 h)
      · exact nth_mem (by have := h2 (by omega); omega) (by omega)
    obtain ⟨n, hn, _⟩ := hl _ hm
    rw [hn]
    exact (isa_int _).2 (Or.inl ⟨n, rfl⟩)
  · intro h
    show (if 0 ≤ i then nth l i else nth l (l.length + i)) = nth l i
    rw [if_pos h]
  · intro h
    show (if 0 ≤ i then nth l i else nth l (l.length + i)) = nth l (l.length + i)
    rw [if_neg (by omega)]

theorem pairwise_step (a s : Int) (hs : 1 ≤ s) (n : Nat) :
    ((List.range n).map (fun i : Nat => a + (i : Int) * s)).Pairwise (· < ·) := by
  rw [List.pairwise_map]
  refine List.Pairwise.imp ?_ List.pairwise_lt_range
  intro i j h
  have : ((i : Int) + 1) * s ≤ (j : Int) * s := Int.mul_le_mul_of_nonneg_right (by omega) (by omega)
  rw [Int.add_mul] at this
  omega

theorem std_rangeCreate : (std tw).axRangeCreate := by
  intro a b c h
  refine ⟨rfl, rfl, rfl, ?_⟩
  show V.typeof (.range a b _) = _
  rw [V.typeof, if_pos]
  have := pairwise_step a 1 (by omega) (b - a).toNat
  simpa using this

theorem std_rangeStep : (std tw).axRangeStep := by
  intro a b s c h
  refine ⟨rfl, rfl, ?_, ?_, ?_⟩
  · show V.typeof (.range a b _) = _
    rw [V.typeof, if_pos]
    exact pairwise_step a s h _
  · show (((List.range (stepLen a b s).toNat).map (fun i : Nat => a + (i : Int) * s)).length : Int) = _
    rw [List.length_map, List.length_range]
    have : 0 ≤ stepLen a b s := by
      unfold stepLen
      split_ifs
      · omega
      · exact Int.ediv_nonneg (by omega) (by omega)
    rw [Int.toNat_of_nonneg this, stepLen]
  · intro i hi
    change i < ((List.range (stepLen a b s).toNat).map (fun i : Nat => a + (i : Int) * s)).length at hi
    show ((List.range (stepLen a b s).toNat).map (fun i : Nat => a + (i : Int) * s))[i]? = _
    rw [List.length_map, List.length_range] at hi
    simp [List.getElem?_map, List.getElem?_range hi]

theorem std_rangeSeq : (std tw).axRangeSeq := by
  intro (r : V) hr
  refine ⟨?_, ?_, ?_⟩
  · show ((r.rangeVal.map V.int).length : Int) = (r.rangeVal.length : Int)
    simp
  · intro i hi
    show (r.rangeVal.map V.int)[i]? = (r.rangeVal[i]?).map V.int
    simp
  · intro (i : V)
    show i ∈ r.rangeVal.map V.int ↔ (i.typeof = .int ∧ i.intUnbox ∈ r.rangeVal)
    rw [typeof_int, List.mem_map]
    constructor
    · rintro ⟨n, hn, rfl⟩; exact ⟨⟨n, rfl⟩, hn⟩
    · rintro ⟨⟨n, rfl⟩, hn⟩; exact ⟨n, hn, rfl⟩

theorem std_rangeEq : (std tw).axRangeEq := by
  intro (x : V) (y : V) hx
  obtain ⟨a, b, l, rfl, hl⟩ := (isa_range x).1 hx
  have hne : l ≠ [0, 0] := by rintro rfl; simp at hl
  refine ⟨Iff.rfl, ?_, ?_⟩
  · intro h
    change l = y.rangeVal at h
    refine ⟨?_, by show (l.length : Int) = (y.rangeVal.length : Int); rw [h]⟩
    rw [std_isa, isa_range]
    cases y <;> simp only [V.rangeVal] at h <;> first | exact absurd h hne | skip
    exact ⟨_, _, _, rfl, h ▸ hl⟩
  · show l = y.rangeVal ↔ V.range 0 0 l = key tw y
    cases y with
    | str l' => simp only [V.rangeVal, key]; split_ifs <;> simp [hne]
    | _ => simp [V.rangeVal, key, hne]

theorem std_isSeq {s : V} (h : (std tw).isSeq s) :
    ∃ t l, s = V.pseq t l ∧ s.typeof = .pseq t ∧ ∀ x ∈ l, sub x.typeof t := by
  obtain ⟨l, h1, h2⟩ := (isa_pseq s _).1 h
  refine ⟨_, l, h1, ?_, h2⟩
  have h' : sub s.typeof (.pseq (arg s.typeof)) := h
  have : s.typeof = .pseq (arg s.typeof) := by simpa [sub] using h'
  exact this

theorem typeof_pseq {t : Ty} {l : List V} (h : ∀ x ∈ l, sub x.typeof t) :
    (V.pseq t l).typeof = .pseq t := by
  rw [V.typeof, if_pos]; exact fun x => h _ x.2

theorem std_seqCreate : (std tw).axSeqCreate (Guard.produced (std tw)).seq :=
  fun l t h => ⟨typeof_pseq h, rfl⟩

theorem std_seqContains : (std tw).axSeqContains := by
  intro (s : V) (x : V) hs
  obtain ⟨t, l, rfl, ht, hl⟩ := std_isSeq tw hs
  refine ⟨Iff.rfl, fun h => ?_⟩
  show sub x.typeof (arg (V.typeof _))
  rw [ht]
  exact hl x h

theorem std_seqGet : (std tw).axSeqGet := by
  intro (s : V) (i : V) hs hi h1 h2
  obtain ⟨t, l, rfl, ht, hl⟩ := std_isSeq tw hs
  refine ⟨rfl, ?_⟩
  change i.intUnbox < 0 → -(l.length : Int) ≤ i.intUnbox at h1
  change 0 ≤ i.intUnbox → i.intUnbox < (l.length : Int) at h2
  show sub (V.typeof (if 0 ≤ i.intUnbox then nth l i.intUnbox else nth l (l.length + i.intUnbox)))
    (arg (V.typeof _))
  rw [ht]
  apply hl
  split_ifs with h
  · exact nth_mem h (h2 h)
  · exact nth_mem (by have := h1 (by omega); omega) (by omega)

theorem std_seqLen : (std tw).axSeqLen := fun s _ => rfl

theorem std_seqTake : (std tw).axSeqTake := by
  intro (s : V) n hs
  refine ⟨rfl, ?_⟩
  obtain ⟨t, l, rfl, ht, hl⟩ := std_isSeq tw hs
  intro h
  change n = (l.length : Int) at h
  show V.pseq (arg (V.typeof _)) (l.take n.toNat) = _
  rw [ht, h]
  simp [arg]

theorem std_seqDrop : (std tw).axSeqDrop := by
  intro (s : V) n hs
  refine ⟨rfl, ?_⟩
  obtain ⟨t, l, rfl, ht, hl⟩ := std_isSeq tw hs
  rintro rfl
  show V.pseq (arg (V.typeof _)) (l.drop (0 : Int).toNat) = _
  rw [ht]
  simp [arg]

theorem std_seqUpdate : (std tw).axSeqUpdate := fun s i x _ _ _ => rfl
theorem std_seqAdd : (std tw).axSeqAdd := fun a b _ _ _ => rfl

theorem std_seqEq : (std tw).axSeqEq := by
  intro (a : V) (b : V) ha hb hab
  obtain ⟨t, l, rfl, ht, hl⟩ := std_isSeq tw ha
  obtain ⟨t', l', rfl, ht', hl'⟩ := std_isSeq tw hb
  change arg (V.typeof _) = arg (V.typeof _) at hab
  rw [ht, ht'] at hab
  change t = t' at hab
  subst hab
  refine ⟨Iff.rfl, ?_, ?_⟩
  · intro h; change l = l' at h; rw [h]
  · show l = l' ↔ V.pseq t l = V.pseq t l'
    simp

theorem std_isSet {s : V} (h : (std tw).isSet s) :
    ∃ t l, s = V.pset t l ∧ s.typeof = .pset t ∧ l.toFinset.toList = l ∧
      ∀ x ∈ l, sub x.typeof t := by
  obtain ⟨l, h1, h2⟩ := (isa_pset s _).1 h
  refine ⟨_, l, h1, ?_, h2⟩
  have h' : sub s.typeof (.pset (arg s.typeof)) := h
  have : s.typeof = .pset (arg s.typeof) := by simpa [sub] using h'
  exact this

theorem std_setCreate : (std tw).axSetCreate (Guard.produced (std tw)).set := by
  intro (l : Finset V) t h
  change ∀ x ∈ l, sub (V.typeof x) t at h
  refine ⟨?_, ?_⟩
  · show V.typeof (.pset t l.toList) = _
    rw [V.typeof, if_pos]
    refine ⟨by rw [Finset.toList_toFinset], fun x => h _ (by simpa using x.2)⟩
  · show (l.toList).toFinset = l
    exact Finset.toList_toFinset l

theorem std_setContains : (std tw).axSetContains := by
  intro (s : V) (x : V) hs
  obtain ⟨t, l, rfl, ht, hc, hl⟩ := std_isSet tw hs
  refine ⟨Iff.rfl, fun h => ?_⟩
  show sub x.typeof (arg (V.typeof _))
  rw [ht]
  change x ∈ l.toFinset at h
  exact hl x (by simpa using h)

theorem std_setSeq : (std tw).axSetSeq := by
  intro (s : V) hs
  refine ⟨fun (r : V) => ?_, ?_⟩
  · show r ∈ s.setVal.toList ↔ r ∈ s.setVal
    simp
  · show s.setVal.toList.length = s.setVal.card
    simp

theorem std_setLen : (std tw).axSetLen := fun s _ => rfl
theorem std_setAdd : (std tw).axSetAdd := by
  intro a b _ _ _
  show V.pset _ _ = V.pset _ _
  congr! 2
theorem std_setSub : (std tw).axSetSub := by
  intro a b _ _ _
  show V.pset _ _ = V.pset _ _
  congr! 2

theorem std_setEq : (std tw).axSetEq := by
  intro (a : V) (b : V) ha hb hab
  obtain ⟨t, l, rfl, ht, hc, hl⟩ := std_isSet tw ha
  obtain ⟨t', l', rfl, ht', hc', hl'⟩ := std_isSet tw hb
  change arg (V.typeof _) = arg (V.typeof _) at hab
  rw [ht, ht'] at hab
  change t = t' at hab
  subst hab
  have key' : l.toFinset = l'.toFinset → l = l' := by
    intro h; rw [← hc, ← hc', h]
  refine ⟨Iff.rfl, ?_, ?_⟩
  · intro h; rw [key' h]
  · show l.toFinset = l'.toFinset ↔ V.pset t l = V.pset t l'
    constructor
    · intro h; rw [key' h]
    · intro h; cases h; rfl

theorem std_isMs {s : V} (h : (std tw).isMs s) :
    ∃ t l, s = V.pmset t l ∧ s.typeof = .pmset t ∧ (l : Multiset V).toList = l ∧
      ∀ x ∈ l, sub x.typeof t := by
  obtain ⟨l, h1, h2⟩ := (isa_pmset s _).1 h
  refine ⟨_, l, h1, ?_, h2⟩
  have h' : sub s.typeof (.pmset (arg s.typeof)) := h
  have : s.typeof = .pmset (arg s.typeof) := by simpa [sub] using h'
  exact this

theorem std_msCreate : (std tw).axMsCreate (Guard.produced (std tw)).ms := by
  intro (l : Multiset V) t h
  change ∀ x ∈ l, sub (V.typeof x) t at h
  refine ⟨?_, ?_⟩
  · show V.typeof (.pmset t l.toList) = _
    rw [V.typeof, if_pos]
    refine ⟨by rw [Multiset.coe_toList], fun x => h _ (by simpa using x.2)⟩
  · show ((l.toList : List V) : Multiset V) = l
    exact Multiset.coe_toList l

theorem std_msNum : (std tw).axMsNum := by
  intro (s : V) (x : V) hs
  obtain ⟨t, l, rfl, ht, hc, hl⟩ := std_isMs tw hs
  refine ⟨rfl, fun h => ?_⟩
  show sub x.typeof (arg (V.typeof _))
  rw [ht]
  change (0 : Int) < ((l : Multiset V).count x : Int) at h
  have h' : 0 < (l : Multiset V).count x := by omega
  exact hl x (by simpa using Multiset.count_pos.1 h')

theorem std_msSeq : (std tw).axMsSeq := by
  intro (s : V) hs
  refine ⟨fun (r : V) => ?_, ?_⟩
  · show r ∈ s.msVal.toList ↔ 0 < s.msVal.count r
    rw [Multiset.count_pos]; simp
  · show s.msVal.toList.length = s.msVal.card
    simp

theorem std_msLen : (std tw).axMsLen := fun s _ => rfl
theorem std_msAdd : (std tw).axMsAdd := fun a b _ _ _ => rfl
theorem std_msSub : (std tw).axMsSub := fun a b _ _ _ => rfl

theorem std_msEq : (std tw).axMsEq := by
  intro (a : V) (b : V) ha hb hab
  obtain ⟨t, l, rfl, ht, hc, hl⟩ := std_isMs tw ha
  obtain ⟨t', l', rfl, ht', hc', hl'⟩ := std_isMs tw hb
  change arg (V.typeof _) = arg (V.typeof _) at hab
  rw [ht, ht'] at hab
  change t = t' at hab
  subst hab
  have key' : (l : Multiset V) = (l' : Multiset V) → l = l' := by
    intro h; rw [← hc, ← hc', h]
  refine ⟨Iff.rfl, ?_, ?_⟩
  · intro h; rw [key' h]
  · show (l : Multiset V) = (l' : Multiset V) ↔ V.pmset t l = V.pmset t l'
    constructor
    · intro h; rw [key' h]
    · intro h; cases h; rfl

theorem std_bsVal : (std tw).axBsVal := by
  intro (s : V) hs
  obtain ⟨l, rfl, hl⟩ := (isa_pbs s).1 hs
  exact hl

theorem std_bsLen : (std tw).axBsLen := fun s _ => rfl

theorem std_bsCreate : (std tw).axBsCreate := by
  intro l h
  refine ⟨?_, rfl⟩
  show V.typeof (.pbs l) = _
  rw [V.typeof, if_pos h]

theorem std_bsFromBytes : (std tw).axBsFromBytes (Guard.produced (std tw)).fromBytes :=
  fun l h => std_bsCreate tw l h

theorem std_bsContains : (std tw).axBsContains := fun s i _ => Iff.rfl

theorem std_bsGet : (std tw).axBsGet := by
  intro (s : V) (i : V) hs hi h1 h2
  obtain ⟨l, rfl, hl⟩ := (isa_pbs s).1 hs
  change i.intUnbox < 0 → -(l.length : Int) ≤ i.intUnbox at h1
  change 0 ≤ i.intUnbox → i.intUnbox < (l.length : Int) at h2
  show some ((if 0 ≤ i.intUnbox then l[i.intUnbox.toNat]?
      else l[((l.length : Int) + i.intUnbox).toNat]?).getD 0) = (if 0 ≤ i.intUnbox then l[i.intUnbox.toNat]?
      else l[((l.length : Int) + i.intUnbox).toNat]?) ∧ byteBounds ((if 0 ≤ i.intUnbox then l[i.intUnbox.toNat]?
      else l[((l.length : Int) + i.intUnbox).toNat]?).getD 0)
  split_ifs with h
  · have : i.intUnbox.toNat < l.length := by have := h2 h; omega
    rw [List.getElem?_eq_getElem this]
    exact ⟨rfl, hl _ (List.getElem_mem this)⟩
  · have : ((l.length : Int) + i.intUnbox).toNat < l.length := by have := h1 (by omega); omega
    rw [List.getElem?_eq_getElem this]
    exact ⟨rfl, hl _ (List.getElem_mem this)⟩

theorem std_bsTake : (std tw).axBsTake := by
  intro (s : V) n hs
  obtain ⟨l, rfl, hl⟩ := (isa_pbs s).1 hs
  refine ⟨rfl, ?_⟩
  intro h
  change n = (l.length : Int) at h
  show V.pbs (l.take n.toNat) = _
  rw [h]; simp

theorem std_bsDrop : (std tw).axBsDrop := by
  intro (s : V) n hs
  obtain ⟨l, rfl, hl⟩ := (isa_pbs s).1 hs
  refine ⟨rfl, ?_⟩
  rintro rfl
  rfl

theorem std_bsUpdate : (std tw).axBsUpdate (Guard.produced (std tw)).update :=
  fun s i v _ _ _ h => ⟨h, rfl⟩
theorem std_bsAdd : (std tw).axBsAdd := fun a b _ _ => rfl

theorem std_bsEq : (std tw).axBsEq := by
  intro (a : V) (b : V) ha hb
  obtain ⟨l, rfl, hl⟩ := (isa_pbs a).1 ha
  obtain ⟨l', rfl, hl'⟩ := (isa_pbs b).1 hb
  refine ⟨Iff.rfl, ?_, ?_⟩
  · intro h; change l = l' at h; rw [h]
  · show l = l' ↔ V.pbs l = V.pbs l'
    simp

theorem std_bsSeq : (std tw).axBsSeq := by
  intro (s : V) hs
  show s.bsVal = (s.bsVal.map V.int).map V.intUnbox
  rw [List.map_map]
  exact (List.map_id _).symm

theorem std_toInts : (std tw).axToInts := by
  intro (s : List V)
  refine ⟨?_, ?_, ?_, ?_, ?_⟩
  · show (s.map V.intUnbox).length = s.length
    simp
  · intro i (r : V) h _
    change s[i]? = some r at h
    show (s.map V.intUnbox)[i]? = some (V.intUnbox r)
    simp [h]
  · rintro rfl; rfl
  · intro (r : V) _; rfl
  · intro (s₁ : List V) (s₂ : List V)
    show (s₁ ++ s₂).map V.intUnbox = _
    rw [List.map_append]; rfl

theorem std_toIntsMem : (std tw).axToIntsMem (Guard.produced (std tw)).ints := by
  intro (s : List V) h i hi
  change i ∈ s.map V.intUnbox at hi
  obtain ⟨r, hr, rfl⟩ := List.mem_map.1 hi
  obtain ⟨n, rfl⟩ := (typeof_int r).1 (h r hr)
  exact ⟨⟨_, hr, h _ hr, rfl, rfl⟩, ⟨_, hr, (isa_int _).2 (Or.inl ⟨n, rfl⟩), rfl⟩⟩

theorem std_contracts : Contracts (std tw) (Guard.produced (std tw)) := by
  constructor
  all_goals first
    | exact std_null tw | exact std_objEq tw | exact std_intBox tw | exact std_intUnbox tw
    | exact std_boolBox tw | exact std_boolUnbox tw | exact std_intEq tw | exact std_boolEq tw
    | exact std_strLen tw | exact std_strCreate tw | exact std_strBool tw | exact std_strEq tw
    | exact std_strAdd tw | exact std_bytesCreate tw | exact std_bytesBool tw | exact std_bytesEq tw
    | exact std_bytesAdd tw | exact std_bytesGet tw | exact std_rangeCreate tw
    | exact std_rangeStep tw | exact std_rangeSeq tw | exact std_rangeEq tw
    | exact std_seqCreate tw | exact std_seqContains tw | exact std_seqGet tw | exact std_seqLen tw
    | exact std_seqTake tw | exact std_seqDrop tw | exact std_seqUpdate tw | exact std_seqAdd tw
    | exact std_seqEq tw | exact std_setCreate tw | exact std_setContains tw | exact std_setSeq tw
    | exact std_setLen tw | exact std_setAdd tw | exact std_setSub tw | exact std_setEq tw
    | exact std_msCreate tw | exact std_msNum tw | exact std_msSeq tw | exact std_msLen tw
    | exact std_msAdd tw | exact std_msSub tw | exact std_msEq tw | exact std_bsVal tw
    | exact std_bsLen tw | exact std_bsCreate tw | exact std_bsFromBytes tw
    | exact std_bsContains tw | exact std_bsGet tw | exact std_bsTake tw | exact std_bsDrop tw
    | exact std_bsUpdate tw | exact std_bsAdd tw | exact std_bsEq tw | exact std_bsSeq tw
    | exact std_toInts tw | exact std_toIntsMem tw

end
end Nagini.Prelude
