import Verif.Lemmas.Prelude

/-!
C88: the contracts of the builtin values do not contradict each other.
C89: `==` of builtin values is Python's.
C90: pure sequences, sets and multisets are mathematical sequences, sets and multisets.
-/

set_option linter.unusedVariables false

namespace Nagini.Prelude

open Classical

/-! ### C88 -/

/-- C88, full statement: the contracts, as they are in the Silver files, have a common
interpretation, and the contract of `bytearray(n)` can be met for every `n`; otherwise a program that
uses the functions verifies whatever it asserts. -/
def C88 : Prop :=
  (∃ I : Interp, Contracts I (Guard.none I)) ∧ ∀ n, ∃ content, bytearrayFromInt n content

section
variable {I : Interp}

theorem typeof_null (h : I.axNull) : I.typeof I.null = .none := by
  have := (h I.null).2 rfl
  simpa [Interp.isa, sub] using this

theorem ne_null {r : I.Ref} (h : I.axNull) (hr : I.typeof r ≠ .none) : r ≠ I.null := by
  rintro rfl; exact hr (typeof_null h)

theorem isa_of_eq {r : I.Ref} {t : Ty} (h : I.typeof r = t) : I.isa r t := Or.inl h

theorem not_objEq_null {r : I.Ref} {g : Guard I} (h : Contracts I g) (hr : I.typeof r ≠ .none) :
    ¬ I.objEq r I.null := by
  apply ((h.objEq.2 r I.null).2.2)
  simp [ne_null h.null hr]

end

/-- `s.update(i, 1000)` on a non-empty `PByteSeq` is accepted and makes everything provable: the bounds
of the new element are a postcondition instead of a precondition. -/
theorem C88_update_fails (I : Interp) :
    ¬ Contracts I { Guard.produced I with update := fun _ => True } := by
  intro h
  have hc := h.bsCreate [0] (by simp [byteBounds])
  have hl := h.bsLen _ (isa_of_eq hc.1)
  rw [hc.2] at hl
  have := (h.bsUpdate (I.bsCreate [0]) 0 1000 (isa_of_eq hc.1) (by omega) (by rw [hl]; decide)
    trivial).1
  simp [byteBounds] at this

/-- `sum`, `bytearray` or `ToByteSeq` of a list that contains a `bool` makes everything provable: the
elements of the converted sequence are claimed to be of type `int` exactly. -/
theorem C88_seq_to_ints_fails (I : Interp) :
    ¬ Contracts I { Guard.produced I with ints := fun _ => True } := by
  intro h
  have hb := h.boolBox true
  have hi : I.isa (I.boolBox true) .int := by
    rw [Interp.isa, hb.1]; simp [sub]
  have h1 := (h.toInts []).2.2.2.1 _ hi
  obtain ⟨⟨r, hr, ht, _⟩, _⟩ := h.toIntsMem [I.boolBox true] trivial (I.intUnbox (I.boolBox true))
    (by rw [h1]; simp)
  rw [List.mem_singleton.1 hr, hb.1] at ht
  cases ht

/-- `str___create__` with arbitrary lengths is contradictory: equal strings have equal lengths. -/
theorem C88_str_create_fails (I : Interp) :
    ¬ Contracts I { Guard.produced I with str := fun _ v => ∀ c ∈ v, 0 ≤ c } := by
  intro h
  have h1 := h.strCreate 1 [] (by simp)
  have h2 := h.strCreate 2 [] (by simp)
  have he := h.strEq (I.strCreate 1 []) (I.strCreate 2 []) (isa_of_eq h1.2.2)
  have := he.2.1 (he.1.1 (by rw [h1.2.1, h2.2.1]))
  rw [h1.1, h2.1] at this
  omega

/-- `str___create__` with arbitrary contents is contradictory: the contents of `null` are those of
some string, which is then equal to `null`. -/
theorem C88_str_null_fails (I : Interp) :
    ¬ Contracts I { Guard.produced I with str := fun n v => n = v.length } := by
  intro h
  have h1 := h.strCreate (I.strVal I.null).length (I.strVal I.null) rfl
  have he := h.strEq _ I.null (isa_of_eq h1.2.2)
  exact not_objEq_null h (by rw [h1.2.2]; simp) (he.2.2.1 (he.1.1 h1.2.1))

/-- `str___add__` with an arbitrary second argument is contradictory. -/
theorem C88_str_add_fails (I : Interp) :
    ¬ Contracts I { Guard.produced I with strAdd := fun _ => True } := by
  intro h
  have h1 := h.strCreate 0 [] (by constructor <;> simp)
  have h2 := h.strAdd (I.strCreate 0 []) I.null (isa_of_eq h1.2.2) trivial
  have he := h.strEq _ I.null (isa_of_eq h2.2.1)
  refine not_objEq_null h (by rw [h2.2.1]; simp) (he.2.2.1 (he.1.1 ?_))
  rw [h2.2.2, h1.2.1]; rfl

/-- `bytes___create__` with arbitrary contents is contradictory. -/
theorem C88_bytes_create_fails (I : Interp) :
    ¬ Contracts I { Guard.produced I with bytes := fun _ => True } := by
  intro h
  have h1 := h.bytesCreate (I.bytesVal I.null) 0 trivial
  have he := h.bytesEq _ I.null (isa_of_eq h1.1)
  exact not_objEq_null h (by rw [h1.1]; simp) (he.2.2.1 (he.1.1 h1.2.2))

/-- `PSeq___create__` with elements of another type is contradictory. -/
theorem C88_seq_create_fails (I : Interp) :
    ¬ Contracts I { Guard.produced I with seq := fun _ _ => True } := by
  intro h
  have h1 := h.seqCreate [I.null] .int trivial
  have hs : I.isSeq (I.seqCreate [I.null] .int) := by
    rw [Interp.isSeq, Interp.isa, h1.1]; simp [arg, sub]
  have h2 := h.seqContains _ I.null hs
  have h3 := h2.2 (h2.1.2 (by rw [h1.2]; simp))
  rw [h1.1, Interp.isa, typeof_null h.null] at h3
  simp [arg, sub] at h3

/-- `PSet___create__` with elements of another type is contradictory. -/
theorem C88_set_create_fails (I : Interp) :
    ¬ Contracts I { Guard.produced I with set := fun _ _ => True } := by
  intro h
  have h1 := h.setCreate {I.null} .int trivial
  have hs : I.isSet (I.setCreate {I.null} .int) := by
    rw [Interp.isSet, Interp.isa, h1.1]; simp [arg, sub]
  have h2 := h.setContains _ I.null hs
  have h3 := h2.2 (h2.1.2 (by rw [h1.2]; simp))
  rw [h1.1, Interp.isa, typeof_null h.null] at h3
  simp [arg, sub] at h3

/-- `PMultiset___create__` with elements of another type is contradictory. -/
theorem C88_multiset_create_fails (I : Interp) :
    ¬ Contracts I { Guard.produced I with ms := fun _ _ => True } := by
  intro h
  have h1 := h.msCreate {I.null} .int trivial
  have hs : I.isMs (I.msCreate {I.null} .int) := by
    rw [Interp.isMs, Interp.isa, h1.1]; simp [arg, sub]
  have h2 := h.msNum _ I.null hs
  have h3 := h2.2 (by rw [h2.1, h1.2]; simp)
  rw [h1.1, Interp.isa, typeof_null h.null] at h3
  simp [arg, sub] at h3

/-- `PByteSeq___from_bytes__` with contents out of bounds is contradictory. -/
theorem C88_from_bytes_fails (I : Interp) :
    ¬ Contracts I { Guard.produced I with fromBytes := fun _ => True } := by
  intro h
  have h1 := h.bsFromBytes [256] trivial
  have h2 := h.bsVal _ (isa_of_eq h1.1) 256 (by rw [h1.2]; simp)
  simp [byteBounds] at h2

/-- `bytearray(n)` with a negative `n` is accepted and makes everything provable; Python raises
`ValueError`. -/
theorem C88_bytearray_fails (n : Int) (h : n < 0) : ¬ ∃ content, bytearrayFromInt n content := by
  rintro ⟨c, hc, _⟩; omega

/-- The full statement does not hold. -/
theorem C88_fails : ¬ C88 := fun h =>
  C88_bytearray_fails (-1) (by omega) (h.2 (-1))

/-- Not even its first half. -/
theorem C88_contracts_fails : ¬ ∃ I : Interp, Contracts I (Guard.none I) := by
  rintro ⟨I, h⟩
  have hc := h.bsCreate [0] (by simp [byteBounds])
  have hl := h.bsLen _ (isa_of_eq hc.1)
  rw [hc.2] at hl
  have := (h.bsUpdate (I.bsCreate [0]) 0 1000 (isa_of_eq hc.1) (by omega) (by rw [hl]; decide)
    trivial).1
  simp [byteBounds] at this

/-! ### C89 -/

/-- C89, full statement: under every interpretation of the contracts, the function that is called for
`v == w` returns what Python's `==` returns.  Contracts may only be used for the arguments of
`Guard.produced`. -/
def C89 : Prop := ∀ I : Interp, Contracts I (Guard.produced I) →
  ∀ v w : PV, eqCall I v (v.ref I) (w.ref I) ↔ pyEq v w = true

/-- A string is compared with an integer. -/
def strWithInt : PV → PV → Prop
  | .str _, .int _ => True
  | _, _ => False

/-- The type of a Python value. -/
def PV.ty : PV → Ty
  | .none => .none
  | .int _ => .int
  | .bool _ => .bool
  | .str _ => .str
  | .bytes _ => .bytes

section
variable {I : Interp} (h : Contracts I (Guard.produced I))
include h

theorem ref_str (s : List Nat) :
    I.strVal (PV.ref I (.str s)) = s.map (fun c : Nat => (c : Int)) ∧ I.typeof (PV.ref I (.str s)) = .str := by
  have := h.strCreate s.length (s.map (fun c : Nat => (c : Int)))
    ⟨by simp, by intro c hc; obtain ⟨n, _, rfl⟩ := List.mem_map.1 hc; omega⟩
  exact ⟨this.2.1, this.2.2⟩

theorem ref_bytes (s : List (Fin 256)) :
    I.bytesVal (PV.ref I (.bytes s)) = s.map (fun c : Fin 256 => I.intBox (c.val : Int)) ∧
      I.typeof (PV.ref I (.bytes s)) = .bytes := by
  have := h.bytesCreate (s.map (fun c : Fin 256 => I.intBox (c.val : Int))) 0 (by
    intro x hx
    obtain ⟨n, _, rfl⟩ := List.mem_map.1 hx
    exact ⟨_, rfl, by have := n.isLt; constructor <;> omega⟩)
  exact ⟨this.2.2, this.1⟩

theorem ref_ty (v : PV) : I.typeof (v.ref I) = v.ty := by
  cases v with
  | none => exact typeof_null h.null
  | int n => exact (h.intBox n).1
  | bool b => exact (h.boolBox b).1
  | str s => exact (ref_str h s).2
  | bytes s => exact (ref_bytes h s).2

theorem ref_isa (v : PV) (t : Ty) : I.isa (v.ref I) t ↔ sub v.ty t := by
  rw [Interp.isa, ref_ty h]

theorem intBox_inj {m n : Int} (e : I.intBox m = I.intBox n) : m = n := by
  rw [← (h.intBox m).2, e, (h.intBox n).2]

end

/-- C89, for all pairs except a string on the left and an integer on the right. -/
theorem C89_equality_partial (I : Interp) (h : Contracts I (Guard.produced I)) (v w : PV)
    (hvw : ¬ strWithInt v w) : eqCall I v (v.ref I) (w.ref I) ↔ pyEq v w = true := by
  have hw := fun t => ref_isa h w t
  have hv := fun t => ref_isa h v t
  cases v with
  | none =>
    show I.objEq I.null _ ↔ _
    cases w with
    | none => simpa [pyEq, PV.ref] using (h.objEq.2 I.null I.null).2.1 rfl
    | _ =>
      rw [(h.objEq.2 _ _).1]
      exact iff_of_false (not_objEq_null h (by rw [ref_ty h]; simp [PV.ty])) (by simp [pyEq])
  | int n =>
    have e := h.intEq (PV.ref I (.int n)) (w.ref I) ((hv _).2 (by simp [sub, PV.ty]))
    show I.intEq _ _ ↔ _
    cases w with
    | int m =>
      rw [e.2.1 ((hw _).2 (by simp [sub, PV.ty]))]
      simp only [PV.ref, (h.intBox _).2, pyEq]
      simp
    | bool b =>
      rw [e.2.1 ((hw _).2 (by simp [sub, PV.ty]))]
      simp only [PV.ref, (h.intBox _).2, (h.boolBox _).2.2, pyEq]
      simp
    | _ =>
      have := e.1 (by rw [hw, hw]; simp [sub, PV.ty])
      simp only [this, pyEq]
      simp
  | bool b =>
    have e := h.boolEq (PV.ref I (.bool b)) (w.ref I) ((hv _).2 (by simp [sub, PV.ty]))
    show I.boolEq _ _ ↔ _
    cases w with
    | int m =>
      rw [e.2.2.1 ⟨(hw _).2 (by simp [sub, PV.ty]), by rw [hw]; simp [sub, PV.ty]⟩]
      simp only [PV.ref, (h.intBox _).2, (h.boolBox _).2.2, pyEq]
      simp
    | bool c =>
      rw [e.2.1 ((hw _).2 (by simp [sub, PV.ty]))]
      simp only [PV.ref, (h.boolBox _).2.1, pyEq]
      simp
    | _ =>
      have := e.1 (by rw [hw]; simp [sub, PV.ty])
      simp only [this, pyEq]
      simp
  | str s =>
    have e := h.strEq (PV.ref I (.str s)) (w.ref I) ((hv _).2 (by simp [sub, PV.ty]))
    show I.strEq _ _ ↔ _
    cases w with
    | none =>
      have := not_objEq_null (r := PV.ref I (.str s)) h (by rw [ref_ty h]; simp [PV.ty])
      rw [e.2.2]
      exact iff_of_false this (by simp [pyEq])
    | int n => exact absurd trivial hvw
    | bool b =>
      have e' := h.boolEq (PV.ref I (.bool b)) (PV.ref I (.str s)) ((hw _).2 (by simp [sub, PV.ty]))
      have := e'.1 (by rw [hv]; simp [sub, PV.ty])
      rw [e.2.2, (h.objEq.2 _ _).1, ← e'.2.2.2]
      simp only [this, pyEq]
      simp
    | str s' =>
      rw [← e.1, (ref_str h s).1, (ref_str h s').1]
      simp only [pyEq, decide_eq_true_eq, PV.str.injEq]
      exact ⟨fun hh => List.map_injective_iff.2 (fun a b => by simp) hh, fun hh => by rw [hh]⟩
    | bytes s' =>
      have e' := h.bytesEq (PV.ref I (.bytes s')) (PV.ref I (.str s)) ((hw _).2 (by simp [sub, PV.ty]))
      have : ¬ I.bytesEq (PV.ref I (.bytes s')) (PV.ref I (.str s)) := by
        intro hh
        have := (e'.2.1 hh).1
        rw [hv] at this
        simp [sub, PV.ty] at this
      rw [e.2.2, (h.objEq.2 _ _).1, ← e'.2.2]
      simp only [this, pyEq]
      simp
  | bytes s =>
    have e := h.bytesEq (PV.ref I (.bytes s)) (w.ref I) ((hv _).2 (by simp [sub, PV.ty]))
    show I.bytesEq _ _ ↔ _
    cases w with
    | bytes s' =>
      rw [← e.1, (ref_bytes h s).1, (ref_bytes h s').1]
      simp only [pyEq, decide_eq_true_eq, PV.bytes.injEq]
      refine ⟨fun hh => List.map_injective_iff.2 (fun a b hab => ?_) hh, fun hh => by rw [hh]⟩
      have := intBox_inj h hab
      exact Fin.ext (by omega)
    | _ =>
      refine iff_of_false (fun hh => ?_) (by simp [pyEq])
      have := (e.2.1 hh).1
      rw [hw] at this
      simp [sub, PV.ty] at this

/-- `"a" == 5` is not decided: there is an interpretation of the contracts under which it holds,
because `str___eq__` compares the contents of its arguments without looking at the type of the second
one. -/
theorem C89_fails : ¬ C89 := by
  intro h
  have := (h (std True) (std_contracts True) (.str [97]) (.int 5)).1
  have hs : eqCall (std True) (.str [97]) (PV.ref (std True) (.str [97])) (PV.ref (std True) (.int 5)) := by
    show V.strVal True (.str [97]) = V.strVal True (.int 5)
    simp [V.strVal]
  have := this hs
  revert this
  decide

/-- The hypotheses of `C89_equality_partial` are met, and `True == 1` holds, `"ab" == "a"` does not. -/
example : eqCall (std False) (.bool true) (PV.ref (std False) (.bool true)) (PV.ref (std False) (.int 1)) ∧
    ¬ eqCall (std False) (.str [97, 98]) (PV.ref (std False) (.str [97, 98]))
      (PV.ref (std False) (.str [97])) :=
  ⟨(C89_equality_partial _ (std_contracts False) (.bool true) (.int 1) (by simp [strWithInt])).2 (by decide),
   fun hh => by
    have := (C89_equality_partial _ (std_contracts False) (.str [97, 98]) (.str [97])
      (by simp [strWithInt])).1 hh
    revert this; decide⟩

/-- C88 for the arguments of `Guard.produced`: all contracts hold of Python's values, with Python's
`==`.  Missing for the full statement: the arguments excluded by `Guard.produced`, for which the
contracts are contradictory. -/
theorem C88_consistent_partial :
    (∃ I : Interp, Contracts I (Guard.produced I) ∧
      ∀ v w : PV, eqCall I v (v.ref I) (w.ref I) ↔ pyEq v w = true) ∧
    ∀ n, 0 ≤ n → ∃ content, bytearrayFromInt n content := by
  refine ⟨⟨std False, std_contracts False, ?_⟩, ?_⟩
  · intro v w
    by_cases hvw : strWithInt v w
    · cases v with
      | str l =>
        cases w with
        | int n =>
          show V.strVal False (.str _) = V.strVal False (.int n) ↔ _
          simp only [V.strVal, pyEq, false_and, if_false]
          constructor
          · intro hh
            cases l with
            | nil => simp at hh
            | cons c l => simp at hh
          · intro hh; simp at hh
        | _ => exact absurd hvw (by simp [strWithInt])
      | _ => exact absurd hvw (by simp [strWithInt])
    · exact C89_equality_partial _ (std_contracts False) v w hvw
  · intro n hn
    refine ⟨List.replicate n.toNat 0, by simp; omega, ?_⟩
    intro i hi
    rw [List.getElem?_replicate, if_pos (by omega)]

/-! ### C90 -/

/-- The value and type of a `PSeq` expression. -/
theorem pseq_val (I : Interp) (h : Contracts I (Guard.produced I)) (t : Ty) (e : SeqE I.Ref)
    (he : e.ok (fun x => I.isa x t)) :
    e.pseq I t = I.seqCreate e.val t ∧ (∀ x ∈ e.val, I.isa x t) := by
  have key : ∀ l, (∀ x ∈ l, I.isa x t) → I.isSeq (I.seqCreate l t) ∧
      I.seqVal (I.seqCreate l t) = l ∧ arg (I.typeof (I.seqCreate l t)) = t := by
    intro l hl
    have h1 := h.seqCreate l t hl
    refine ⟨?_, h1.2, by rw [h1.1]; rfl⟩
    rw [Interp.isSeq, Interp.isa, h1.1]
    exact Or.inl rfl
  induction e with
  | lit l => exact ⟨rfl, he⟩
  | take e n ih =>
    obtain ⟨i1, i2⟩ := ih he
    obtain ⟨k1, k2, k3⟩ := key _ i2
    refine ⟨?_, fun x hx => i2 x (List.mem_of_mem_take hx)⟩
    simp only [SeqE.pseq, SeqE.val, i1]
    rw [(h.seqTake _ _ k1).1, k2, k3]
    rfl
  | drop e n ih =>
    obtain ⟨i1, i2⟩ := ih he
    obtain ⟨k1, k2, k3⟩ := key _ i2
    refine ⟨?_, fun x hx => i2 x (List.mem_of_mem_drop hx)⟩
    simp only [SeqE.pseq, SeqE.val, i1]
    rw [(h.seqDrop _ _ k1).1, k2, k3]
    rfl
  | update e i x ih =>
    obtain ⟨he, hi, hx⟩ := he
    obtain ⟨i1, i2⟩ := ih he
    obtain ⟨k1, k2, k3⟩ := key _ i2
    refine ⟨?_, fun y hy => ?_⟩
    · simp only [SeqE.pseq, SeqE.val, i1]
      rw [h.seqUpdate _ _ _ k1 (by omega) (by rw [h.seqLen _ k1, k2]; omega), k2, k3]
      rfl
    · rcases List.mem_or_eq_of_mem_set hy with hy | rfl
      · exact i2 y hy
      · exact hx
  | add a b iha ihb =>
    obtain ⟨i1, i2⟩ := iha he.1
    obtain ⟨j1, j2⟩ := ihb he.2
    obtain ⟨k1, k2, k3⟩ := key _ i2
    obtain ⟨l1, l2, l3⟩ := key _ j2
    refine ⟨?_, fun y hy => ?_⟩
    · simp only [SeqE.pseq, SeqE.val, i1, j1]
      rw [h.seqAdd _ _ k1 l1 (by rw [k3, l3]), k2, l2, k3]
    · rcases List.mem_append.1 hy with hy | hy
      · exact i2 y hy
      · exact j2 y hy

/-- C90, sequences: under every interpretation of the contracts, length, indexing, membership and
equality of `PSeq` expressions are those of the lists they denote. -/
theorem C90_sequences (I : Interp) (h : Contracts I (Guard.produced I)) (t : Ty) (e e' : SeqE I.Ref)
    (he : e.ok (fun x => I.isa x t)) (he' : e'.ok (fun x => I.isa x t)) :
    I.seqLen (e.pseq I t) = e.val.length ∧
    (∀ x, I.seqContains (e.pseq I t) x ↔ x ∈ e.val) ∧
    (∀ i x, pyIndex e.val i = some x → I.seqGet (e.pseq I t) (I.intBox i) = x) ∧
    (I.seqEq (e.pseq I t) (e'.pseq I t) ↔ e.val = e'.val) ∧
    (I.seqEq (e.pseq I t) (e'.pseq I t) ↔ e.pseq I t = e'.pseq I t) := by
  obtain ⟨i1, i2⟩ := pseq_val I h t e he
  obtain ⟨j1, j2⟩ := pseq_val I h t e' he'
  have key : ∀ l, (∀ x ∈ l, I.isa x t) → I.isSeq (I.seqCreate l t) ∧
      I.seqVal (I.seqCreate l t) = l ∧ arg (I.typeof (I.seqCreate l t)) = t := by
    intro l hl
    have h1 := h.seqCreate l t hl
    refine ⟨?_, h1.2, by rw [h1.1]; rfl⟩
    rw [Interp.isSeq, Interp.isa, h1.1]
    exact Or.inl rfl
  obtain ⟨k1, k2, k3⟩ := key _ i2
  obtain ⟨l1, l2, l3⟩ := key _ j2
  rw [i1, j1]
  have hlen : I.seqLen (I.seqCreate e.val t) = e.val.length := by rw [h.seqLen _ k1, k2]
  have heq := h.seqEq _ _ k1 l1 (by rw [k3, l3])
  refine ⟨hlen, ?_, ?_, ?_, ?_⟩
  · intro x
    rw [(h.seqContains _ x k1).1, k2]
  · intro i x hx
    have hb := (h.intBox i)
    have hu := hb.2
    unfold pyIndex at hx
    by_cases h0 : 0 ≤ i
    · rw [if_pos h0] at hx
      have hlt := (List.getElem?_eq_some_iff.1 hx).1
      have hg := (h.seqGet _ (I.intBox i) k1 (isa_of_eq hb.1) (by rw [hu]; omega)
        (by rw [hu, hlen]; omega)).1
      rw [hg, hu, if_pos h0, k2, Interp.at', hx]; rfl
    · rw [if_neg h0] at hx
      by_cases h1 : 0 ≤ (e.val.length : Int) + i
      · rw [if_pos h1] at hx
        have hg := (h.seqGet _ (I.intBox i) k1 (isa_of_eq hb.1) (by rw [hu, hlen]; omega)
          (by rw [hu]; omega)).1
        rw [hg, hu, if_neg h0, k2, hlen, Interp.at', hx]; rfl
      · rw [if_neg h1] at hx; cases hx
  · rw [heq.1, k2, l2]
  · exact ⟨heq.2.1, fun hh => by rw [heq.2.2]; exact (h.objEq.2 _ _).2.1 hh⟩

/-- The value of a `PByteSeq` expression. -/
theorem pbyteseq_val (I : Interp) (h : Contracts I (Guard.produced I)) (e : SeqE Int)
    (he : e.ok byteBounds) : e.pbyteseq I = I.bsCreate e.val ∧ (∀ x ∈ e.val, byteBounds x) := by
  induction e with
  | lit l => exact ⟨rfl, he⟩
  | take e n ih =>
    obtain ⟨i1, i2⟩ := ih he
    have k := h.bsCreate _ i2
    refine ⟨?_, fun x hx => i2 x (List.mem_of_mem_take hx)⟩
    simp only [SeqE.pbyteseq, SeqE.val, i1]
    rw [(h.bsTake _ _ (isa_of_eq k.1)).1, k.2]
    rfl
  | drop e n ih =>
    obtain ⟨i1, i2⟩ := ih he
    have k := h.bsCreate _ i2
    refine ⟨?_, fun x hx => i2 x (List.mem_of_mem_drop hx)⟩
    simp only [SeqE.pbyteseq, SeqE.val, i1]
    rw [(h.bsDrop _ _ (isa_of_eq k.1)).1, k.2]
    rfl
  | update e i x ih =>
    obtain ⟨he, hi, hx⟩ := he
    obtain ⟨i1, i2⟩ := ih he
    have k := h.bsCreate _ i2
    refine ⟨?_, fun y hy => ?_⟩
    · simp only [SeqE.pbyteseq, SeqE.val, i1]
      rw [(h.bsUpdate _ _ _ (isa_of_eq k.1) (by omega) (by rw [h.bsLen _ (isa_of_eq k.1), k.2]; omega) hx).2,
        k.2]
      rfl
    · rcases List.mem_or_eq_of_mem_set hy with hy | rfl
      · exact i2 y hy
      · exact hx
  | add a b iha ihb =>
    obtain ⟨i1, i2⟩ := iha he.1
    obtain ⟨j1, j2⟩ := ihb he.2
    have k := h.bsCreate _ i2
    have l := h.bsCreate _ j2
    refine ⟨?_, fun y hy => ?_⟩
    · simp only [SeqE.pbyteseq, SeqE.val, i1, j1]
      rw [h.bsAdd _ _ (isa_of_eq k.1) (isa_of_eq l.1), k.2, l.2]
    · rcases List.mem_append.1 hy with hy | hy
      · exact i2 y hy
      · exact j2 y hy

/-- C90, byte sequences: the same for `PByteSeq` expressions whose elements are bytes, and for the
conversion to a sequence of boxed integers and back. -/
theorem C90_byte_sequences (I : Interp) (h : Contracts I (Guard.produced I)) (e e' : SeqE Int)
    (he : e.ok byteBounds) (he' : e'.ok byteBounds) :
    I.bsLen (e.pbyteseq I) = e.val.length ∧
    (∀ x, I.bsContains (e.pbyteseq I) x ↔ x ∈ e.val) ∧
    (∀ i x, pyIndex e.val i = some x → I.bsGet (e.pbyteseq I) (I.intBox i) = x) ∧
    (I.bsEq (e.pbyteseq I) (e'.pbyteseq I) ↔ e.val = e'.val) ∧
    (I.bsEq (e.pbyteseq I) (e'.pbyteseq I) ↔ e.pbyteseq I = e'.pbyteseq I) ∧
    I.toInts (I.bsSeq (e.pbyteseq I)) = e.val ∧
    I.toInts (e.val.map I.intBox) = e.val := by
  obtain ⟨i1, i2⟩ := pbyteseq_val I h e he
  obtain ⟨j1, j2⟩ := pbyteseq_val I h e' he'
  have k := h.bsCreate _ i2
  have l := h.bsCreate _ j2
  have k1 := isa_of_eq (I := I) k.1
  have l1 := isa_of_eq (I := I) l.1
  rw [i1, j1]
  have hlen : I.bsLen (I.bsCreate e.val) = e.val.length := by rw [h.bsLen _ k1, k.2]
  have heq := h.bsEq _ _ k1 l1
  refine ⟨hlen, ?_, ?_, ?_, ?_, ?_, ?_⟩
  · intro x
    rw [h.bsContains _ x k1, k.2]
  · intro i x hx
    have hb := (h.intBox i)
    have hu := hb.2
    unfold pyIndex at hx
    by_cases h0 : 0 ≤ i
    · rw [if_pos h0] at hx
      have hlt := (List.getElem?_eq_some_iff.1 hx).1
      have hg := (h.bsGet _ (I.intBox i) k1 (isa_of_eq hb.1) (by rw [hu]; omega)
        (by rw [hu, hlen]; omega)).1
      rw [hu, if_pos h0, k.2, hx] at hg
      exact Option.some.inj hg
    · rw [if_neg h0] at hx
      by_cases h1 : 0 ≤ (e.val.length : Int) + i
      · rw [if_pos h1] at hx
        have hg := (h.bsGet _ (I.intBox i) k1 (isa_of_eq hb.1) (by rw [hu, hlen]; omega)
          (by rw [hu]; omega)).1
        rw [hu, if_neg h0, k.2, hlen, hx] at hg
        exact Option.some.inj hg
      · rw [if_neg h1] at hx; cases hx
  · rw [heq.1, k.2, l.2]
  · exact ⟨heq.2.1, fun hh => by rw [heq.2.2]; exact (h.objEq.2 _ _).2.1 hh⟩
  · rw [← h.bsSeq _ k1, k.2]
  · generalize e.val = v
    apply List.ext_getElem?
    intro i
    by_cases hi : i < v.length
    · have := (h.toInts (v.map I.intBox)).2.1 i (I.intBox v[i]) (by simp [hi])
        (isa_of_eq (h.intBox _).1)
      rw [this, (h.intBox _).2]
      simp [hi]
    · rw [List.getElem?_eq_none (by rw [(h.toInts _).1]; simp; omega), List.getElem?_eq_none (by omega)]

/-- C90, sets: membership, size and equality of `PSet` expressions are those of the sets they
denote. -/
theorem C90_sets (I : Interp) (h : Contracts I (Guard.produced I)) (t : Ty)
    (e e' : SetE (Finset I.Ref)) (he : e.ok (fun l => ∀ x ∈ l, I.isa x t))
    (he' : e'.ok (fun l => ∀ x ∈ l, I.isa x t)) :
    (∀ x, I.setContains (e.pset I t) x ↔ x ∈ e.val (· ∪ ·) (· \ ·)) ∧
    I.setLen (e.pset I t) = (e.val (· ∪ ·) (· \ ·)).card ∧
    (∀ x, x ∈ I.setSeq (e.pset I t) ↔ x ∈ e.val (· ∪ ·) (· \ ·)) ∧
    (I.setEq (e.pset I t) (e'.pset I t) ↔ e.val (· ∪ ·) (· \ ·) = e'.val (· ∪ ·) (· \ ·)) := by
  have key : ∀ l, (∀ x ∈ l, I.isa x t) → I.isSet (I.setCreate l t) ∧
      I.setVal (I.setCreate l t) = l ∧ arg (I.typeof (I.setCreate l t)) = t := by
    intro l hl
    have h1 := h.setCreate l t hl
    refine ⟨?_, h1.2, by rw [h1.1]; rfl⟩
    rw [Interp.isSet, Interp.isa, h1.1]
    exact Or.inl rfl
  have main : ∀ e : SetE (Finset I.Ref), e.ok (fun l => ∀ x ∈ l, I.isa x t) →
      e.pset I t = I.setCreate (e.val (· ∪ ·) (· \ ·)) t ∧ ∀ x ∈ e.val (· ∪ ·) (· \ ·), I.isa x t := by
    intro e
    induction e with
    | lit l => exact fun he => ⟨rfl, he⟩
    | add a b iha ihb =>
      intro he
      obtain ⟨i1, i2⟩ := iha he.1
      obtain ⟨j1, j2⟩ := ihb he.2
      obtain ⟨k1, k2, k3⟩ := key _ i2
      obtain ⟨l1, l2, l3⟩ := key _ j2
      refine ⟨?_, fun y hy => ?_⟩
      · simp only [SetE.pset, SetE.val, i1, j1]
        rw [h.setAdd _ _ k1 l1 (by rw [k3, l3]), k2, l2, k3]
      · rcases Finset.mem_union.1 hy with hy | hy
        · exact i2 y hy
        · exact j2 y hy
    | sub a b iha ihb =>
      intro he
      obtain ⟨i1, i2⟩ := iha he.1
      obtain ⟨j1, j2⟩ := ihb he.2
      obtain ⟨k1, k2, k3⟩ := key _ i2
      obtain ⟨l1, l2, l3⟩ := key _ j2
      refine ⟨?_, fun y hy => i2 y (Finset.mem_sdiff.1 hy).1⟩
      simp only [SetE.pset, SetE.val, i1, j1]
      rw [h.setSub _ _ k1 l1 (by rw [k3, l3]), k2, l2, k3]
  obtain ⟨i1, i2⟩ := main e he
  obtain ⟨j1, j2⟩ := main e' he'
  obtain ⟨k1, k2, k3⟩ := key _ i2
  obtain ⟨l1, l2, l3⟩ := key _ j2
  rw [i1, j1]
  refine ⟨?_, ?_, ?_, ?_⟩
  · intro x; rw [(h.setContains _ x k1).1, k2]
  · rw [h.setLen _ k1, k2]
  · intro x; rw [(h.setSeq _ k1).1, k2]
  · rw [(h.setEq _ _ k1 l1 (by rw [k3, l3])).1, k2, l2]

/-- C90, multisets: multiplicities, size and equality of `PMultiset` expressions are those of the
multisets they denote. -/
theorem C90_multisets (I : Interp) (h : Contracts I (Guard.produced I)) (t : Ty)
    (e e' : SetE (Multiset I.Ref)) (he : e.ok (fun l => ∀ x ∈ l, I.isa x t))
    (he' : e'.ok (fun l => ∀ x ∈ l, I.isa x t)) :
    (∀ x, I.msNum (e.pmset I t) x = ((e.val (· + ·) (· - ·)).count x : Int)) ∧
    I.msLen (e.pmset I t) = (e.val (· + ·) (· - ·)).card ∧
    (∀ x, x ∈ I.msSeq (e.pmset I t) ↔ x ∈ e.val (· + ·) (· - ·)) ∧
    (I.msEq (e.pmset I t) (e'.pmset I t) ↔ e.val (· + ·) (· - ·) = e'.val (· + ·) (· - ·)) := by
  have key : ∀ l, (∀ x ∈ l, I.isa x t) → I.isMs (I.msCreate l t) ∧
      I.msVal (I.msCreate l t) = l ∧ arg (I.typeof (I.msCreate l t)) = t := by
    intro l hl
    have h1 := h.msCreate l t hl
    refine ⟨?_, h1.2, by rw [h1.1]; rfl⟩
    rw [Interp.isMs, Interp.isa, h1.1]
    exact Or.inl rfl
  have main : ∀ e : SetE (Multiset I.Ref), e.ok (fun l => ∀ x ∈ l, I.isa x t) →
      e.pmset I t = I.msCreate (e.val (· + ·) (· - ·)) t ∧ ∀ x ∈ e.val (· + ·) (· - ·), I.isa x t := by
    intro e
    induction e with
    | lit l => exact fun he => ⟨rfl, he⟩
    | add a b iha ihb =>
      intro he
      obtain ⟨i1, i2⟩ := iha he.1
      obtain ⟨j1, j2⟩ := ihb he.2
      obtain ⟨k1, k2, k3⟩ := key _ i2
      obtain ⟨l1, l2, l3⟩ := key _ j2
      refine ⟨?_, fun y hy => ?_⟩
      · simp only [SetE.pmset, SetE.val, i1, j1]
        rw [h.msAdd _ _ k1 l1 (by rw [k3, l3]), k2, l2, k3]
      · rcases Multiset.mem_add.1 hy with hy | hy
        · exact i2 y hy
        · exact j2 y hy
    | sub a b iha ihb =>
      intro he
      obtain ⟨i1, i2⟩ := iha he.1
      obtain ⟨j1, j2⟩ := ihb he.2
      obtain ⟨k1, k2, k3⟩ := key _ i2
      obtain ⟨l1, l2, l3⟩ := key _ j2
      refine ⟨?_, fun y hy => i2 y (Multiset.mem_of_le (Multiset.sub_le_self _ _) hy)⟩
      simp only [SetE.pmset, SetE.val, i1, j1]
      rw [h.msSub _ _ k1 l1 (by rw [k3, l3]), k2, l2, k3]
  obtain ⟨i1, i2⟩ := main e he
  obtain ⟨j1, j2⟩ := main e' he'
  obtain ⟨k1, k2, k3⟩ := key _ i2
  obtain ⟨l1, l2, l3⟩ := key _ j2
  rw [i1, j1]
  refine ⟨?_, ?_, ?_, ?_⟩
  · intro x; rw [(h.msNum _ x k1).1, k2]
  · rw [h.msLen _ k1, k2]
  · intro x; rw [(h.msSeq _ k1).1, k2, Multiset.count_pos]
  · rw [(h.msEq _ _ k1 l1 (by rw [k3, l3])).1, k2, l2]

/-- The hypotheses are met by the standard interpretation: `PSeq(1, True).take(1) + PSeq(3)` has length
two, and its last element is `3`. -/
example (I : Interp) (h : Contracts I (Guard.produced I)) :
    let e : SeqE I.Ref := .add (.take (.lit [I.intBox 1, I.boolBox true]) 1) (.lit [I.intBox 3])
    I.seqLen (e.pseq I .int) = 2 ∧ I.seqGet (e.pseq I .int) (I.intBox (-1)) = I.intBox 3 := by
  have hi : ∀ n, I.isa (I.intBox n) .int := fun n => isa_of_eq (h.intBox n).1
  have hb : I.isa (I.boolBox true) .int := by rw [Interp.isa, (h.boolBox true).1]; simp [sub]
  have := C90_sequences I h .int
    (.add (.take (.lit [I.intBox 1, I.boolBox true]) 1) (.lit [I.intBox 3])) (.lit [])
    (by simp [SeqE.ok, hi, hb]) (by simp [SeqE.ok])
  exact ⟨this.1, this.2.2.1 (-1) _ (by simp [pyIndex, SeqE.val])⟩

/-- `PByteSeq(1, 2).update(0, 255)` contains 255 but not 1. -/
example (I : Interp) (h : Contracts I (Guard.produced I)) :
    let e : SeqE Int := .update (.lit [1, 2]) 0 255
    I.bsContains (e.pbyteseq I) 255 ∧ ¬ I.bsContains (e.pbyteseq I) 1 := by
  have := (C90_byte_sequences I h (.update (.lit [1, 2]) 0 255) (.lit [])
    (by simp [SeqE.ok, SeqE.val, byteBounds]) (by simp [SeqE.ok])).2.1
  exact ⟨(this _).2 (by simp [SeqE.val]), fun hh => by have := (this _).1 hh; simp [SeqE.val] at this⟩

/-- `PSet(1, 2) - PSet(2)` contains 1 but not 2. -/
example (I : Interp) (h : Contracts I (Guard.produced I)) :
    let e : SetE (Finset I.Ref) := .sub (.lit {I.intBox 1, I.intBox 2}) (.lit {I.intBox 2})
    I.setContains (e.pset I .int) (I.intBox 1) ∧ ¬ I.setContains (e.pset I .int) (I.intBox 2) := by
  have hi : ∀ n, I.isa (I.intBox n) .int := fun n => isa_of_eq (h.intBox n).1
  have hne : I.intBox 1 ≠ I.intBox 2 := fun hh => by have := intBox_inj h hh; omega
  have := (C90_sets I h .int (.sub (.lit {I.intBox 1, I.intBox 2}) (.lit {I.intBox 2})) (.lit ∅)
    (by simp [SetE.ok, hi]) (by simp [SetE.ok])).1
  exact ⟨(this _).2 (by simp [SetE.val, hne]), fun hh => by have := (this _).1 hh; simp [SetE.val] at this⟩

/-- `PMultiset(1) + PMultiset(1)` contains 1 twice. -/
example (I : Interp) (h : Contracts I (Guard.produced I)) :
    let e : SetE (Multiset I.Ref) := .add (.lit {I.intBox 1}) (.lit {I.intBox 1})
    I.msNum (e.pmset I .int) (I.intBox 1) = 2 := by
  have hi : ∀ n, I.isa (I.intBox n) .int := fun n => isa_of_eq (h.intBox n).1
  have := (C90_multisets I h .int (.add (.lit {I.intBox 1}) (.lit {I.intBox 1})) (.lit 0)
    (by simp [SetE.ok, hi]) (by simp [SetE.ok])).1 (I.intBox 1)
  exact this.trans (by simp [SetE.val])

end Nagini.Prelude
