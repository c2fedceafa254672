/-
C120: the type of a member is its declared type, with the type arguments of the receiver.
-/
import Verif.Lemmas.Substs

namespace Nagini.Substs

/-- The full claim: for a member with declared type `ty` in class `d`, and a receiver that is a `d[bs]` by
the declared base classes, the type of the access exists and is `ty` with `bs` for the variables.  The same
holds for an optional receiver. -/
def C120 : Prop :=
  ∀ (tbl : Table), Wf tbl → ∀ c as d bs ty, as.length = tbl.nvars c → Base tbl c as d bs → Of tbl d ty →
    memberType tbl (.gen c as) ty = some (subst (inst d bs) ty) ∧
    memberType tbl (.opt (.gen c as)) ty = some (subst (inst d bs) ty)

/-- The claim for receivers of generic types, where the arguments of base classes are variables or have
none (`Flat`), and for declared types without tuples of any length (or without variables). -/
theorem C120_generic_partial (tbl : Table) (hw : Wf tbl) (hf : Flat tbl) (c : Nat) (as : List Ty) (d : Nat)
    (bs : List Ty) (ty : Ty) (hl : as.length = tbl.nvars c) (hb : Base tbl c as d bs) (ho : Of tbl d ty)
    (hv : NoVTuple ty ∨ Ground ty) : memberType tbl (.gen c as) ty = some (subst (inst d bs) ty) := by
  obtain ⟨env, he, _⟩ := bound_some tbl hw (c + 1) c (.gen c as) (by omega) (.inr ⟨as, rfl, hl⟩)
  refine memberType_of he ho (fun i hi => ?_) hv
  unfold ofEnv
  rw [bound_base tbl hw hf hb (c + 1) (by omega) hl _ (.inl rfl) env he i hi]

/-- For members of the class of the receiver itself, base classes do not matter. -/
theorem C120_own_partial (tbl : Table) (hw : Wf tbl) (c : Nat) (as : List Ty) (ty : Ty)
    (hl : as.length = tbl.nvars c) (ho : Of tbl c ty) (hv : NoVTuple ty ∨ Ground ty) :
    memberType tbl (.gen c as) ty = some (subst (inst c as) ty) := by
  obtain ⟨env, he, _⟩ := bound_some tbl hw (c + 1) c (.gen c as) (by omega) (.inr ⟨as, rfl, hl⟩)
  refine memberType_of he ho (fun i _ => ?_) hv
  unfold ofEnv
  rw [bound_own tbl hw (c + 1) c as (by omega) hl env he i]

/-- For receivers like `self`, whose type has no arguments, the variables of the class stand for
themselves. -/
theorem C120_self_partial (tbl : Table) (hw : Wf tbl) (hf : Flat tbl) (c d : Nat) (bs : List Ty) (ty : Ty)
    (hb : Base tbl c (ident tbl c) d bs) (ho : Of tbl d ty) (hv : NoVTuple ty ∨ Ground ty) :
    memberType tbl (.cls c) ty = some (subst (inst d bs) ty) := by
  obtain ⟨env, he, _⟩ := bound_some tbl hw (c + 1) c (.cls c) (by omega) (.inl rfl)
  exact memberType_of he ho (fun i hi => bound_self tbl hw hf hb env he i hi) hv

/-- An optional receiver is fine if its class has no type parameters. -/
theorem C120_optional_partial (tbl : Table) (hw : Wf tbl) (hf : Flat tbl) (c d : Nat) (bs : List Ty) (ty : Ty)
    (h0 : tbl.nvars c = 0) (hb : Base tbl c [] d bs) (ho : Of tbl d ty) (hv : NoVTuple ty ∨ Ground ty) :
    memberType tbl (.opt (.cls c)) ty = some (subst (inst d bs) ty) := by
  have := C120_self_partial tbl hw hf c d bs ty (by simpa [ident, h0] using hb) ho hv
  rw [← this]
  rfl

/-! ### Concrete classes

0: `A(Generic[T, V])`, 1: `B(Generic[W], A[W, int])`, 2: `C(B[str])`,
3: `D(Generic[W], A[List[W], int])`, where `int` is class 10, `str` 11 and `List` 12. -/

/-- The classes of the examples. -/
abbrev exTable : Table where
  nvars c := if c = 0 then 2 else if c = 1 ∨ c = 3 then 1 else 0
  sup c := if c = 1 then some (.gen 0 [.var 1 0, .cls 10]) else if c = 2 then some (.gen 1 [.cls 11])
    else none

/-- The classes of the examples with nested arguments. -/
abbrev exNested : Table where
  nvars c := if c = 0 then 2 else if c = 1 ∨ c = 3 then 1 else 0
  sup c := if c = 3 then some (.gen 0 [.gen 12 [.var 3 0], .cls 10]) else none

theorem of_cls (tbl : Table) (c d : Nat) : Of tbl c (.cls d) := by intro k i h; cases h
theorem of_var (tbl : Table) (c i : Nat) (h : i < tbl.nvars c) : Of tbl c (.var c i) := by
  intro k j h'; cases h'; exact ⟨rfl, h⟩

theorem exTable_wf : Wf exTable := by
  intro c s hs
  by_cases h1 : c = 1
  · subst h1
    simp only [if_true, Option.some.injEq] at hs
    subst hs
    refine .inr ⟨0, _, rfl, by omega, rfl, ?_⟩
    intro t ht
    simp only [List.mem_cons, List.not_mem_nil, or_false] at ht
    rcases ht with rfl | rfl
    · exact of_var _ 1 0 (by decide)
    · exact of_cls _ _ _
  · by_cases h2 : c = 2
    · subst h2
      simp only [show ¬ (2 : Nat) = 1 by decide, if_false, if_true, Option.some.injEq] at hs
      subst hs
      refine .inr ⟨1, _, rfl, by omega, rfl, ?_⟩
      intro t ht
      cases List.mem_singleton.1 ht
      exact of_cls _ _ _
    · simp [h1, h2] at hs

theorem exTable_flat : Flat exTable := by
  intro c e es hs t ht
  by_cases h1 : c = 1
  · subst h1
    simp only [if_true, Option.some.injEq, Ty.gen.injEq] at hs
    obtain ⟨rfl, rfl⟩ := hs
    simp only [List.mem_cons, List.not_mem_nil, or_false] at ht
    rcases ht with rfl | rfl
    · exact .inl ⟨0, rfl⟩
    · exact .inr fun k i h => by cases h
  · by_cases h2 : c = 2
    · subst h2
      simp only [show ¬ (2 : Nat) = 1 by decide, if_false, if_true, Option.some.injEq, Ty.gen.injEq] at hs
      obtain ⟨rfl, rfl⟩ := hs
      cases List.mem_singleton.1 ht
      exact .inr fun k i h => by cases h
    · simp [h1, h2] at hs

/-- The type `Tuple[T, Optional[V]]` in class `A`. -/
abbrev exTy : Ty := .tuple [.var 0 0, .opt (.var 0 1)]

theorem exTy_of : Of exTable 0 exTy := by
  intro k i h
  cases h with
  | tuple h ht =>
    simp only [List.mem_cons, List.not_mem_nil, or_false] at ht
    rcases ht with rfl | rfl
    · cases h; exact ⟨rfl, by decide⟩
    · cases h with
      | opt h => cases h; exact ⟨rfl, by decide⟩

theorem exTy_novtuple : NoVTuple exTy := by
  intro u h
  cases h with
  | tuple h ht =>
    simp only [List.mem_cons, List.not_mem_nil, or_false] at ht
    rcases ht with rfl | rfl
    · cases h
    · cases h with
      | opt h => cases h

/-- Non-vacuity of `C120_generic_partial`: `B[bytes]` is an `A[bytes, int]`. -/
example : memberType exTable (.gen 1 [.cls 13]) exTy = some (.tuple [.cls 13, .opt (.cls 10)]) :=
  C120_generic_partial exTable exTable_wf exTable_flat 1 [.cls 13] 0 [.cls 13, .cls 10] exTy rfl
    (.gen rfl (.refl _ _)) exTy_of (.inl exTy_novtuple)

/-- Non-vacuity of `C120_self_partial` and `C120_optional_partial`: `C` is an `A[str, int]`. -/
example : memberType exTable (.cls 2) exTy = some (.tuple [.cls 11, .opt (.cls 10)]) ∧
    memberType exTable (.opt (.cls 2)) exTy = some (.tuple [.cls 11, .opt (.cls 10)]) :=
  ⟨C120_self_partial exTable exTable_wf exTable_flat 2 0 [.cls 11, .cls 10] exTy
    (.gen rfl (.gen rfl (.refl _ _))) exTy_of (.inl exTy_novtuple),
   C120_optional_partial exTable exTable_wf exTable_flat 2 0 [.cls 11, .cls 10] exTy rfl
    (.gen rfl (.gen rfl (.refl _ _))) exTy_of (.inl exTy_novtuple)⟩

theorem exNested_wf : Wf exNested := by
  intro c s hs
  by_cases h1 : c = 3
  · subst h1
    simp only [if_true, Option.some.injEq] at hs
    subst hs
    refine .inr ⟨0, _, rfl, by omega, rfl, ?_⟩
    intro t ht
    simp only [List.mem_cons, List.not_mem_nil, or_false] at ht
    rcases ht with rfl | rfl
    · intro k i h
      cases h with
      | gen h ht => cases List.mem_singleton.1 ht; cases h; exact ⟨rfl, by decide⟩
    · exact of_cls _ _ _
  · simp [h1] at hs

/-- `D[str]` is an `A[List[str], int]`, but a field of type `T` has the type `List[W]`. -/
theorem C120_nested_fails :
    Base exNested 3 [.cls 11] 0 [.gen 12 [.cls 11], .cls 10] ∧
    memberType exNested (.gen 3 [.cls 11]) (.var 0 0) = some (.gen 12 [.var 3 0]) :=
  ⟨.gen rfl (.refl _ _), rfl⟩

/-- For a field of type `Tuple[T, ...]` and a receiver of type `B[str]`, the type is `Tuple[str]`. -/
theorem C120_tuple_fails :
    Base exTable 1 [.cls 11] 1 [.cls 11] ∧
    memberType exTable (.gen 1 [.cls 11]) (.vtuple (.var 1 0)) = some (.tuple [.cls 11]) ∧
    subst (inst 1 [.cls 11]) (.vtuple (.var 1 0)) = .vtuple (.cls 11) :=
  ⟨.refl _ _, rfl, rfl⟩

/-- For an optional receiver of generic type there is no result: an exception is raised. -/
theorem C120_optional_fails :
    Base exTable 1 [.cls 11] 1 [.cls 11] ∧ memberType exTable (.opt (.gen 1 [.cls 11])) (.var 1 0) = none :=
  ⟨.refl _ _, rfl⟩

theorem C120_fails : ¬ C120 := fun h => by
  have := (h exTable exTable_wf 1 [.cls 11] 1 [.cls 11] (.var 1 0) rfl (.refl _ _)
    (of_var _ _ _ (by decide))).2
  rw [C120_optional_fails.2] at this
  cases this

/-- Without optional receivers the claim fails, too. -/
theorem C120_nested_wf_fails : Wf exNested ∧
    memberType exNested (.gen 3 [.cls 11]) (.var 0 0) ≠
      some (subst (inst 0 [.gen 12 [.cls 11], .cls 10]) (.var 0 0)) := by
  refine ⟨exNested_wf, fun h => ?_⟩
  rw [C120_nested_fails.2] at h
  simp [subst, inst] at h

end Nagini.Substs
