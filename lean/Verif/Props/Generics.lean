import Verif.Lemmas.Generics

/-!
C28: subtyping of generic types follows the declared superclasses.
C61: the type inferred for a display with elements of several types is their least common supertype.
-/
set_option linter.unusedVariables false
namespace Nagini.Generics
open Relation

/-- **C28** (full claim): `issubtype` holds iff instantiating the declared superclasses leads from one
type to the other. -/
def C28 : Prop :=
  ∀ (tbl : Table), ValidTable tbl → ∀ t u, Valid tbl 0 t → Valid tbl 0 u →
    (issubtype tbl t u = true ↔ Sub tbl t u)

/-- **C28** (partial: the second type is not generic): `issubtype` is right for every table of classes. -/
theorem C28_class_partial (tbl : Table) (hv : ValidTable tbl) (t : Ty) (ht : Valid tbl 0 t) (e : Nat)
    (he : (tbl e).nvars = 0) : issubtype tbl t (.cls e) = true ↔ Sub tbl t (.cls e) := by
  rw [issubtype_cls hv (valid_not_var ht), sub_cls_iff hv ht he]

/-- **C28** (partial, exact): `issubtype` is right for all types iff generic classes hand their type
variables on unchanged or have no generic superclass.  (Missing: all other tables, for which the claim
is false.)  Classes 0 and 1 stand for `object` and any other class without type variables. -/
theorem C28_exact_partial (tbl : Table) (hv : ValidTable tbl) (h0 : (tbl 0).nvars = 0) (h1 : (tbl 1).nvars = 0) :
    (∀ t u, Valid tbl 0 t → Valid tbl 0 u → (issubtype tbl t u = true ↔ Sub tbl t u)) ↔ Transparent tbl := by
  constructor
  · intro H c hc
    have hval : ∀ f : Nat → Ty, (∀ k, f k = .cls 0 ∨ f k = .cls 1) →
        Valid tbl 0 (.gen c ((List.range (tbl c).nvars).map f)) := by
      intro f hf
      simp only [Valid]
      refine ⟨by simp, ?_, ?_⟩
      · intro h
        have := congrArg List.length h
        simp at this
        omega
      · rw [validList_iff]
        intro a ha
        obtain ⟨k, _, rfl⟩ := List.mem_map.1 ha
        rcases hf k with h | h <;> rw [h] <;> simpa [Valid]
    constructor
    · intro d bs hs
      have key : ∀ f : Nat → Ty, (∀ k, f k = .cls 0 ∨ f k = .cls 1) →
          (List.range (tbl c).nvars).map f = substList ((List.range (tbl c).nvars).map f) bs := by
        intro f hf
        have hsup : Super tbl (.gen c ((List.range (tbl c).nvars).map f)) _ := .genGen hs
        have := (H _ _ (hval f hf) (super_valid hv hsup (hval f hf))).2 (ReflTransGen.single hsup)
        exact ((gen_sub_gen hv _ _ _ _).1 this).2
      have hlen : bs.length = (tbl c).nvars := by
        have := congrArg List.length (key (fun _ => .cls 0) (fun _ => Or.inl rfl))
        rw [substList_eq_map] at this
        simpa using this.symm
      apply List.ext_getElem
      · simp [hlen]
      · intro i hi1 hi2
        have hi : i < (tbl c).nvars := by simpa using hi2
        rw [List.getElem_map, List.getElem_range]
        have at_i : ∀ f : Nat → Ty, (∀ k, f k = .cls 0 ∨ f k = .cls 1) →
            f i = subst ((List.range (tbl c).nvars).map f) bs[i] := by
          intro f hf
          have := congrArg (fun l => l[i]?) (key f hf)
          simp only [substList_eq_map, List.getElem?_map, List.getElem?_range hi,
            List.getElem?_eq_getElem hi1, Option.map_some, Option.some.injEq] at this
          exact this
        cases hb : bs[i] with
        | cls e =>
          have a := at_i (fun _ => .cls 0) (fun _ => Or.inl rfl)
          have b := at_i (fun _ => .cls 1) (fun _ => Or.inr rfl)
          rw [hb] at a b
          simp only [subst] at a b
          rw [← a] at b
          cases b
        | gen e as =>
          have a := at_i (fun _ => .cls 0) (fun _ => Or.inl rfl)
          rw [hb] at a
          simp only [subst] at a
          cases a
        | var j =>
          have hj : j < (tbl c).nvars := by
            have := (hv.gen _ _ _ hs).2
            simp only [Valid] at this
            have := (validList_iff _).1 this.2.2 bs[i] (List.getElem_mem hi1)
            rw [hb] at this
            simpa [Valid] using this
          have a := at_i (fun k => if k = i then .cls 1 else .cls 0) (by
            intro k
            by_cases hk : k = i <;> simp [hk])
          rw [hb] at a
          simp only [subst, if_true, List.getElem?_map, List.getElem?_range hj, Option.map_some,
            Option.getD_some] at a
          by_cases hji : j = i
          · rw [hji]
          · rw [if_neg hji] at a
            cases a
    · intro d hs e he
      have hd : Valid tbl 0 (.cls d) := by simpa [Valid] using (hv.cls _ _ hs).2
      obtain ⟨u, hu, rfl⟩ := sub_of_nominal hv hd he
      have huv := sub_valid hv hu hd
      cases u with
      | var i => exact absurd rfl (valid_not_var huv i)
      | cls e => simpa [Valid, head] using huv
      | gen e bs =>
        exfalso
        have key : ∀ f : Nat → Ty, (∀ k, f k = .cls 0 ∨ f k = .cls 1) →
            (List.range (tbl c).nvars).map f = bs := by
          intro f hf
          have hsup : Super tbl (.gen c ((List.range (tbl c).nvars).map f)) _ := .genCls hs
          have := (H _ _ (hval f hf) huv).2 (hu.head hsup)
          exact ((gen_sub_gen hv _ _ _ _).1 this).2
        have a := key (fun _ => .cls 0) (fun _ => Or.inl rfl)
        have b := key (fun _ => .cls 1) (fun _ => Or.inr rfl)
        rw [← a] at b
        have := congrArg (fun l => l[0]?) b
        simp only [List.getElem?_map, List.getElem?_range hc, Option.map_some, Option.some.injEq] at this
        cases this
  · intro htr t u ht hu
    exact issubtype_trans hv htr ht hu

/-- **C28** (partial): the superclass of a generic type is instantiated correctly iff every argument
given to the superclass is a type variable or contains none. -/
theorem C28_superclass_partial (tbl : Table) (hv : ValidTable tbl) (c d : Nat) (as bs : List Ty)
    (ht : Valid tbl 0 (.gen c as)) (hs : (tbl c).sup = some (.gen d bs)) :
    (∀ u, superclass tbl (.gen c as) = some u ↔ Super tbl (.gen c as) u) ↔
      ∀ b ∈ bs, (∃ i, b = .var i) ∨ Valid tbl 0 b := by
  constructor
  · intro H b hb
    have := (H _).2 (.genGen hs)
    simp only [superclass, supOf_eq hv, hs, substList_eq_map, Option.some.injEq, Ty.gen.injEq, true_and] at this
    have hval := (hv.gen _ _ _ hs).2
    simp only [Valid] at hval ht
    exact (instArg_eq _ ht.1.symm ((validList_iff _).1 ht.2.2) ((validList_iff _).1 hval.2.2 b hb)).1
      (List.map_inj_left.1 this b hb)
  · intro hf
    apply superclass_gen hv ht
    intro d' bs' hs'
    rw [hs] at hs'
    cases hs'
    exact hf

/-! Example: object, int, `class A(Generic[T])`, `class L(Generic[T])`, `class B(A[L[T]], Generic[T])`,
`class M(A[int])`, `class C(M, Generic[T])`. -/

/-- Classes of the example. -/
def exTbl : Table
  | 0 => ⟨none, 0⟩
  | 2 => ⟨some (.cls 0), 1⟩
  | 3 => ⟨some (.cls 0), 1⟩
  | 4 => ⟨some (.gen 2 [.gen 3 [.var 0]]), 1⟩
  | 5 => ⟨some (.gen 2 [.cls 1]), 0⟩
  | 6 => ⟨some (.cls 5), 1⟩
  | _ => ⟨some (.cls 0), 0⟩

theorem exTbl_valid : ValidTable exTbl := by
  constructor
  · intro c d h
    unfold exTbl at h
    split at h <;> cases h <;> simp [exTbl, Valid] <;> exact Nat.pos_of_ne_zero (by assumption)
  · intro c d bs h
    unfold exTbl at h
    split at h <;> cases h <;> simp [exTbl, Valid, ValidList]

/-- **C28** fails: `B[int]` is an `A[L[int]]`, but not for `issubtype`; it is taken for an `A[int]`. -/
theorem C28_nested_fails :
    (Sub exTbl (.gen 4 [.cls 1]) (.gen 2 [.gen 3 [.cls 1]]) ∧
      issubtype exTbl (.gen 4 [.cls 1]) (.gen 2 [.gen 3 [.cls 1]]) = false) ∧
    (¬ Sub exTbl (.gen 4 [.cls 1]) (.gen 2 [.cls 1]) ∧
      issubtype exTbl (.gen 4 [.cls 1]) (.gen 2 [.cls 1]) = true) := by
  have hs : Super exTbl (.gen 4 [.cls 1]) (.gen 2 [.gen 3 [.cls 1]]) :=
    .genGen (bs := [.gen 3 [.var 0]]) rfl
  refine ⟨⟨ReflTransGen.single hs, ?_⟩, ?_, ?_⟩
  · rw [← Bool.not_eq_true, gen_sub_gen exTbl_valid]
    rintro ⟨_, h⟩
    cases h
  · intro h
    rcases sub_step hs h with h | h
    · cases h
    · rcases sub_step (.genCls (d := 0) rfl) h with h | h
      · cases h
      · have := sub_root (t := .cls 0) (fun s hs => by cases hs <;> rename_i h <;> cases h) h
        cases this
  · rw [gen_sub_gen exTbl_valid]
    exact ⟨ReflTransGen.single (.gen (bs := [.gen 3 [.var 0]]) rfl), rfl⟩

/-- **C28** fails: `C[object]` is an `A[int]`, but it is taken for an `A[object]`. -/
theorem C28_skipped_fails :
    Sub exTbl (.gen 6 [.cls 0]) (.gen 2 [.cls 1]) ∧
      issubtype exTbl (.gen 6 [.cls 0]) (.gen 2 [.cls 1]) = false ∧
      issubtype exTbl (.gen 6 [.cls 0]) (.gen 2 [.cls 0]) = true := by
  have n1 : SupClass exTbl 6 5 := .cls rfl
  have n2 : SupClass exTbl 5 2 := .gen (bs := [.cls 1]) rfl
  refine ⟨(ReflTransGen.single (.genCls (d := 5) rfl)).tail (.clsGen rfl), ?_, ?_⟩
  · rw [← Bool.not_eq_true, gen_sub_gen exTbl_valid]
    rintro ⟨_, h⟩
    cases h
  · rw [gen_sub_gen exTbl_valid]
    exact ⟨(ReflTransGen.single n1).tail n2, rfl⟩

/-- **C28** fails. -/
theorem C28_fails : ¬ C28 := by
  intro h
  have hn := C28_nested_fails
  have := (h exTbl exTbl_valid _ _ (by simp [Valid, ValidList, exTbl]) (by simp [Valid, ValidList, exTbl])).2 hn.1.1
  rw [hn.1.2] at this
  cases this

/-- The superclass of `B[int]` is computed to be `A[L[T]]`. -/
example : superclass exTbl (.gen 4 [.cls 1]) = some (.gen 2 [.gen 3 [.var 0]]) := rfl

/-- The subclass relation with a target that is not generic. -/
example : issubtype exTbl (.gen 6 [.cls 1]) (.cls 5) = true :=
  (C28_class_partial exTbl exTbl_valid _ (by simp [Valid, ValidList, exTbl]) 5 rfl).2
    (ReflTransGen.single (.genCls rfl))

/-- A table that meets the condition: object, int, `class A(Generic[T, S])`,
`class B(A[T, S], Generic[T, S])`, `class M(B[int, object])`, `class N(B[int, object])`. -/
def okTbl : Table
  | 0 => ⟨none, 0⟩
  | 2 => ⟨some (.cls 0), 2⟩
  | 3 => ⟨some (.gen 2 [.var 0, .var 1]), 2⟩
  | 4 => ⟨some (.gen 3 [.cls 1, .cls 0]), 0⟩
  | 5 => ⟨some (.gen 3 [.cls 1, .cls 0]), 0⟩
  | _ => ⟨some (.cls 0), 0⟩

theorem okTbl_valid : ValidTable okTbl := by
  constructor
  · intro c d h
    unfold okTbl at h
    split at h <;> cases h <;> simp [okTbl, Valid] <;> exact Nat.pos_of_ne_zero (by assumption)
  · intro c d bs h
    unfold okTbl at h
    split at h <;> cases h <;> simp [okTbl, Valid, ValidList]

theorem okTbl_transparent : Transparent okTbl := by
  intro c hc
  have hcs : c = 2 ∨ c = 3 := by
    unfold okTbl at hc
    split at hc <;> simp at hc ⊢
  rcases hcs with rfl | rfl
  · refine ⟨(fun d bs h => by cases h), fun d h e he => ?_⟩
    cases h
    rcases ReflTransGen.cases_head he with rfl | ⟨w, hw, _⟩
    · rfl
    · cases hw <;> rename_i h <;> cases h
  · refine ⟨(fun d bs h => by cases h; rfl), (fun d h => by cases h)⟩

/-- `M` is an `A[int, object]`. -/
example : issubtype okTbl (.cls 4) (.gen 2 [.cls 1, .cls 0]) = true :=
  ((C28_exact_partial okTbl okTbl_valid rfl rfl).2 okTbl_transparent _ _ (by simp [Valid, okTbl])
    (by simp [Valid, ValidList, okTbl])).2
    ((ReflTransGen.single (.clsGen rfl)).tail (.genGen (bs := [.var 0, .var 1]) rfl))

/-- `A[int, object]` from `B[int, object]`. -/
example : ∀ u, superclass okTbl (.gen 3 [.cls 1, .cls 0]) = some u ↔ Super okTbl (.gen 3 [.cls 1, .cls 0]) u :=
  (C28_superclass_partial okTbl okTbl_valid 3 2 _ [.var 0, .var 1] (by simp [Valid, ValidList, okTbl]) rfl).2
    (by simp)

/-! Common supertypes -/

/-- **C61** (full claim): with a common root class, `common_supertype` yields the least common supertype. -/
def C61 : Prop :=
  ∀ (tbl : Table), ValidTable tbl → (tbl 0).nvars = 0 → (∀ c, 0 < c → (tbl c).sup ≠ none) →
    ∀ ts, ts ≠ [] → (∀ t ∈ ts, Valid tbl 0 t) →
      ∃ t, common tbl ts = .ok (some t) ∧ IsLubList tbl ts t

/-- **C61** (partial: hierarchies for which `issubtype` is right): the result of `pairwise_supertype`
is the least common supertype, and `None` if there is none. -/
theorem C61_pairwise_partial (tbl : Table) (hv : ValidTable tbl) (htr : Transparent tbl) (t1 t2 : Ty)
    (h1 : Valid tbl 0 t1) (h2 : Valid tbl 0 t2) :
    (∀ t, pairwiseSuper tbl t1 t2 = some t → IsLub tbl t1 t2 t) ∧
    (pairwiseSuper tbl t1 t2 = none ↔ ∀ u, ¬ (Sub tbl t1 u ∧ Sub tbl t2 u)) := by
  have h := pairwise_spec hv htr (head t1 + head t2 + 1) t1 t2 (by omega) h1 h2
  refine ⟨h.1, h.2, fun hn => ?_⟩
  cases hp : pairwiseSuper tbl t1 t2 with
  | none => rfl
  | some t =>
    have := h.1 t hp
    exact absurd ⟨this.1, this.2.1⟩ (hn t)

theorem common_foldl {tbl : Table} (hv : ValidTable tbl) (htr : Transparent tbl) (h0 : (tbl 0).nvars = 0)
    (hroot : ∀ c, 0 < c → (tbl c).sup ≠ none) : ∀ (ts : List Ty) (cur : Ty), Valid tbl 0 cur →
    (∀ t ∈ ts, Valid tbl 0 t) →
    ∃ t, ts.foldl (fun acc new =>
      match acc with
      | .error e => .error e
      | .ok none => .error ()
      | .ok (some cur) => .ok (pairwiseSuper tbl cur new)) (.ok (some cur) : Except Unit (Option Ty)) = .ok (some t) ∧
      IsLubList tbl (cur :: ts) t := by
  intro ts
  induction ts with
  | nil =>
    intro cur _ _
    exact ⟨cur, rfl, by simp [ReflTransGen.refl], fun u hu => hu cur (by simp)⟩
  | cons new ts ih =>
    intro cur hc hts
    have hn : Valid tbl 0 new := hts new (by simp)
    obtain ⟨p1, p2⟩ := C61_pairwise_partial tbl hv htr cur new hc hn
    cases hp : pairwiseSuper tbl cur new with
    | none =>
      refine absurd ⟨?_, ?_⟩ (p2.1 hp (.cls 0))
      · exact (sub_cls_iff hv hc h0).2 (nominal_root hv hroot _)
      · exact (sub_cls_iff hv hn h0).2 (nominal_root hv hroot _)
    | some m =>
      obtain ⟨l1, l2, l3⟩ := p1 m hp
      obtain ⟨t, ht, ub, least⟩ := ih m (sub_valid hv l1 hc) (fun t h => hts t (List.mem_cons_of_mem _ h))
      refine ⟨t, by rw [List.foldl_cons]; simp only [hp]; exact ht, ?_, ?_⟩
      · intro a ha
        have hm := ub m (by simp)
        rcases List.mem_cons.1 ha with rfl | ha
        · exact l1.trans hm
        · rcases List.mem_cons.1 ha with rfl | ha
          · exact l2.trans hm
          · exact ub a (List.mem_cons_of_mem _ ha)
      · intro u hu
        apply least
        intro a ha
        rcases List.mem_cons.1 ha with rfl | ha
        · exact l3 u (hu cur (by simp)) (hu new (by simp))
        · exact hu a (by simp [ha])

/-- **C61** (partial: hierarchies for which `issubtype` is right). -/
theorem C61_common_partial (tbl : Table) (hv : ValidTable tbl) (htr : Transparent tbl) (h0 : (tbl 0).nvars = 0)
    (hroot : ∀ c, 0 < c → (tbl c).sup ≠ none) (ts : List Ty) (hne : ts ≠ []) (hts : ∀ t ∈ ts, Valid tbl 0 t) :
    ∃ t, common tbl ts = .ok (some t) ∧ IsLubList tbl ts t := by
  cases ts with
  | nil => exact absurd rfl hne
  | cons t ts =>
    exact common_foldl hv htr h0 hroot ts t (hts t (by simp)) (fun a ha => hts a (List.mem_cons_of_mem _ ha))

theorem sub_antisymm {tbl : Table} (hv : ValidTable tbl) {t u : Ty} (h1 : Sub tbl t u) (h2 : Sub tbl u t) : t = u := by
  have le : ∀ {a b : Ty}, Sub tbl a b → head b ≤ head a := by
    intro a b h
    induction h with
    | refl => exact Nat.le_refl _
    | tail _ h ih => exact Nat.le_trans (Nat.le_of_lt (super_lt hv h)) ih
  rcases ReflTransGen.cases_head h1 with h | ⟨w, hw, h⟩
  · exact h
  · have := super_lt hv hw
    have := le h
    have := le h2
    omega

/-- **C61** (partial: hierarchies for which `issubtype` is right): the order of the elements does not
matter, nor how often they occur. -/
theorem C61_order_partial (tbl : Table) (hv : ValidTable tbl) (htr : Transparent tbl) (h0 : (tbl 0).nvars = 0)
    (hroot : ∀ c, 0 < c → (tbl c).sup ≠ none) (ts us : List Ty) (hne : ts ≠ [])
    (hts : ∀ t ∈ ts, Valid tbl 0 t) (hsame : ∀ t, t ∈ ts ↔ t ∈ us) : common tbl ts = common tbl us := by
  have hne' : us ≠ [] := by
    rintro rfl
    cases ts with
    | nil => exact hne rfl
    | cons a as => simpa using (hsame a).1 (by simp)
  obtain ⟨t, ht, l1⟩ := C61_common_partial tbl hv htr h0 hroot ts hne hts
  obtain ⟨u, hu, l2⟩ := C61_common_partial tbl hv htr h0 hroot us hne' (fun a ha => hts a ((hsame a).2 ha))
  rw [ht, hu]
  have : t = u := sub_antisymm hv (l1.2 u fun a ha => l2.1 a ((hsame a).1 ha))
    (l2.2 t fun a ha => l1.1 a ((hsame a).2 ha))
  rw [this]

theorem okTbl_root : ∀ c, 0 < c → (okTbl c).sup ≠ none := by
  intro c hc
  unfold okTbl
  split <;> simp_all

/-- `M` and `N` have the least common supertype `B[int, object]`. -/
example : common okTbl [.cls 4, .cls 5] = .ok (some (.gen 3 [.cls 1, .cls 0])) := by
  obtain ⟨t, ht, hl⟩ := C61_common_partial okTbl okTbl_valid okTbl_transparent rfl okTbl_root [.cls 4, .cls 5]
    (by simp) (by simp [Valid, okTbl])
  have h4 : Super okTbl (.cls 4) (.gen 3 [.cls 1, .cls 0]) := .clsGen rfl
  have h5 : Super okTbl (.cls 5) (.gen 3 [.cls 1, .cls 0]) := .clsGen rfl
  have hle := hl.2 (.gen 3 [.cls 1, .cls 0]) (by
    intro a ha
    simp only [List.mem_cons, List.not_mem_nil, or_false] at ha
    rcases ha with rfl | rfl
    · exact ReflTransGen.single h4
    · exact ReflTransGen.single h5)
  have a4 := hl.1 (.cls 4) (by simp)
  have a5 := hl.1 (.cls 5) (by simp)
  rcases sub_step h4 a4 with rfl | a4
  · rcases sub_step h5 a5 with h | a5
    · cases h
    · have := sub_antisymm okTbl_valid a5 (ReflTransGen.single h4)
      cases this
  · rw [ht, sub_antisymm okTbl_valid hle a4]

/-- **C61** fails: of an `A[object]` and a `C[object]` (which is an `A[int]`) the first is taken for the
common supertype. -/
theorem C61_fails : ¬ C61 := by
  intro h
  obtain ⟨t, ht, hl⟩ := h exTbl exTbl_valid rfl (by
    intro c hc
    unfold exTbl
    split <;> simp_all) [.gen 6 [.cls 0], .gen 2 [.cls 0]] (by simp) (by simp [Valid, ValidList, exTbl])
  have hi := C28_skipped_fails.2.2
  have hc : common exTbl [.gen 6 [.cls 0], .gen 2 [.cls 0]] = .ok (some (.gen 2 [.cls 0])) := by
    simp only [common, List.foldl_cons, List.foldl_nil, pairwiseSuper, pairwise, hi, if_true]
  rw [hc] at ht
  cases ht
  have hs := hl.1 (.gen 6 [.cls 0]) (by simp)
  rcases sub_step (.genCls (d := 5) rfl) hs with h | hs
  · cases h
  · rcases sub_step (.clsGen (d := 2) (bs := [.cls 1]) rfl) hs with h | hs
    · cases h
    · rcases sub_step (.genCls (d := 0) rfl) hs with h | hs
      · cases h
      · have := sub_root (t := .cls 0) (fun s hs => by cases hs <;> rename_i h <;> cases h) hs
        cases this

end Nagini.Generics
