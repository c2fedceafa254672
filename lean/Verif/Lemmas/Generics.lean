import Verif.Spec.Generics
import Mathlib.Data.List.Basic

set_option linter.unusedVariables false
set_option linter.unusedSimpArgs false

namespace Nagini.Generics
open Relation

/-! Equality -/

mutual
theorem eqTy_iff : ∀ a b : Ty, eqTy a b = true ↔ a = b
  | .cls c, .cls d => by simp [eqTy]
  | .var i, .var j => by simp [eqTy]
  | .gen c as, .gen d bs => by
      simp only [eqTy, Bool.and_eq_true, beq_iff_eq, eqList_iff as bs, Ty.gen.injEq]
  | .cls c, .var j => by simp [eqTy]
  | .cls c, .gen d bs => by simp [eqTy]
  | .var i, .cls d => by simp [eqTy]
  | .var i, .gen d bs => by simp [eqTy]
  | .gen c as, .cls d => by simp [eqTy]
  | .gen c as, .var j => by simp [eqTy]
theorem eqList_iff : ∀ as bs : List Ty, eqList as bs = true ↔ as = bs
  | [], [] => by simp [eqList]
  | a :: as, b :: bs => by
      simp only [eqList, Bool.and_eq_true, eqTy_iff a b, eqList_iff as bs, List.cons.injEq]
  | [], b :: bs => by simp [eqList]
  | a :: as, [] => by simp [eqList]
end

theorem supOf_eq {tbl : Table} (hv : ValidTable tbl) (c : Nat) : supOf tbl c = (tbl c).sup := by
  unfold supOf
  cases h : (tbl c).sup with
  | none => rfl
  | some s =>
    cases s with
    | cls d => simp [(hv.cls c d h).1]
    | gen d bs => simp [(hv.gen c d bs h).1]

/-! Lists of valid types -/

theorem validList_iff {tbl : Table} {n : Nat} : ∀ as : List Ty, ValidList tbl n as ↔ ∀ a ∈ as, Valid tbl n a
  | [] => by simp [ValidList]
  | a :: as => by simp [ValidList, validList_iff as]

theorem substList_eq_map (as : List Ty) : ∀ bs : List Ty, substList as bs = bs.map (subst as)
  | [] => by simp [substList]
  | b :: bs => by simp [substList, substList_eq_map as bs]

mutual
theorem valid_subst {tbl : Table} {n m : Nat} {as : List Ty} (hl : as.length = n) (ha : ∀ a ∈ as, Valid tbl m a) :
    ∀ t : Ty, Valid tbl n t → Valid tbl m (subst as t)
  | .cls c, h => by simpa [subst, Valid] using h
  | .var i, h => by
      have hi : i < as.length := by rw [hl]; simpa [Valid] using h
      rw [subst, List.getElem?_eq_getElem hi]
      exact ha _ (List.getElem_mem hi)
  | .gen c bs, h => by
      simp only [Valid] at h
      simp only [subst, Valid]
      refine ⟨?_, ?_, validList_subst hl ha bs h.2.2⟩
      · rw [substList_eq_map, List.length_map]; exact h.1
      · rw [substList_eq_map]; simpa using h.2.1
theorem validList_subst {tbl : Table} {n m : Nat} {as : List Ty} (hl : as.length = n) (ha : ∀ a ∈ as, Valid tbl m a) :
    ∀ ts : List Ty, ValidList tbl n ts → ValidList tbl m (substList as ts)
  | [], _ => by simp [substList, ValidList]
  | t :: ts, h => by
      simp only [ValidList] at h
      simp only [substList, ValidList]
      exact ⟨valid_subst hl ha t h.1, validList_subst hl ha ts h.2⟩
end

mutual
theorem subst_closed {tbl : Table} {as : List Ty} : ∀ t : Ty, Valid tbl 0 t → subst as t = t
  | .cls c, h => by simp [subst]
  | .var i, h => by simp [Valid] at h
  | .gen c bs, h => by
      simp only [Valid] at h
      simp only [subst, substList_closed bs h.2.2]
theorem substList_closed {tbl : Table} {as : List Ty} : ∀ ts : List Ty, ValidList tbl 0 ts → substList as ts = ts
  | [], _ => by simp [substList]
  | t :: ts, h => by
      simp only [ValidList] at h
      simp only [substList, subst_closed t h.1, substList_closed ts h.2]
end

theorem substList_vars (as : List Ty) : substList as ((List.range as.length).map .var) = as := by
  rw [substList_eq_map, List.map_map]
  apply List.ext_getElem
  · simp
  · intro i h1 h2
    simp [subst, List.getElem?_eq_getElem h2]

/-! The superclass relation -/

theorem super_head {tbl : Table} {t u : Ty} (h : Super tbl t u) : SupClass tbl (head t) (head u) := by
  cases h with
  | clsCls h => exact .cls h
  | clsGen h => exact .gen h
  | genCls h => exact .cls h
  | genGen h => exact .gen h

theorem super_valid {tbl : Table} (hv : ValidTable tbl) {t u : Ty} (h : Super tbl t u) (ht : Valid tbl 0 t) :
    Valid tbl 0 u := by
  cases h with
  | clsCls h => simpa [Valid] using (hv.cls _ _ h).2
  | clsGen h =>
    have := (hv.gen _ _ _ h).2
    simp only [Valid] at ht
    rwa [ht] at this
  | genCls h => simpa [Valid] using (hv.cls _ _ h).2
  | genGen h =>
    have hh := (hv.gen _ _ _ h).2
    simp only [Valid] at ht
    have := valid_subst (m := 0) (n := (tbl _).nvars) ht.1.symm ((validList_iff _).1 ht.2.2) _ hh
    simpa [subst] using this

theorem sub_valid {tbl : Table} (hv : ValidTable tbl) {t u : Ty} (h : Sub tbl t u) (ht : Valid tbl 0 t) :
    Valid tbl 0 u := by
  induction h with
  | refl => exact ht
  | tail _ h ih => exact super_valid hv h ih

theorem sub_head {tbl : Table} {t u : Ty} (h : Sub tbl t u) : Nominal tbl (head t) (head u) := by
  induction h with
  | refl => exact .refl
  | tail _ h ih => exact ih.tail (super_head h)

theorem super_unique {tbl : Table} : Relator.RightUnique (Super tbl) := by
  intro t u v h1 h2
  cases h1 <;> cases h2 <;> simp_all

theorem super_lt {tbl : Table} (hv : ValidTable tbl) {t u : Ty} (h : Super tbl t u) : head u < head t := by
  cases h with
  | clsCls h => exact (hv.cls _ _ h).1
  | clsGen h => exact (hv.gen _ _ _ h).1
  | genCls h => exact (hv.cls _ _ h).1
  | genGen h => exact (hv.gen _ _ _ h).1

theorem supClass_lt {tbl : Table} (hv : ValidTable tbl) {c d : Nat} (h : SupClass tbl c d) : d < c := by
  cases h with
  | cls h => exact (hv.cls _ _ h).1
  | gen h => exact (hv.gen _ _ _ h).1

/-- Every type has the superclass its class has. -/
theorem super_of_supClass {tbl : Table} {t : Ty} (hnv : ∀ i, t ≠ .var i) {d : Nat} (h : SupClass tbl (head t) d) :
    ∃ u, Super tbl t u ∧ head u = d := by
  cases t with
  | cls c =>
    cases h with
    | cls h => exact ⟨_, .clsCls h, rfl⟩
    | gen h => exact ⟨_, .clsGen h, rfl⟩
  | gen c as =>
    cases h with
    | cls h => exact ⟨_, .genCls h, rfl⟩
    | gen h => exact ⟨_, .genGen h, rfl⟩
  | var i => exact absurd rfl (hnv i)

theorem valid_not_var {tbl : Table} {t : Ty} (h : Valid tbl 0 t) : ∀ i, t ≠ .var i := by
  rintro i rfl
  simp [Valid] at h

theorem sub_of_nominal {tbl : Table} (hv : ValidTable tbl) {t : Ty} (ht : Valid tbl 0 t) {e : Nat}
    (h : Nominal tbl (head t) e) : ∃ u, Sub tbl t u ∧ head u = e := by
  induction h with
  | refl => exact ⟨t, .refl, rfl⟩
  | tail _ h ih =>
    obtain ⟨u, hu, rfl⟩ := ih
    obtain ⟨w, hw, rfl⟩ := super_of_supClass (valid_not_var (sub_valid hv hu ht)) h
    exact ⟨w, hu.tail hw, rfl⟩

/-! The model -/

theorem classSub_cls {tbl : Table} (hv : ValidTable tbl) (e : Nat) : ∀ c, classSub tbl c (.cls e) = true ↔ Nominal tbl c e := by
  intro c
  induction c using Nat.strongRecOn with
  | ind c ih =>
    rw [classSub]
    by_cases hce : e = c
    · subst hce
      simp [eqTy, ReflTransGen.refl]
    · have hne : eqTy (.cls e) (.cls c) = false := by simp [eqTy, hce]
      rw [hne]
      simp only [Bool.false_eq_true, if_false]
      have hstep : Nominal tbl c e ↔ ∃ d, SupClass tbl c d ∧ Nominal tbl d e := by
        rw [Nominal, ReflTransGen.cases_head_iff]
        constructor
        · rintro (h | h)
          · exact absurd h.symm hce
          · exact h
        · exact Or.inr
      rw [hstep]
      have hs := supOf_eq hv c
      split
      · rename_i h
        rw [h] at hs
        simp only [Bool.false_eq_true, false_iff]
        rintro ⟨d, hd, _⟩
        cases hd <;> simp_all
      · rename_i d h
        rw [h] at hs
        rw [ih d (supOf_cls_lt h)]
        constructor
        · intro hh; exact ⟨d, .cls hs.symm, hh⟩
        · rintro ⟨d', hd, hh⟩
          cases hd with
          | cls h' => rw [← hs] at h'; cases h'; exact hh
          | gen h' => rw [← hs] at h'; cases h'
      · rename_i d as h
        rw [h] at hs
        rw [ih d (supOf_gen_lt h)]
        constructor
        · intro hh; exact ⟨d, .gen hs.symm, hh⟩
        · rintro ⟨d', hd, hh⟩
          cases hd with
          | cls h' => rw [← hs] at h'; cases h'
          | gen h' => rw [← hs] at h'; cases h'; exact hh

theorem classSub_gen {tbl : Table} (hv : ValidTable tbl) (c e : Nat) (bs : List Ty) :
    classSub tbl c (.gen e bs) = true ↔
      (∃ d, (tbl c).sup = some (.cls d) ∧ classSub tbl d (.gen e bs) = true) ∨
      (∃ d, (tbl c).sup = some (.gen d bs) ∧ Nominal tbl d e) := by
  rw [classSub]
  have hne : eqTy (.gen e bs) (.cls c) = false := by simp [eqTy]
  rw [hne]
  simp only [Bool.false_eq_true, if_false]
  have hs := supOf_eq hv c
  split
  · rename_i h
    rw [← hs, h]
    simp
  · rename_i d h
    rw [← hs, h]
    simp
  · rename_i d as h
    rw [← hs, h]
    simp only [Bool.and_eq_true, classSub_cls hv, eqList_iff]
    constructor
    · rintro ⟨h1, rfl⟩; exact Or.inr ⟨d, rfl, h1⟩
    · rintro (⟨d', h', _⟩ | ⟨d', h', h2⟩)
      · cases h'
      · cases h'; exact ⟨h2, rfl⟩

theorem gen_sub_gen {tbl : Table} (hv : ValidTable tbl) (c e : Nat) (as bs : List Ty) :
    issubtype tbl (.gen c as) (.gen e bs) = true ↔ Nominal tbl c e ∧ as = bs := by
  simp only [issubtype, Bool.and_eq_true, classSub_cls hv, eqList_iff]

theorem issubtype_cls {tbl : Table} (hv : ValidTable tbl) {t : Ty} (hnv : ∀ i, t ≠ .var i) (e : Nat) :
    issubtype tbl t (.cls e) = true ↔ Nominal tbl (head t) e := by
  cases t with
  | cls c => simp only [issubtype, classSub_cls hv, head]
  | gen c as => simp only [issubtype, classSub_cls hv, head]
  | var i => exact absurd rfl (hnv i)

theorem sub_cls_iff {tbl : Table} (hv : ValidTable tbl) {t : Ty} (ht : Valid tbl 0 t) {e : Nat} (he : (tbl e).nvars = 0) :
    Sub tbl t (.cls e) ↔ Nominal tbl (head t) e := by
  constructor
  · intro h; exact sub_head h
  · intro h
    obtain ⟨u, hu, rfl⟩ := sub_of_nominal hv ht h
    have hval := sub_valid hv hu ht
    cases u with
    | cls c => exact hu
    | gen c as =>
      simp only [Valid] at hval
      simp only [head] at he
      rw [he] at hval
      exact absurd (List.length_eq_zero_iff.1 hval.1.symm) hval.2.1
    | var i => exact absurd rfl (valid_not_var hval i)

theorem trans_gen {tbl : Table} (hv : ValidTable tbl) (htr : Transparent tbl) {c : Nat} {as : List Ty} {u : Ty}
    (h : Sub tbl (.gen c as) u) (ht : Valid tbl 0 (.gen c as)) :
    (∃ e, u = .gen e as) ∨ (∃ e, u = .cls e ∧ ∀ e', Nominal tbl e e' → (tbl e').nvars = 0) := by
  induction h with
  | refl => exact Or.inl ⟨c, rfl⟩
  | tail hs h ih =>
    rcases ih with ⟨e, rfl⟩ | ⟨e, rfl, hn⟩
    · have hval := sub_valid hv hs ht
      simp only [Valid] at hval
      have hpos : 0 < (tbl e).nvars := by
        rw [hval.1]; exact List.length_pos_iff.2 hval.2.1
      cases h with
      | genCls h => exact Or.inr ⟨_, rfl, (htr e hpos).2 _ h⟩
      | genGen h =>
        rename_i d bs
        left
        refine ⟨d, ?_⟩
        rw [(htr e hpos).1 _ _ h, hval.1, substList_vars]
    · cases h with
      | clsCls h => exact Or.inr ⟨_, rfl, fun e' he' => hn e' (he'.head (.cls h))⟩
      | clsGen h =>
        rename_i d bs
        have h0 := hn d (ReflTransGen.single (.gen h))
        have hval := (hv.gen _ _ _ h).2
        simp only [Valid] at hval
        rw [h0] at hval
        exact absurd (List.length_eq_zero_iff.1 hval.1.symm) hval.2.1

theorem trans_gen_iff {tbl : Table} (hv : ValidTable tbl) (htr : Transparent tbl) {c e : Nat} {as bs : List Ty}
    (ht : Valid tbl 0 (.gen c as)) (hu : Valid tbl 0 (.gen e bs)) :
    Sub tbl (.gen c as) (.gen e bs) ↔ Nominal tbl c e ∧ as = bs := by
  constructor
  · intro h
    refine ⟨sub_head h, ?_⟩
    rcases trans_gen hv htr h ht with ⟨e', h'⟩ | ⟨e', h', _⟩
    · cases h'; rfl
    · cases h'
  · rintro ⟨h, rfl⟩
    obtain ⟨u, hsu, hh⟩ := sub_of_nominal hv ht h
    rcases trans_gen hv htr hsu ht with ⟨e', rfl⟩ | ⟨e', rfl, hn⟩
    · cases hh; exact hsu
    · cases hh
      have := hn _ .refl
      simp only [Valid] at hu
      simp only [head] at hu; rw [this] at hu
      exact absurd (List.length_eq_zero_iff.1 hu.1.symm) hu.2.1

theorem trans_cls_gen {tbl : Table} (hv : ValidTable tbl) (htr : Transparent tbl) {e : Nat} {bs : List Ty}
    (hu : Valid tbl 0 (.gen e bs)) : ∀ c, (tbl c).nvars = 0 →
    (Sub tbl (.cls c) (.gen e bs) ↔ classSub tbl c (.gen e bs) = true) := by
  intro c
  induction c using Nat.strongRecOn with
  | ind c ih =>
    intro hc
    rw [classSub_gen hv, Sub, ReflTransGen.cases_head_iff]
    constructor
    · rintro (h | ⟨w, hw, h⟩)
      · cases h
      · cases hw with
        | clsCls hs =>
          obtain ⟨hlt, hval⟩ := hv.cls _ _ hs
          simp only [Valid] at hval
          exact Or.inl ⟨_, hs, (ih _ hlt hval).1 h⟩
        | clsGen hs =>
          obtain ⟨hlt, hval⟩ := hv.gen _ _ _ hs
          rw [hc] at hval
          obtain ⟨h1, rfl⟩ := (trans_gen_iff hv htr hval hu).1 h
          exact Or.inr ⟨_, hs, h1⟩
    · rintro (⟨d, hs, h⟩ | ⟨d, hs, h⟩)
      · obtain ⟨hlt, hval⟩ := hv.cls _ _ hs
        simp only [Valid] at hval
        exact Or.inr ⟨_, .clsCls hs, (ih _ hlt hval).2 h⟩
      · obtain ⟨hlt, hval⟩ := hv.gen _ _ _ hs
        rw [hc] at hval
        exact Or.inr ⟨_, .clsGen hs, (trans_gen_iff hv htr hval hu).2 ⟨h, rfl⟩⟩

theorem issubtype_trans {tbl : Table} (hv : ValidTable tbl) (htr : Transparent tbl) {t u : Ty}
    (ht : Valid tbl 0 t) (hu : Valid tbl 0 u) : issubtype tbl t u = true ↔ Sub tbl t u := by
  cases u with
  | var i => exact absurd rfl (valid_not_var hu i)
  | cls e =>
    rw [issubtype_cls hv (valid_not_var ht)]
    exact (sub_cls_iff hv ht (by simpa [Valid] using hu)).symm
  | gen e bs =>
    cases t with
    | var i => exact absurd rfl (valid_not_var ht i)
    | gen c as =>
      rw [gen_sub_gen hv]
      exact (trans_gen_iff hv htr ht hu).symm
    | cls c =>
      exact (trans_cls_gen hv htr hu c (by simpa [Valid] using ht)).symm

/-! The instantiated superclass -/

theorem instArg_eq {tbl : Table} {as : List Ty} {b : Ty} (n : Nat) (hl : as.length = n) (ha : ∀ a ∈ as, Valid tbl 0 a)
    (hb : Valid tbl n b) : instArg as b = subst as b ↔ (∃ i, b = .var i) ∨ Valid tbl 0 b := by
  constructor
  · intro h
    by_cases hv : ∃ i, b = .var i
    · exact Or.inl hv
    · right
      have : instArg as b = b := by
        cases b with
        | cls c => rfl
        | gen c bs => rfl
        | var i => exact absurd ⟨i, rfl⟩ hv
      rw [this] at h
      rw [h]
      exact valid_subst hl ha b hb
  · rintro (⟨i, rfl⟩ | h)
    · rfl
    · rw [subst_closed b h]
      cases b with
      | cls c => rfl
      | gen c bs => rfl
      | var i => simp [Valid] at h

theorem superclass_cls {tbl : Table} (hv : ValidTable tbl) (c : Nat) (u : Ty) :
    superclass tbl (.cls c) = some u ↔ Super tbl (.cls c) u := by
  simp only [superclass, supOf_eq hv]
  constructor
  · intro h
    split at h
    · cases h; exact .clsCls (by assumption)
    · cases h; exact .clsGen (by assumption)
    · cases h
  · intro h
    cases h with
    | clsCls h => rw [h]
    | clsGen h => rw [h]

theorem superclass_gen {tbl : Table} (hv : ValidTable tbl) {c : Nat} {as : List Ty} (ht : Valid tbl 0 (.gen c as))
    (hf : ∀ d bs, (tbl c).sup = some (.gen d bs) → ∀ b ∈ bs, (∃ i, b = .var i) ∨ Valid tbl 0 b) (u : Ty) :
    superclass tbl (.gen c as) = some u ↔ Super tbl (.gen c as) u := by
  simp only [superclass, supOf_eq hv]
  simp only [Valid] at ht
  have key : ∀ d bs, (tbl c).sup = some (.gen d bs) → bs.map (instArg as) = substList as bs := by
    intro d bs h
    rw [substList_eq_map]
    apply List.map_congr_left
    intro b hb
    have hval := (hv.gen _ _ _ h).2
    simp only [Valid] at hval
    exact (instArg_eq _ ht.1.symm ((validList_iff _).1 ht.2.2) ((validList_iff _).1 hval.2.2 b hb)).2 (hf d bs h b hb)
  constructor
  · intro h
    split at h
    · cases h; exact .genCls (by assumption)
    · rename_i d bs hs
      rw [key d bs hs] at h
      cases h; exact .genGen hs
    · cases h
  · intro h
    cases h with
    | genCls h => rw [h]
    | genGen h => rw [h]; simp [key _ _ h]

theorem trans_flat {tbl : Table} (hv : ValidTable tbl) (htr : Transparent tbl) {c : Nat} {as : List Ty} (ht : Valid tbl 0 (.gen c as)) :
    ∀ d bs, (tbl c).sup = some (.gen d bs) → ∀ b ∈ bs, (∃ i, b = .var i) ∨ Valid tbl 0 b := by
  intro d bs h b hb
  left
  simp only [Valid] at ht
  have hpos : 0 < (tbl c).nvars := by rw [ht.1]; exact List.length_pos_iff.2 ht.2.1
  rw [(htr c hpos).1 d bs h] at hb
  obtain ⟨i, _, rfl⟩ := List.mem_map.1 hb
  exact ⟨i, rfl⟩

theorem superclass_trans {tbl : Table} (hv : ValidTable tbl) (htr : Transparent tbl) {t : Ty} (ht : Valid tbl 0 t) (u : Ty) :
    superclass tbl t = some u ↔ Super tbl t u := by
  cases t with
  | cls c => exact superclass_cls hv c u
  | gen c as => exact superclass_gen hv ht (trans_flat hv htr ht) u
  | var i => exact absurd rfl (valid_not_var ht i)

/-! Least upper bounds -/

theorem sub_step {tbl : Table} {t s u : Ty} (h : Super tbl t s) (hu : Sub tbl t u) : u = t ∨ Sub tbl s u := by
  rcases ReflTransGen.cases_head hu with h' | ⟨w, hw, h'⟩
  · exact Or.inl h'.symm
  · rw [super_unique h hw]; exact Or.inr h'

theorem sub_root {tbl : Table} {t u : Ty} (h : ∀ s, ¬ Super tbl t s) (hu : Sub tbl t u) : u = t := by
  rcases ReflTransGen.cases_head hu with h' | ⟨w, hw, _⟩
  · exact h'.symm
  · exact absurd hw (h w)

theorem lub_symm {tbl : Table} {t1 t2 t : Ty} (h : IsLub tbl t1 t2 t) : IsLub tbl t2 t1 t :=
  ⟨h.2.1, h.1, fun u h1 h2 => h.2.2 u h2 h1⟩

theorem lub_step {tbl : Table} {t1 t2 s1 t : Ty} (hs : Super tbl t1 s1) (hn : ¬ Sub tbl t2 t1)
    (h : IsLub tbl t2 s1 t) : IsLub tbl t1 t2 t := by
  refine ⟨h.2.1.head hs, h.1, fun u h1 h2 => ?_⟩
  rcases sub_step hs h1 with rfl | h1
  · exact absurd h2 hn
  · exact h.2.2 u h2 h1

theorem pairwise_spec {tbl : Table} (hv : ValidTable tbl) (htr : Transparent tbl) :
    ∀ n t1 t2, head t1 + head t2 < n → Valid tbl 0 t1 → Valid tbl 0 t2 →
      (∀ t, pairwise tbl n t1 t2 = some t → IsLub tbl t1 t2 t) ∧
      (pairwise tbl n t1 t2 = none → ∀ u, ¬ (Sub tbl t1 u ∧ Sub tbl t2 u)) := by
  intro n
  induction n with
  | zero => intro t1 t2 h; omega
  | succ n ih =>
    intro t1 t2 hlt h1 h2
    rw [pairwise]
    by_cases h12 : issubtype tbl t1 t2 = true
    · rw [if_pos h12]
      have hs := (issubtype_trans hv htr h1 h2).1 h12
      refine ⟨?_, by simp⟩
      rintro t ⟨⟩
      exact ⟨hs, .refl, fun u _ h => h⟩
    · rw [if_neg h12]
      by_cases h21 : issubtype tbl t2 t1 = true
      · rw [if_pos h21]
        have hs := (issubtype_trans hv htr h2 h1).1 h21
        refine ⟨?_, by simp⟩
        rintro t ⟨⟩
        exact ⟨.refl, hs, fun u h _ => h⟩
      · rw [if_neg h21]
        rw [issubtype_trans hv htr h1 h2] at h12
        rw [issubtype_trans hv htr h2 h1] at h21
        have s1 := superclass_trans hv htr h1
        have s2 := superclass_trans hv htr h2
        split
        · rename_i e1 e2
          refine ⟨by simp, fun _ u ⟨hu1, hu2⟩ => ?_⟩
          have r1 := sub_root (fun s hs => by have := (s1 s).2 hs; rw [e1] at this; cases this) hu1
          subst r1
          exact h21 hu2
        · rename_i w e1 e2
          have hw := (s2 w).1 e2
          have hl := super_lt hv hw
          obtain ⟨iha, ihb⟩ := ih w t1 (by omega) (super_valid hv hw h2) h1
          refine ⟨fun t ht => lub_symm (lub_step hw h12 (lub_symm (iha t ht))), fun hnone u ⟨hu1, hu2⟩ => ?_⟩
          rcases sub_step hw hu2 with rfl | hu
          · exact h12 hu1
          · exact ihb hnone u ⟨hu, hu1⟩
        · rename_i w e1
          have hw := (s1 w).1 e1
          have hl := super_lt hv hw
          obtain ⟨iha, ihb⟩ := ih t2 w (by omega) h2 (super_valid hv hw h1)
          refine ⟨fun t ht => lub_step hw h21 (iha t ht), fun hnone u ⟨hu1, hu2⟩ => ?_⟩
          rcases sub_step hw hu1 with rfl | hu
          · exact h21 hu2
          · exact ihb hnone u ⟨hu2, hu⟩

theorem nominal_root {tbl : Table} (hv : ValidTable tbl) (hroot : ∀ c, 0 < c → (tbl c).sup ≠ none) :
    ∀ c, Nominal tbl c 0 := by
  intro c
  induction c using Nat.strongRecOn with
  | ind c ih =>
    by_cases hc : c = 0
    · subst hc; exact .refl
    · cases h : (tbl c).sup with
      | none => exact absurd h (hroot c (by omega))
      | some s =>
        cases s with
        | cls d => exact (ih d (hv.cls _ _ h).1).head (.cls h)
        | gen d bs => exact (ih d (hv.gen _ _ _ h).1).head (.gen h)

end Nagini.Generics
