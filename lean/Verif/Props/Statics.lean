import Verif.Lemmas.Statics

/-!
C99: reads of class attributes.  C100: locations of class attributes that are written to.
-/
set_option linter.unusedVariables false
namespace Nagini.Statics

/-- The functions have the values Python finds, for reads through classes and for reads through objects with
any static type. -/
def Right (P : Program) (objs : Obj → Prop) (h : Interp) : Prop :=
  (∀ t ∈ P.classes, ∀ f r v, readClass t f = some (.func r) → pyClassAttr t f = some v → h r f t.name = v) ∧
  (∀ o, objs o → ∀ t ∈ o.cls.mro, ∀ f r v, readInst t f = some (.func r) → pyAttr o f = some v →
    h r f o.cls.name = v)

/-- **C99** (full claim): in accepted programs, whatever the objects are, the generated functions can have the
values Python finds; they cannot have other values; and the statements of a receiver are kept. -/
def C99 : Prop :=
  ∀ (P : Program), (∀ c ∈ P.classes, accepted c = true) → ∀ (objs : Obj → Prop), (∀ o, objs o → Legal P o) →
    (∃ h, Posts P h ∧ Right P objs h) ∧ (∀ h, Posts P h → Right P objs h) ∧
    ∀ (S : Type) (stmts : List S) (t : Cls) (f : Fld) (a : Access), readInst t f = some a → attrStmts stmts a = stmts

/-- `class A: X = 1` and `class B(A)` with `self.X = v` in its `__init__`. -/
abbrev clsA : Cls := .base 0 [(7, 1)] []
abbrev clsB : Cls := .sub 1 [] [7] clsA

abbrev progAB : Program where
  classes := [clsA, clsB]
  names := by decide
  closed := by decide

abbrev obj5 : Obj := ⟨clsB, fun f => if f = 7 then some 5 else none⟩
abbrev obj6 : Obj := ⟨clsB, fun f => if f = 7 then some 6 else none⟩

/-- An object attribute of a subclass hides the class attribute: reads through the type of the superclass are
the same for all objects of the subclass, although Python gives different values. -/
theorem C99_hidden_fails : (∀ c ∈ progAB.classes, accepted c = true) ∧ Legal progAB obj5 ∧ Legal progAB obj6 ∧
    ∃ r, readInst clsA 7 = some (.func r) ∧ pyAttr obj5 7 = some 5 ∧ pyAttr obj6 7 = some 6 ∧
      ¬ ∃ h, Posts progAB h ∧ Right progAB (fun o => o = obj5 ∨ o = obj6) h := by
  refine ⟨by decide, ⟨by decide, fun f hf => ?_⟩, ⟨by decide, fun f hf => ?_⟩, 0, by decide, by decide, by decide, ?_⟩
  · by_cases h : f = 7
    · subst h; exact ⟨clsB, by decide, by decide⟩
    · simp [h] at hf
  · by_cases h : f = 7
    · subst h; exact ⟨clsB, by decide, by decide⟩
    · simp [h] at hf
  · rintro ⟨h, _, _, h2⟩
    have h5 := h2 obj5 (.inl rfl) clsA (by decide) 7 0 5 (by decide) (by decide)
    have h6 := h2 obj6 (.inr rfl) clsA (by decide) 7 0 6 (by decide) (by decide)
    have h7 : h 0 7 1 = 5 := h5
    have h8 : h 0 7 1 = 6 := h6
    omega

theorem C99_fails : ¬ C99 := by
  intro h
  obtain ⟨h1, h2, h3, r, _, _, _, h4⟩ := C99_hidden_fails
  exact h4 (h progAB h1 _ (by rintro o (rfl | rfl) <;> assumption)).1

/-- `class A: X = 1` and `class B(A): pass`. -/
abbrev clsB' : Cls := .sub 1 [] [] clsA

abbrev progInh : Program where
  classes := [clsA, clsB']
  names := by decide
  closed := by decide

/-- The postconditions are about the class of the definition, so nothing is known about an attribute that is
read through a class that inherits it. -/
theorem C99_inherited_fails : readClass clsB' 7 = some (.func 0) ∧ pyClassAttr clsB' 7 = some 1 ∧
    ∃ h, Posts progInh h ∧ h 0 7 clsB'.name = 2 := by
  refine ⟨by decide, by decide, fun r f n => if n = 1 then 2 else 1, ?_, rfl⟩
  intro r f n v hm
  obtain ⟨c, hc, d, h1, _, h3⟩ := mem_posts.1 hm
  obtain ⟨h4, h5⟩ := getStaticField_spec h1
  have hd : d ∈ progInh.classes := progInh.closed c hc d h4
  simp only [List.mem_cons, List.not_mem_nil, or_false] at hd
  rcases hd with rfl | rfl
  · subst h3
    by_cases hf : f = 7
    · subst hf
      simp [Cls.own] at h5
      simp [Cls.name, h5]
    · have hb : (f == 7) = false := by simpa using hf
      simp [Cls.own, List.lookup_cons, hb] at h5
  · simp [Cls.own] at h5

/-- `class C(B): X = 3` in addition. -/
abbrev clsC : Cls := .sub 2 [(7, 3)] [] clsB'

abbrev progSkip : Program where
  classes := [clsA, clsB', clsC]
  names := by decide
  closed := by decide

/-- Overridden attributes are only found in the direct superclass, so a read of the attribute of a `C` through
`A` uses another function than a read through `C`. -/
theorem C99_skipped_fails : readInst clsA 7 = some (.func 0) ∧ readInst clsC 7 = some (.func 2) ∧
    pyAttr ⟨clsC, fun _ => none⟩ 7 = some 3 ∧ ∃ h, Posts progSkip h ∧ h 0 7 clsC.name ≠ h 2 7 clsC.name := by
  refine ⟨by decide, by decide, by decide, fun r f n => if n = 2 then (if r = 0 then 9 else 3) else 1, ?_, by decide⟩
  intro r f n v hm
  obtain ⟨c, hc, d, h1, h2, h3⟩ := mem_posts.1 hm
  obtain ⟨h4, h5⟩ := getStaticField_spec h1
  have hd : d ∈ progSkip.classes := progSkip.closed c hc d h4
  simp only [List.mem_cons, List.not_mem_nil, or_false] at hd
  by_cases hf : f = 7
  · subst hf
    rcases hd with rfl | rfl | rfl
    · subst h3
      simp [Cls.own] at h5
      simp [Cls.name, h5]
    · simp [Cls.own] at h5
    · subst h3
      have hr : r = 2 := by rw [← h2]; decide
      subst hr
      simp [Cls.own] at h5
      simp [Cls.name, h5]
  · have hb : (f == 7) = false := by simpa using hf
    rcases hd with rfl | rfl | rfl <;> simp [Cls.own, List.lookup_cons, hb] at h5

/-- The statements of the receiver of a static field are left out: `f().X` does not call `f`. -/
theorem C99_receiver_fails {S : Type} (call : S) : ∃ a, readInst clsA 7 = some a ∧ attrStmts [call] a ≠ [call] :=
  ⟨.func 0, by decide, by simp [attrStmts]⟩

/-- **C99** (partial, soundness): if no attribute is used through a class that inherits it (which makes it a
field of that class), the functions can have the values Python finds, for all objects and static types at the
same time. -/
theorem C99_sound_partial (P : Program) (objs : Obj → Prop) (hl : ∀ o, objs o → Legal P o)
    (hno : ∀ c ∈ P.classes, ∀ f ∈ c.used, (c.own.lookup f).isNone → pyClassAttr c f = none) :
    ∃ h, Posts P h ∧ Right P objs h := by
  refine ⟨standard P, standard_posts P, fun t ht f r v _ hv => ?_, fun o ho t ht f r v hr hv => ?_⟩
  · rw [standard_eq ht, hv]; rfl
  · obtain ⟨hc, hd⟩ := hl o ho
    have hdict : o.dict f = none := by
      cases hq : o.dict f with
      | none => rfl
      | some w =>
        exfalso
        obtain ⟨c, h1, h2⟩ := hd f (by rw [hq]; simp)
        unfold readInst at hr
        split at hr
        · cases hr
        · next hg =>
          have h3 : c ∉ t.mro := fun hm => hg (getField_spec.2 ⟨c, hm, h2⟩)
          have h4 : t ∈ c.mro := (mro_linear ht h1).resolve_left h3
          split at hr
          · split at hr
            · next hown =>
              have h5 := pyClassAttr_of_mro h4 hown
              have h6 := h2
              simp only [fields, List.contains_eq_mem, List.mem_filter, decide_eq_true_eq] at h6
              rw [hno c (P.closed _ hc c h1) f h6.1 h6.2] at h5
              cases h5
            · cases hr
          · cases hr
    rw [standard_eq hc]
    simp only [pyAttr, hdict, Option.none_or] at hv
    rw [hv]; rfl

/-- **C99** (partial, precision): the value of an attribute is known if the class it is read from, or the
class of the object, and all classes between it and the static type have it in their own body. -/
theorem C99_known_partial (P : Program) (h : Interp) (hp : Posts P h) (c t : Cls) (hc : c ∈ P.classes) (f : Fld)
    (hdef : DefinesUpTo f c t) :
    (∃ r v, readClass c f = some (.func r) ∧ pyClassAttr c f = some v ∧ h r f c.name = v) ∧
    (∀ r o, readInst t f = some (.func r) → o.cls = c → o.dict f = none → pyAttr o f = some (h r f c.name)) := by
  obtain ⟨h1, h2⟩ := root_of_definesUpTo hdef
  obtain ⟨v, hv⟩ := Option.isSome_iff_exists.1 h1
  have hval : h (rootOf c f).name f c.name = v :=
    hp _ _ _ _ (mem_posts.2 ⟨c, hc, c, getStaticField_own hv, rfl, rfl⟩)
  refine ⟨⟨_, v, by rw [readClass, getStaticField_own hv]; rfl, pyClassAttr_own hv, hval⟩, fun r o hr ho hd => ?_⟩
  unfold readInst at hr
  split at hr
  · cases hr
  · split at hr
    · split at hr
      · cases hr
        subst ho
        simp only [pyAttr, hd, Option.none_or, pyClassAttr_own hv, ← h2, hval]
      · cases hr
    · cases hr

/-- Reads through objects never fail to be translated if the attribute is an own attribute of the static
type or was used through it (an attribute of a superclass that is only used as an argument of a call is not
registered, and looking it up raises a KeyError). -/
theorem C99_translated (t : Cls) (f : Fld) (hu : f ∈ t.used ∨ (t.own.lookup f).isSome) : (readInst t f).isSome := by
  unfold readInst
  split
  · rfl
  · next hg =>
    have hown : (t.own.lookup f).isSome := by
      rcases hu with hu | hu
      · cases hq : t.own.lookup f with
        | some v => rfl
        | none =>
          exfalso
          apply hg
          refine getField_spec.2 ⟨t, mem_mro_self t, ?_⟩
          simp [fields, List.contains_eq_mem, hu, hq]
      · exact hu
    obtain ⟨v, hv⟩ := Option.isSome_iff_exists.1 hown
    rw [getStaticField_own hv]
    simp [hown]

/-- All statements are kept in front of accesses that are not static fields. -/
theorem C99_statements_partial {S : Type} (stmts : List S) (t : Cls) (f : Fld)
    (h : ∃ c ∈ t.mro, f ∈ c.used ∧ (c.own.lookup f).isNone) :
    ∃ a, readInst t f = some a ∧ attrStmts stmts a = stmts := by
  obtain ⟨c, h1, h2, h3⟩ := h
  have hg : getField t f = true := getField_spec.2 ⟨c, h1, by simp [fields, List.contains_eq_mem, h2]; simpa using h3⟩
  exact ⟨.field, by simp [readInst, hg], rfl⟩

/-- **C100** (full claim): there is a meaning of the functions for which different attributes that are written
to have different locations, so that having full permission for all of them is possible. -/
def C100 : Prop :=
  ∀ (P : Program) (written : List (Cls × Fld)), (∀ q ∈ written, q.1 ∈ P.classes ∧ (q.1.own.lookup q.2).isSome) →
    ∃ h, Posts P h ∧ ∀ q ∈ written, ∀ q' ∈ written, location h q.1 q.2 = location h q'.1 q'.2 → q = q'

/-- `class A: x = 0; y = 0`. -/
abbrev clsXY : Cls := .base 0 [(1, 0), (2, 0)] []

abbrev progXY : Program where
  classes := [clsXY]
  names := by decide
  closed := by decide

/-- The postconditions give the location of a static field the value of its initialiser: two attributes with
the same initial value have the same location, and full permission for both is a contradiction. -/
theorem C100_fails : ¬ C100 := by
  intro h
  obtain ⟨i, hp, hd⟩ := h progXY [(clsXY, 1), (clsXY, 2)] (by decide)
  have h1 : location i clsXY 1 = 0 := hp 0 1 0 0 (by decide)
  have h2 : location i clsXY 2 = 0 := hp 0 2 0 0 (by decide)
  have := hd (clsXY, 1) (by simp) (clsXY, 2) (by simp) (h1.trans h2.symm)
  exact absurd this (by decide)

/-- **C100** (partial): it is possible exactly if the initial values are different. -/
theorem C100_partial (P : Program) (written : List (Cls × Fld))
    (hw : ∀ q ∈ written, q.1 ∈ P.classes ∧ (q.1.own.lookup q.2).isSome) :
    (∃ h, Posts P h ∧ ∀ q ∈ written, ∀ q' ∈ written, location h q.1 q.2 = location h q'.1 q'.2 → q = q') ↔
    ∀ q ∈ written, ∀ q' ∈ written, q.1.own.lookup q.2 = q'.1.own.lookup q'.2 → q = q' := by
  have key : ∀ h, Posts P h → ∀ q ∈ written, q.1.own.lookup q.2 = some (location h q.1 q.2) := by
    intro h hp q hq
    obtain ⟨h1, h2⟩ := hw q hq
    obtain ⟨v, hv⟩ := Option.isSome_iff_exists.1 h2
    rw [hv]
    exact congrArg some (hp _ _ _ _ (mem_posts.2 ⟨q.1, h1, q.1, getStaticField_own hv, rfl, rfl⟩)).symm
  constructor
  · rintro ⟨h, hp, hd⟩ q hq q' hq' he
    rw [key h hp q hq, key h hp q' hq'] at he
    exact hd q hq q' hq' (Option.some.inj he)
  · intro hd
    refine ⟨standard P, standard_posts P, fun q hq q' hq' he => hd q hq q' hq' ?_⟩
    rw [key _ (standard_posts P) q hq, key _ (standard_posts P) q' hq', he]

/-- A program that meets the hypotheses: `class A: X = 1`, `class B(A): X = 2` with `self.y` used. -/
abbrev clsB2 : Cls := .sub 1 [(7, 2)] [8] clsA

abbrev progGood : Program where
  classes := [clsA, clsB2]
  names := by decide
  closed := by decide

example : (∀ c ∈ progGood.classes, accepted c = true) ∧
    (∀ c ∈ progGood.classes, ∀ f ∈ c.used, (c.own.lookup f).isNone → pyClassAttr c f = none) ∧
    DefinesUpTo 7 clsB2 clsA ∧ readInst clsA 7 = some (.func 0) ∧ posts progGood 0 7 = [(0, 1), (1, 2)] :=
  ⟨by decide, by decide, .up (by decide) (.here (by decide)), by decide, by decide⟩

example : readInst clsB2 8 = some .field ∧ clsB2.own.lookup 7 ≠ clsA.own.lookup 7 := by decide

end Nagini.Statics
