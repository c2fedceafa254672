import Verif.Model.Statics

/-! Lemmas about static fields. -/
set_option linter.unusedVariables false
set_option linter.unusedSimpArgs false
namespace Nagini.Statics

theorem mem_mro_self (c : Cls) : c ∈ c.mro := by cases c <;> simp [Cls.mro]

theorem mro_trans {c d e : Cls} (h1 : d ∈ c.mro) (h2 : e ∈ d.mro) : e ∈ c.mro := by
  induction c with
  | base n o u =>
    simp only [Cls.mro, List.mem_singleton] at h1
    subst h1
    exact h2
  | sub n o u s ih =>
    rcases List.mem_cons.1 h1 with h | h
    · subst h; exact h2
    · exact List.mem_cons_of_mem _ (ih h)

/-- Superclasses of the same class are comparable. -/
theorem mro_linear {c d e : Cls} (h1 : d ∈ c.mro) (h2 : e ∈ c.mro) : e ∈ d.mro ∨ d ∈ e.mro := by
  induction c with
  | base n o u =>
    simp only [Cls.mro, List.mem_singleton] at h1 h2
    subst h1 h2
    exact .inl (mem_mro_self _)
  | sub n o u s ih =>
    rcases List.mem_cons.1 h1 with h | h
    · subst h; exact .inl h2
    · rcases List.mem_cons.1 h2 with h' | h'
      · subst h'; exact .inr h1
      · exact ih h h'

theorem getStaticField_py (c : Cls) (f : Fld) : (getStaticField c f).map Prod.snd = pyClassAttr c f := by
  induction c with
  | base n o u =>
    simp only [getStaticField, pyClassAttr, Cls.mro, List.findSome?_cons, Cls.own, List.findSome?_nil, Option.map_map]
    cases o.lookup f <;> rfl
  | sub n o u s ih =>
    simp only [getStaticField, pyClassAttr, Cls.mro, List.findSome?_cons, Cls.own]
    cases o.lookup f with
    | none => exact ih
    | some v => rfl

theorem getStaticField_spec {c d : Cls} {f : Fld} {v : Int} (h : getStaticField c f = some (d, v)) :
    d ∈ c.mro ∧ d.own.lookup f = some v := by
  induction c with
  | base n o u =>
    simp only [getStaticField, Option.map_eq_some_iff] at h
    obtain ⟨w, h1, h2⟩ := h
    cases h2
    exact ⟨mem_mro_self _, h1⟩
  | sub n o u s ih =>
    simp only [getStaticField] at h
    cases ho : o.lookup f with
    | none =>
      rw [ho] at h
      obtain ⟨h1, h2⟩ := ih h
      exact ⟨List.mem_cons_of_mem _ h1, h2⟩
    | some w =>
      rw [ho] at h
      cases h
      exact ⟨mem_mro_self _, ho⟩

theorem getStaticField_own {c : Cls} {f : Fld} {v : Int} (h : c.own.lookup f = some v) :
    getStaticField c f = some (c, v) := by
  cases c with
  | base n o u => simp only [Cls.own] at h; simp [getStaticField, h]
  | sub n o u s => simp only [Cls.own] at h; simp [getStaticField, h]

theorem pyClassAttr_own {c : Cls} {f : Fld} {v : Int} (h : c.own.lookup f = some v) : pyClassAttr c f = some v := by
  rw [← getStaticField_py, getStaticField_own h]; rfl

theorem pyClassAttr_of_mro {c d : Cls} {f : Fld} (h : d ∈ c.mro) (hd : (d.own.lookup f).isSome) :
    (pyClassAttr c f).isSome := by
  unfold pyClassAttr
  rw [List.findSome?_isSome_iff]
  exact ⟨d, h, hd⟩

theorem getField_spec {c : Cls} {f : Fld} : getField c f = true ↔ ∃ d ∈ c.mro, (fields d).contains f = true := by
  induction c with
  | base n o u => simp [getField, Cls.mro]
  | sub n o u s ih =>
    simp only [getField, Cls.mro]
    split
    · next h => exact ⟨fun _ => ⟨_, List.mem_cons_self, h⟩, fun _ => rfl⟩
    · next h =>
      rw [ih]
      constructor
      · rintro ⟨d, h1, h2⟩
        exact ⟨d, List.mem_cons_of_mem _ h1, h2⟩
      · rintro ⟨d, h1, h2⟩
        rcases List.mem_cons.1 h1 with h3 | h3
        · subst h3; exact absurd h2 h
        · exact ⟨d, h3, h2⟩

theorem mem_posts {P : Program} {r : Name} {f : Fld} {n : Name} {v : Int} : (n, v) ∈ posts P r f ↔
    ∃ c ∈ P.classes, ∃ d, getStaticField c f = some (d, v) ∧ (rootOf d f).name = r ∧ d.name = n := by
  simp only [posts, List.mem_filterMap]
  constructor
  · rintro ⟨c, hc, h⟩
    split at h
    · next d w hd =>
      split at h
      · next hr => cases h; exact ⟨c, hc, d, hd, hr, rfl⟩
      · cases h
    · cases h
  · rintro ⟨c, hc, d, h1, h2, h3⟩
    refine ⟨c, hc, ?_⟩
    rw [h1]
    simp [h2, h3]

/-- The interpretation by the attributes of the classes. -/
def standard (P : Program) : Interp := fun _ f n =>
  match P.classes.find? fun c => c.name = n with
  | some c => (pyClassAttr c f).getD 0
  | none => 0

theorem standard_eq {P : Program} {c : Cls} (hc : c ∈ P.classes) (r : Name) (f : Fld) :
    standard P r f c.name = (pyClassAttr c f).getD 0 := by
  unfold standard
  cases hq : P.classes.find? fun d => d.name = c.name with
  | none =>
    have := List.find?_eq_none.1 hq c hc
    simp at this
  | some d =>
    have h1 := List.find?_some hq
    simp only [decide_eq_true_eq] at h1
    have h2 := P.names d (List.mem_of_find?_eq_some hq) c hc h1
    subst h2
    rfl

theorem standard_posts (P : Program) : Posts P (standard P) := by
  intro r f n v h
  obtain ⟨c, hc, d, h1, h2, h3⟩ := mem_posts.1 h
  subst h3
  obtain ⟨h4, h5⟩ := getStaticField_spec h1
  rw [standard_eq (P.closed c hc d h4), pyClassAttr_own h5]
  rfl

theorem root_of_definesUpTo {f : Fld} {r t : Cls} (h : DefinesUpTo f r t) :
    (r.own.lookup f).isSome ∧ rootOf r f = rootOf t f := by
  induction h with
  | here h => exact ⟨h, rfl⟩
  | up h _ ih => exact ⟨h, by simp only [rootOf]; rw [if_pos ih.1]; exact ih.2⟩

end Nagini.Statics
