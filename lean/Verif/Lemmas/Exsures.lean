import Verif.Model.Exsures
import Verif.Lemmas.Classes

set_option linter.unusedVariables false
set_option linter.unusedSimpArgs false
namespace Nagini.Exsures

open Classes

variable {S E : Type} {H : Hier} {cls : E → Nat}

theorem declare_ne (ds : List (Nat × List (Post S E))) (x : Nat × Post S E) : declare ds x ≠ [] := by
  cases ds with
  | nil => simp [declare]
  | cons d ds =>
    unfold declare
    split <;> simp

/-- The pairs contained in a dictionary. -/
def Has (ds : List (Nat × List (Post S E))) (c : Nat) (p : Post S E) : Prop :=
  ∃ d ∈ ds, d.1 = c ∧ p ∈ d.2

theorem has_declare (ds : List (Nat × List (Post S E))) (x : Nat × Post S E) (c : Nat) (p : Post S E) :
    Has (declare ds x) c p ↔ Has ds c p ∨ (x.1 = c ∧ x.2 = p) := by
  induction ds with
  | nil =>
    simp only [Has, declare, List.mem_singleton, List.not_mem_nil, false_and, exists_false, false_or]
    constructor
    · rintro ⟨d, rfl, h1, h2⟩
      exact ⟨h1, (List.mem_singleton.1 h2).symm⟩
    · rintro ⟨h1, h2⟩
      exact ⟨_, rfl, h1, List.mem_singleton.2 h2.symm⟩
  | cons d ds ih =>
    unfold declare
    by_cases hd : d.1 = x.1
    · rw [if_pos hd]
      simp only [Has, List.mem_cons]
      constructor
      · rintro ⟨d', rfl | h, h1, h2⟩
        · rcases List.mem_append.1 h2 with h2 | h2
          · exact .inl ⟨d, .inl rfl, h1, h2⟩
          · exact .inr ⟨hd ▸ h1, (List.mem_singleton.1 h2).symm⟩
        · exact .inl ⟨d', .inr h, h1, h2⟩
      · rintro (⟨d', rfl | h, h1, h2⟩ | ⟨h1, h2⟩)
        · exact ⟨_, .inl rfl, h1, List.mem_append.2 (.inl h2)⟩
        · exact ⟨d', .inr h, h1, h2⟩
        · exact ⟨_, .inl rfl, hd.trans h1, List.mem_append.2 (.inr (by simp [h2]))⟩
    · rw [if_neg hd]
      have h1 : ∀ l : List (Nat × List (Post S E)), Has (d :: l) c p ↔ (d.1 = c ∧ p ∈ d.2) ∨ Has l c p := by
        intro l
        simp [Has]
      rw [h1, h1, ih, or_assoc]

theorem has_foldl (xs : List (Nat × Post S E)) (ds : List (Nat × List (Post S E))) (c : Nat)
    (p : Post S E) :
    Has (xs.foldl declare ds) c p ↔ Has ds c p ∨ (c, p) ∈ xs := by
  induction xs generalizing ds with
  | nil => simp
  | cons x xs ih =>
    rw [List.foldl_cons, ih, has_declare, List.mem_cons, or_assoc]
    refine or_congr Iff.rfl (or_congr ?_ Iff.rfl)
    obtain ⟨a, b⟩ := x
    constructor
    · rintro ⟨rfl, rfl⟩; rfl
    · intro h; cases h; exact ⟨rfl, rfl⟩

/-- No class has an empty list of assertions. -/
theorem declare_full (ds : List (Nat × List (Post S E))) (x : Nat × Post S E)
    (h : ∀ d ∈ ds, d.2 ≠ []) : ∀ d ∈ declare ds x, d.2 ≠ [] := by
  induction ds with
  | nil => intro d hd; simp [declare] at hd; simp [hd]
  | cons d ds ih =>
    unfold declare
    split
    · intro d' hd'
      rcases List.mem_cons.1 hd' with rfl | hd'
      · simp
      · exact h d' (List.mem_cons_of_mem _ hd')
    · intro d' hd'
      rcases List.mem_cons.1 hd' with rfl | hd'
      · exact h _ List.mem_cons_self
      · exact ih (fun d hd => h d (List.mem_cons_of_mem _ hd)) d' hd'

theorem foldl_full (xs : List (Nat × Post S E)) (ds : List (Nat × List (Post S E)))
    (h : ∀ d ∈ ds, d.2 ≠ []) : ∀ d ∈ xs.foldl declare ds, d.2 ≠ [] := by
  induction xs generalizing ds with
  | nil => exact h
  | cons x xs ih => exact ih _ (declare_full ds x h)

theorem has_declared (m : Method S E) (c : Nat) (p : Post S E) :
    Has (declared m) c p ↔ (c, p) ∈ m.exsures := by
  unfold declared
  rw [has_foldl]
  simp [Has]

theorem class_declared (m : Method S E) (c : Nat) :
    (∃ d ∈ declared m, d.1 = c) ↔ ∃ x ∈ m.exsures, x.1 = c := by
  constructor
  · rintro ⟨d, hd, rfl⟩
    have hf := foldl_full m.exsures [] (by simp) d hd
    obtain ⟨p, hp⟩ := List.exists_mem_of_ne_nil _ hf
    exact ⟨(d.1, p), (has_declared m d.1 p).1 ⟨d, hd, rfl, hp⟩, rfl⟩
  · rintro ⟨x, hx, rfl⟩
    obtain ⟨d, hd, h1, -⟩ := (has_declared m x.1 x.2).2 hx
    exact ⟨d, hd, h1⟩

theorem declares_iff (m : Method S E) : declares m = true ↔ m.exsures ≠ [] := by
  have h : declared m = [] ↔ m.exsures = [] := by
    constructor
    · intro h
      cases hx : m.exsures with
      | nil => rfl
      | cons x xs =>
        obtain ⟨d, hd, -⟩ := (class_declared m x.1).2 ⟨x, by simp [hx], rfl⟩
        rw [h] at hd
        cases hd
    · intro h
      simp [declared, h]
  rw [declares, Bool.not_eq_true', ← Bool.not_eq_true, List.isEmpty_iff, h]

theorem hasType_iff (d : Nat) (err : Option E) :
    hasType H cls d err ↔ ∃ e, err = some e ∧ Anc H (cls e) d := by
  cases err with
  | none => simp [hasType]
  | some e => simp [hasType, issubtype_iff]

theorem foldl_or {α : Type} (P : α → Prop) (l : List α) (b : Prop) :
    l.foldl (fun c x => c ∨ P x) b ↔ b ∨ ∃ x ∈ l, P x := by
  induction l generalizing b with
  | nil => simp
  | cons x l ih => rw [List.foldl_cons, ih]; simp [or_assoc]

theorem typeCond_iff (err : Option E) (l : List Nat) :
    (typeCond H cls err l).getD False ↔ ∃ d ∈ l, hasType H cls d err := by
  cases l with
  | nil => simp [typeCond]
  | cons d l =>
    unfold typeCond
    rw [Option.getD_some, foldl_or (fun d' => hasType H cls d' err)]
    simp

/-- The postconditions of a method with exceptions are exactly what its contract allows. -/
theorem allPosts_declares (m : Method S E) (hm : declares m = true) (s : S) (err : Option E) (s' : S) :
    allPosts H cls m s err s' ↔ Allowed H cls m s err s' := by
  have hp : posts H cls m = (fun _ err s' => err = none → m.resultOk s') ::
      (m.ensures.map (fun p => (fun s err s' => err = none → p s s')) ++
        ((declared m).flatMap (fun d => d.2.map fun p =>
          (fun s err s' => (err ≠ none ∧ hasType H cls d.1 err) → p s err s')) ++
        [fun s err s' => err ≠ none →
          (typeCond H cls err ((declared m).map (·.1))).getD False])) := by
    simp [posts, resultPost, translatePosts, exceptionalPosts, typePost, hm]
  unfold allPosts
  rw [hp]
  simp only [List.forall_mem_cons, List.forall_mem_append, List.forall_mem_map,
    List.forall_mem_flatMap, List.not_mem_nil, false_imp_iff, implies_true, and_true]
  cases err with
  | none => simp [Allowed]
  | some e =>
    simp only [reduceCtorEq, false_imp_iff, implies_true, ne_eq, not_false_eq_true, true_and,
      true_imp_iff, typeCond_iff, hasType_iff, Option.some.injEq, Allowed]
    rw [and_comm]
    refine and_congr ?_ ?_
    · constructor
      · rintro ⟨d, hd, e', rfl, ha⟩
        obtain ⟨d', hd', rfl⟩ := List.mem_map.1 hd
        obtain ⟨x, hx, hxe⟩ := (class_declared m d'.1).1 ⟨d', hd', rfl⟩
        exact ⟨x, hx, hxe ▸ ha⟩
      · rintro ⟨x, hx, ha⟩
        obtain ⟨d, hd, hde⟩ := (class_declared m x.1).2 ⟨x, hx, rfl⟩
        exact ⟨d.1, List.mem_map.2 ⟨d, hd, rfl⟩, e, rfl, hde ▸ ha⟩
    · constructor
      · intro h x hx ha
        obtain ⟨d, hd, h1, h2⟩ := (has_declared m x.1 x.2).2 hx
        exact h d hd x.2 h2 ⟨e, rfl, h1 ▸ ha⟩
      · rintro h d hd p hp ⟨e', rfl, ha⟩
        exact h (d.1, p) ((has_declared m d.1 p).1 ⟨d, hd, rfl, hp⟩) ha

/-- The postconditions of a method without exceptions do not mention the error variable. -/
theorem allPosts_pure (m : Method S E) (hm : declares m = false) (s : S) (err : Option E) (s' : S) :
    allPosts H cls m s err s' ↔ Allowed H cls m s none s' := by
  have hd : declared m = [] := by simpa [declares] using hm
  have hp : posts H cls m = (fun _ _ s' => m.resultOk s') ::
      m.ensures.map (fun p => (fun s _ s' => p s s')) := by
    simp [posts, resultPost, translatePosts, exceptionalPosts, typePost, hm, hd]
  unfold allPosts
  rw [hp]
  simp [Allowed]

theorem not_allowed_pure (m : Method S E) (hm : declares m = false) (s : S) (e : E) (s' : S) :
    ¬ Allowed H cls m s (some e) s' := by
  rintro ⟨⟨x, hx, -⟩, -⟩
  have : ¬ m.exsures ≠ [] := fun h => by
    rw [(declares_iff m).2 h] at hm; cases hm
  exact this (List.ne_nil_of_mem hx)

theorem overrideValid_iff (sub sup : Method S E) :
    overrideValid H sub sup = true ↔ DeclaresLess H sub sup := by
  simp only [overrideValid, List.all_eq_true, List.any_eq_true, issubtype_iff, DeclaresLess]
  constructor
  · intro h x hx
    obtain ⟨d, hd, hde⟩ := (class_declared sub x.1).2 ⟨x, hx, rfl⟩
    obtain ⟨d', hd', ha⟩ := h d hd
    obtain ⟨y, hy, hye⟩ := (class_declared sup d'.1).1 ⟨d', hd', rfl⟩
    exact ⟨y, hy, hde ▸ hye ▸ ha⟩
  · intro h d hd
    obtain ⟨x, hx, hxe⟩ := (class_declared sub d.1).1 ⟨d, hd, rfl⟩
    obtain ⟨y, hy, ha⟩ := h x hx
    obtain ⟨d', hd', hde⟩ := (class_declared sup y.1).2 ⟨y, hy, rfl⟩
    exact ⟨d', hd', hxe ▸ hde ▸ ha⟩

end Nagini.Exsures
