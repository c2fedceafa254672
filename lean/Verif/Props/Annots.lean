import Verif.Lemmas.Annots

/-!
C144: if a module is accepted, then the annotations of its functions, classes and variables only use names
that are defined when Python evaluates them.
-/
namespace Nagini.Annots

/-- The full claim: the definitions of an accepted module raise no `NameError`. -/
def C144_annotations : Prop :=
  ∀ (W : World) (D : List Name) (is : List Item), W.Ok → Base W D →
    checkModule W D is = .accept → Runs D is

/-- Annotations that are checked: classes, strings, `None`, `Optional[C]`, and unions of classes whose common
superclass is not built in. -/
inductive Plain (W : World) : Ann → Prop where
  | leaf {a} : Leaf W a → Plain W a
  | text (n) : Plain W (.text n)
  | none : Plain W .none
  | optional {a} : Leaf W a → Plain W (.sub optionalN [a])
  | union {as c} : (∀ a ∈ as, Leaf W a) → target W (.sub unionN as) = .ty c false →
      W.builtin c = false → Plain W (.sub unionN as)

/-- Statements whose annotations are checked: functions and classes with such annotations, and variables whose
annotations only use the names of built-in classes. -/
def PlainItem (W : World) : Item → Prop
  | .fn _ as => ∀ a ∈ as, Plain W a
  | .cls _ as => ∀ a ∈ as, Plain W a
  | .var _ a => ∀ n ∈ a.names, ∃ k c, n = .single k ∧ W.entry k = some (.cls c) ∧ W.builtin c = true

/-- A checked annotation is accepted iff Python can evaluate it. -/
theorem C144_annotation (W : World) (D : List Name) (hD : Base W D) (a : Ann) (ha : Plain W a) :
    checkAnn W D a ≠ .crash ∧ (checkAnn W D a = .accept ↔ ∀ n ∈ a.names, n ∈ D) := by
  obtain ⟨_, ho, hu, eo, eu⟩ := id hD
  have leaf : ∀ {a : Ann}, Leaf W a → (∀ n, a ≠ .text n) →
      checkAnn W D a ≠ .crash ∧ (checkAnn W D a = .accept ↔ ∀ n ∈ a.names, n ∈ D) := by
    intro a h ht
    obtain ⟨c, h1, h2, h3⟩ := h.target
    have hd := dep_ty h1 ht
    cases hb : W.builtin c
    · have : (dep W a).bind identsList = some (a.names ++ []) := by
        rw [hd]
        simp only [hb, Bool.not_false, Bool.and_self, if_true, Option.bind_some, identsList_one, h2,
          Option.map_some]
      obtain ⟨e1, e2⟩ := checkAnn_some (D := D) this
      exact ⟨e1, by rw [e2]; simp⟩
    · have : (dep W a).bind identsList = some [] := by
        rw [hd]; simp [hb, identsList]
      obtain ⟨e1, e2⟩ := checkAnn_some (D := D) this
      exact ⟨e1, by rw [e2]; simpa using h3 D hD hb⟩
  have text : ∀ n, checkAnn W D (.text n) ≠ .crash ∧
      (checkAnn W D (.text n) = .accept ↔ ∀ k ∈ (Ann.text n).names, k ∈ D) := by
    intro n
    have : (dep W (.text n)).bind identsList = some [] := by simp [dep, identsList]
    obtain ⟨e1, e2⟩ := checkAnn_some (D := D) this
    exact ⟨e1, by rw [e2]; simp [Ann.names]⟩
  cases ha with
  | leaf h =>
    by_cases ht : ∃ n, a = .text n
    · obtain ⟨n, rfl⟩ := ht; exact text n
    · exact leaf h fun n e => ht ⟨n, e⟩
  | text n => exact text n
  | none =>
    have : (dep W .none).bind identsList = some [] := by simp [dep, identsList]
    obtain ⟨e1, e2⟩ := checkAnn_some (D := D) this
    exact ⟨e1, by rw [e2]; simp [Ann.names]⟩
  | optional h =>
    rename_i a
    obtain ⟨c, h1, h2, h3⟩ := h.target
    have ht : target W (.sub optionalN [a]) = .ty c false := by
      simp [target, targets, look, eo, h1, optionalTy]
    have hd := dep_ty ht (by simp)
    have hn : ∀ n, n ∈ (Ann.sub optionalN [a]).names ↔ n = .single optionalN ∨ n ∈ a.names := by
      intro n; simp [Ann.names, namesList]
    cases hb : W.builtin c
    · have : (dep W (.sub optionalN [a])).bind identsList = some ((a.names ++ []) ++ []) := by
        rw [hd]
        simp only [hb, Bool.not_false, Bool.and_self, if_true, Option.bind_some, identsList_one, idents,
          true_or, h2, Option.map_some]
      obtain ⟨e1, e2⟩ := checkAnn_some (D := D) this
      refine ⟨e1, ?_⟩
      rw [e2]
      simp only [List.append_nil, hn]
      exact ⟨fun h n hn => hn.elim (fun e => e ▸ ho) (h n), fun h n hn => h n (.inr hn)⟩
    · have : (dep W (.sub optionalN [a])).bind identsList = some [] := by
        rw [hd]; simp [hb, identsList]
      obtain ⟨e1, e2⟩ := checkAnn_some (D := D) this
      refine ⟨e1, ?_⟩
      rw [e2]
      simp only [hn]
      exact ⟨fun _ n hn => hn.elim (fun e => e ▸ ho) (h3 D hD hb n), fun _ n hn => by simp at hn⟩
  | union h ht hb =>
    rename_i as c
    have hd := dep_ty ht (by simp)
    have : (dep W (.sub unionN as)).bind identsList = some (namesList as ++ []) := by
      rw [hd]
      simp only [hb, Bool.not_false, Bool.and_self, if_true, Option.bind_some, identsList_one, idents,
        or_true, identsList_leaves h, Option.map_some]
    obtain ⟨e1, e2⟩ := checkAnn_some (D := D) this
    refine ⟨e1, ?_⟩
    rw [e2]
    simp only [List.append_nil, Ann.names, List.mem_cons]
    exact ⟨fun h n hn => hn.elim (fun e => e ▸ hu) (h n), fun h n hn => h n (.inr hn)⟩

theorem checkAnns_plain {W : World} {D : List Name} (hD : Base W D) : ∀ {as : List Ann},
    (∀ a ∈ as, Plain W a) →
      checkAnns W D as ≠ .crash ∧ (checkAnns W D as = .accept ↔ ∀ n ∈ namesList as, n ∈ D)
  | [], _ => by simp [checkAnns, namesList]
  | a :: as, h => by
    obtain ⟨h1, h2⟩ := C144_annotation W D hD a (h a (by simp))
    obtain ⟨h3, h4⟩ := checkAnns_plain hD (as := as) fun b hb => h b (by simp [hb])
    simp only [checkAnns, ne_eq, Outcome.and_crash, Outcome.and_accept, h1, h2, h3, h4, or_self,
      not_false_eq_true, namesList, List.mem_append, true_and]
    constructor
    · rintro ⟨ha, hb⟩ n (hn | hn)
      · exact ha n hn
      · exact hb n hn
    · intro h
      exact ⟨fun n hn => h n (.inl hn), fun n hn => h n (.inr hn)⟩

/-- Proved part: for modules with such annotations the checks are exact, and they never make nagini fail with an
exception. -/
theorem C144_partial (W : World) : ∀ (is : List Item) (D : List Name), Base W D →
    (∀ i ∈ is, PlainItem W i) →
      checkModule W D is ≠ .crash ∧ (checkModule W D is = .accept ↔ Runs D is)
  | [], _, _, _ => by simp [checkModule, Runs]
  | i :: is, D, hD, h => by
    obtain ⟨h3, h4⟩ := C144_partial W is (.single i.defines :: D) (hD.cons _)
      fun j hj => h j (by simp [hj])
    have key : checkItem W D i ≠ .crash ∧
        (checkItem W D i = .accept ↔ ∀ n ∈ namesList i.anns, n ∈ D) := by
      have hi := h i (by simp)
      cases i with
      | fn x as => exact checkAnns_plain hD hi
      | cls x as => exact checkAnns_plain hD hi
      | var x a =>
        refine ⟨by simp [checkItem], ?_⟩
        simp only [checkItem, true_iff]
        intro n hn
        simp only [Item.anns, namesList, List.append_nil] at hn
        obtain ⟨k, c, rfl, hk, hc⟩ := hi n hn
        exact hD.1 k c hk hc
    obtain ⟨h1, h2⟩ := key
    simp only [checkModule, ne_eq, Outcome.and_crash, Outcome.and_accept, h1, h2, h3, h4, or_self,
      not_false_eq_true, Runs, true_and]

/-- Exactly what is checked for `h[…]` where `h` is a class: nothing if `h` is built in (as `List`) or if a type
variable occurs, otherwise only `h`.  The arguments are never looked at. -/
theorem C144_generic_exact (W : World) (D : List Name) (h c : Nat) (args : List Ann)
    (hh : W.entry h = some (.cls c)) (hD : Base W D) (hc : Target.crash ∉ targets W args) :
    checkAnn W D (.sub h args) = .accept ↔
      W.builtin c = true ∨ (∃ t ∈ targets W args, t = .tvar ∨ ∃ d, t = .ty d true) ∨ .single h ∈ D := by
  have hv : (∃ t ∈ targets W args, t = .tvar ∨ ∃ d, t = .ty d true) ↔
      ∃ t ∈ targets W args, t.hasTvar = true := by
    refine exists_congr fun t => and_congr_right fun _ => ?_
    cases t <;> simp [Target.hasTvar]
  rw [hv]
  have ho : h ≠ optionalN := by rintro rfl; rw [hD.2.2.2.1] at hh; cases hh
  have hu : h ≠ unionN := by rintro rfl; rw [hD.2.2.2.2] at hh; cases hh
  have ht : target W (.sub h args) = .ty c ((targets W args).any Target.hasTvar) := by
    have : (targets W args).contains .crash = false := by simpa using hc
    simp only [target, look, hh, genericTy, this, Bool.false_eq_true, if_false]
  have hd := dep_ty ht (by simp)
  by_cases hb : W.builtin c = true ∨ (targets W args).any Target.hasTvar = true
  · have : (dep W (.sub h args)).bind identsList = some [] := by
      rw [hd]; rcases hb with hb | hb <;> simp [hb, identsList]
    obtain ⟨_, e2⟩ := checkAnn_some (D := D) this
    rw [e2]
    simp only [List.not_mem_nil, false_implies, implies_true, true_iff]
    rcases hb with hb | hb
    · exact .inl hb
    · exact .inr (.inl (by simpa using hb))
  · have hb1 : W.builtin c = false := by
      cases h : W.builtin c
      · rfl
      · exact absurd (.inl h) hb
    have hb2 : (targets W args).any Target.hasTvar = false := by
      cases h : (targets W args).any Target.hasTvar
      · rfl
      · exact absurd (.inr h) hb
    have : (dep W (.sub h args)).bind identsList = some [.single h] := by
      rw [hd]; simp [hb1, hb2, identsList, idents, ho, hu]
    obtain ⟨_, e2⟩ := checkAnn_some (D := D) this
    rw [e2]
    have hb2' : ¬ ∃ t ∈ targets W args, t.hasTvar = true := by simpa using hb2
    simp only [hb1, hb2', Bool.false_eq_true, false_or, List.mem_singleton, forall_eq]

/-- `h[C, …]` with classes `C` as arguments: the name `h` is checked unless it is built in. -/
theorem C144_generic_classes (W : World) (D : List Name) (h c : Nat) (args : List Ann)
    (hh : W.entry h = some (.cls c)) (hD : Base W D) (ha : ∀ a ∈ args, Leaf W a) :
    checkAnn W D (.sub h args) = .accept ↔ W.builtin c = true ∨ .single h ∈ D := by
  have key : ∀ {as : List Ann}, (∀ a ∈ as, Leaf W a) → ∀ t ∈ targets W as, ∃ d, t = .ty d false := by
    intro as
    induction as with
    | nil => intro _ t ht; simp [targets] at ht
    | cons a as ih =>
      intro h t ht
      simp only [targets, List.mem_cons] at ht
      rcases ht with rfl | ht
      · obtain ⟨d, hd, _⟩ := (h a (by simp)).target
        exact ⟨d, hd⟩
      · exact ih (fun b hb => h b (by simp [hb])) t ht
  rw [C144_generic_exact W D h c args hh hD fun hc => by
    obtain ⟨d, hd⟩ := key ha _ hc
    cases hd]
  have : ¬ ∃ t ∈ targets W args, t = .tvar ∨ ∃ d, t = .ty d true := by
    rintro ⟨t, ht, h⟩
    obtain ⟨d, rfl⟩ := key ha t ht
    rcases h with h | ⟨e, h⟩ <;> cases h
  simp only [this, false_or]

/-! ### Where the code violates the claim -/

/-- `object` (class 0), `list` (class 1, name 2), and the classes `A` (class 2, name 3) and `B` (class 3,
name 4) of the program. -/
def exW : World where
  entry n := if n = 2 then some (.cls 1) else if n = 3 then some (.cls 2) else if n = 4 then some (.cls 3)
    else none
  member _ _ := none
  builtin c := c ≤ 1
  supers c := if c = 0 then [0] else [c, 0]

/-- The names that are defined in the beginning. -/
def exD : List Name := [.single 0, .single 1, .single 2]

theorem exW_ok : exW.Ok := by
  intro c
  by_cases h : c = 0
  · exact ⟨[], by simp [exW, h]⟩
  · exact ⟨[0], by simp [exW, h]⟩

theorem exBase : Base exW exD := by
  refine ⟨?_, by decide, by decide, rfl, rfl⟩
  intro n c hn hc
  simp only [exW] at hn hc
  split at hn
  · rename_i h; subst h; decide
  · split at hn
    · cases hn; simp at hc
    · split at hn
      · cases hn; simp at hc
      · cases hn

/-- `def f(x: List[A])` before `class A`: Python raises a `NameError`, nagini accepts. -/
theorem C144_fails : ¬ C144_annotations := by
  intro h
  have := h exW exD [.fn 10 [.sub 2 [.name 3]], .cls 3 []] exW_ok exBase (by decide)
  have := this.1 (.single 3) (by simp [Item.anns, namesList, Ann.names])
  revert this
  decide

/-- `def f(x: Union[A, B])` before the classes, which only have `object` in common. -/
theorem C144_union_fails : ∃ is, checkModule exW exD is = .accept ∧ ¬ Runs exD is := by
  refine ⟨[.fn 10 [.sub unionN [.name 3, .name 4]], .cls 3 [], .cls 4 []], by decide, ?_⟩
  intro h
  have := h.1 (.single 3) (by simp [Item.anns, namesList, Ann.names])
  revert this
  decide

/-- `x: Optional[A] = None` in the module before `class A`. -/
theorem C144_variable_fails : ∃ is, checkModule exW exD is = .accept ∧ ¬ Runs exD is ∧
    ∀ i ∈ is, ∀ a ∈ i.anns, Plain exW a := by
  refine ⟨[.var 10 (.sub optionalN [.name 3]), .cls 3 []], by decide, ?_, ?_⟩
  · intro h
    have := h.1 (.single 3) (by simp [Item.anns, namesList, Ann.names])
    revert this
    decide
  · intro i hi a ha
    simp only [List.mem_cons, List.not_mem_nil, or_false] at hi
    rcases hi with rfl | rfl
    · simp only [Item.anns, List.mem_singleton] at ha
      subst ha
      exact .optional (.name (c := 2) rfl)
    · simp [Item.anns] at ha

/-- `class A`, then `def f(x: Union[A, None])`: nagini fails with an exception although Python runs the
module. -/
theorem C144_none_crashes : ∃ is, checkModule exW exD is = .crash ∧ Runs exD is := by
  refine ⟨[.cls 3 [], .fn 10 [.sub unionN [.name 3, .none]]], by decide, ?_⟩
  simp [Runs, Item.anns, Item.defines, namesList, Ann.names, exD, unionN]

/-! ### Examples -/

/-- `class A`, then `def f(x: Optional[A], y: 'B', z: List)`. -/
example : ∀ i ∈ [Item.cls 3 [], .fn 10 [.sub optionalN [.name 3], .text 4, .name 2]], PlainItem exW i := by
  intro i hi
  simp only [List.mem_cons, List.not_mem_nil, or_false] at hi
  rcases hi with rfl | rfl
  · intro a ha; simp at ha
  · intro a ha
    simp only [List.mem_cons, List.not_mem_nil, or_false] at ha
    rcases ha with rfl | rfl | rfl
    · exact .optional (.name (c := 2) rfl)
    · exact .text 4
    · exact .leaf (.name (c := 1) rfl)

/-- `A[B]` where `A` is a class of the program. -/
example : ∀ a ∈ [Ann.name 4], Leaf exW a := by
  intro a ha
  simp only [List.mem_singleton] at ha
  subst ha
  exact .name (c := 3) rfl

/-- It is accepted, but not without the class. -/
example : checkModule exW exD [.cls 3 [], .fn 10 [.sub optionalN [.name 3], .text 4, .name 2]] = .accept ∧
    checkModule exW exD [.fn 10 [.sub optionalN [.name 3], .text 4, .name 2], .cls 3 []] = .reject := by decide

end Nagini.Annots
