import Verif.Lemmas.Classes

/-!
C07, C26, C27: union dispatch, common superclass and member lookup.
-/
namespace Nagini.Classes

variable (H : Hier)

/-- A concrete hierarchy for the examples: 0 object, 1 A, 2 B(A), 3 C(B), 4 D(A). -/
def exHier : Hier where
  sup c := if c = 1 then some 0 else if c = 2 then some 1 else if c = 3 then some 2
    else if c = 4 then some 1 else none
  depth c := if c = 0 then 0 else if c = 1 then 1 else if c = 2 then 2 else if c = 3 then 3
    else if c = 4 then 2 else 0
  depth_lt c p := by
    intro h
    split at h
    · cases h; subst_vars; decide
    · split at h
      · cases h; subst_vars; decide
      · split at h
        · cases h; subst_vars; decide
        · split at h
          · cases h; subst_vars; decide
          · cases h

/-! ### C07 -/

/-- **C07.** For every hierarchy, every set `S` of union members, every iteration
order of the sets used on the way and every receiver class `d` that is an instance
of some member: sorting succeeds (with every member exactly once), and both the
if-chain and the conditional chain select one member `m`, which `d` is an instance
of and which is a subclass of every other member `d` is an instance of. -/
theorem C07_dispatch_most_specific (order : List Nat → List Nat) (ho : ∀ l, (order l).Perm l)
    (S : List Nat) (d : Nat) (hd : ∃ m ∈ S, Anc H d m) :
    ∃ out m, toposortClasses H order S = some out ∧ out.Perm S ∧
      chainIf H d out = some m ∧ chainCond H d out = some m ∧
      m ∈ S ∧ Anc H d m ∧ ∀ m' ∈ S, Anc H d m' → Anc H m m' := by
  obtain ⟨out, h1, h2, h3⟩ := toposort_spec (H := H) order ho S.length S (Nat.le_refl _)
  have hd' : ∃ m ∈ out, Anc H d m := by
    obtain ⟨m, hm, h⟩ := hd
    exact ⟨m, h2.mem_iff.2 hm, h⟩
  cases hc : chainIf H d out with
  | none =>
    obtain ⟨m, hm, h⟩ := hd'
    exact absurd h ((chainIf_none d out).1 hc m hm)
  | some m =>
    obtain ⟨pre, post, ho', hdm, hpre⟩ := chainIf_first d out m hc
    refine ⟨out, m, h1, h2, hc, ?_, ?_, hdm, ?_⟩
    · rw [chainCond_eq d out hd', hc]
    · exact h2.mem_iff.1 (by simp [ho'])
    · intro m' hm' hdm'
      have hm'o : m' ∈ out := h2.mem_iff.2 hm'
      rcases hdm.linear hdm' with h | h
      · exact h
      · by_cases hne : m' = m
        · subst hne; exact .refl _
        · rw [ho', List.mem_append, List.mem_cons] at hm'o
          rcases hm'o with hp | rfl | hp
          · exact absurd hdm' (hpre m' hp)
          · exact absurd rfl hne
          · rw [ho', List.pairwise_append] at h3
            exact absurd ⟨h, hne⟩ (List.rel_of_pairwise_cons h3.2.1 hp)

/-- If the receiver is an instance of no member, the if-chain runs no alternative. -/
theorem C07_no_instance_no_call (out : List Nat) (d : Nat) (h : ∀ m ∈ out, ¬ Anc H d m) :
    chainIf H d out = none := (chainIf_none d out).2 h

/-- Non-vacuity: receiver of class C, union of object, D, B (in this order). -/
example : ∃ m ∈ [0, 4, 2], Anc exHier 3 m := ⟨0, by simp, .step rfl (.step rfl (.step rfl (.refl 0)))⟩

/-! ### C26 -/

/-- **C26.** With a common root (`object`), two classes always have a common
superclass, and the result is the least one. -/
theorem C26_least_common_superclass (r a b : Nat) (ha : Anc H a r) (hb : Anc H b r) :
    ∃ m, commonSuper H a b = some m ∧ IsLCA H a b m := by
  obtain ⟨m, hm⟩ := commonSuper_some a b r ha hb
  exact ⟨m, hm, commonSuper_lca a b m hm⟩

/-- The class used for member lookup on a union is the least class above all
members. -/
theorem C26_union_class (r first : Nat) (rest : List Nat) (hr : ∀ c ∈ first :: rest, Anc H c r) :
    ∃ m, unionCls H first rest = some m ∧ (∀ c ∈ first :: rest, Anc H c m) ∧
      ∀ m', (∀ c ∈ first :: rest, Anc H c m') → Anc H m m' := by
  induction rest generalizing first with
  | nil => exact ⟨first, rfl, by simp [Anc.refl], fun m' h => h first (by simp)⟩
  | cons c rest ih =>
    obtain ⟨m, hm, hl⟩ := C26_least_common_superclass H r first c (hr _ (by simp)) (hr _ (by simp))
    have hmr : Anc H m r := hl.2.2 r (hr _ (by simp)) (hr _ (by simp))
    obtain ⟨u, hu, hall, hleast⟩ := ih m (by
      intro x hx
      rcases List.mem_cons.1 hx with rfl | hx
      · exact hmr
      · exact hr x (by simp [hx]))
    refine ⟨u, by simp [unionCls, hm, hu], ?_, ?_⟩
    · intro x hx
      have hmu := hall m (by simp)
      rcases List.mem_cons.1 hx with rfl | hx
      · exact hl.1.trans hmu
      · rcases List.mem_cons.1 hx with rfl | hx
        · exact hl.2.1.trans hmu
        · exact hall x (by simp [hx])
    · intro m' hm'
      apply hleast
      intro x hx
      rcases List.mem_cons.1 hx with rfl | hx
      · exact hl.2.2 m' (hm' _ (by simp)) (hm' _ (by simp))
      · exact hm' x (by simp [hx])

/-- Non-vacuity: C and D have the common root object (and the least one is A). -/
example : Anc exHier 3 0 ∧ Anc exHier 4 0 ∧ IsLCA exHier 3 4 1 := by
  refine ⟨.step rfl (.step rfl (.step rfl (.refl 0))), .step rfl (.step rfl (.refl 0)), ?_⟩
  refine ⟨.step rfl (.step rfl (.refl 1)), .step rfl (.refl 1), ?_⟩
  intro m h3 h4
  cases h4 with
  | refl =>
    have := h3.depth_le
    cases h3 with
    | step h h3 => cases h; cases h3 with
      | step h h3 => cases h; cases h3 with
        | step h h3 => cases h; cases h3 with
          | step h _ => cases h
  | step h h4 => cases h; exact h4

/-- Subtyping as computed by nagini is nominal subtyping. -/
theorem C26_issubtype_nominal (c d : Nat) : issubtype H c d = true ↔ Anc H c d := issubtype_iff c d

/-! ### C27 -/

/-- **C27** for fields, static fields, functions and predicates: lookup returns the
definition of the nearest class that has one, and none iff no class has one. -/
theorem C27_lookup_nearest {α : Type} (defs : Nat → Option α) (c : Nat) :
    (∀ x, lookup H defs c = some x ↔ Nearest H defs c x) ∧
    (lookup H defs c = none ↔ ∀ d, Anc H c d → defs d = none) :=
  ⟨lookup_iff defs c, lookup_none defs c⟩

/-- The nearest definition is unique, so the specification determines the result. -/
theorem C27_nearest_unique {α : Type} (defs : Nat → Option α) (c : Nat) (x y : α)
    (hx : Nearest H defs c x) (hy : Nearest H defs c y) : x = y := hx.unique hy

/-- `has_function` is true iff lookup finds a function. -/
theorem C27_has_function {α : Type} (defs : Nat → Option α) (c : Nat) :
    hasFunction H defs c = true ↔ ∃ x, Nearest H defs c x := by
  rw [hasFunction_iff, Option.isSome_iff_exists]
  exact exists_congr (fun x => lookup_iff defs c x)

/-- **C27, full claim for lookups that accept functions and methods.** -/
def FuncOrMethodNearest : Prop :=
  ∀ (H : Hier) (funcs methods : Nat → Option Nat) (c : Nat),
    (∀ k, funcs k = none ∨ methods k = none) →
    ∀ x, getFuncOrMethod H funcs methods c = some x ↔ Nearest H (fun k => (funcs k).or (methods k)) c x

/-- It is violated: if the superclass defines a (pure) function and the subclass
overrides it by a method, calls on the subclass resolve to the function of the
superclass. -/
theorem C27_func_or_method_fails : ¬ FuncOrMethodNearest := by
  intro h
  have h1 := (h exHier (fun k => if k = 1 then some 10 else none)
    (fun k => if k = 2 then some 20 else none) 2 (by intro k; by_cases hk : k = 1 <;> simp [hk]) 10).1 (by
      have : lookup exHier (fun k => if k = 1 then some 10 else none) 2 = some 10 := by
        rw [lookup_iff]
        refine ⟨1, .step rfl (.refl 1), rfl, ?_⟩
        intro e h1 h2 hne
        simp [hne]
      simp [getFuncOrMethod, this])
  obtain ⟨d, hd, hx, hn⟩ := h1
  have hd2 : d = 2 ∨ d ≠ 2 := by omega
  rcases hd2 with rfl | hd2
  · simp at hx
  · have := hn 2 (.refl 2) hd (by omega)
    simp at this

/-- **C27, proved part for function-or-method lookup**: it returns the nearest
definition if no class on the chain below the nearest function defines a method of
that name (i.e. overrides keep the kind).  Missing: overrides that change the kind,
for which the claim is false. -/
theorem C27_func_or_method_partial {α : Type} (funcs methods : Nat → Option α) (c : Nat)
    (hk : (∀ d, Anc H c d → methods d = none) ∨ (∀ d, Anc H c d → funcs d = none)) (x : α) :
    getFuncOrMethod H funcs methods c = some x ↔ Nearest H (fun k => (funcs k).or (methods k)) c x := by
  have congr : ∀ (f g : Nat → Option α), (∀ d, Anc H c d → f d = g d) →
      (Nearest H f c x ↔ Nearest H g c x) := by
    intro f g hfg
    constructor
    · rintro ⟨d, h1, h2, h3⟩
      exact ⟨d, h1, by rw [← hfg d h1]; exact h2, fun e he1 he2 hne => by rw [← hfg e he1]; exact h3 e he1 he2 hne⟩
    · rintro ⟨d, h1, h2, h3⟩
      exact ⟨d, h1, by rw [hfg d h1]; exact h2, fun e he1 he2 hne => by rw [hfg e he1]; exact h3 e he1 he2 hne⟩
  rcases hk with hk | hk
  · rw [← congr funcs _ (fun d hd => by simp [hk d hd]), ← lookup_iff]
    have hm := (lookup_none (H := H) methods c).2 hk
    unfold getFuncOrMethod
    cases lookup H funcs c <;> simp [hm]
  · rw [← congr methods _ (fun d hd => by simp [hk d hd]), ← lookup_iff]
    have hm := (lookup_none (H := H) funcs c).2 hk
    simp [getFuncOrMethod, hm]

/-- **C27** for methods: instance and static methods together, nearest class
first; within one class the instance method. -/
theorem C27_method_nearest {α : Type} (methods statics : Nat → Option α) (c : Nat) (x : α) :
    getMethod H methods statics c = some x ↔ Nearest H (fun k => (methods k).or (statics k)) c x :=
  lookup_iff _ c x

/-- Non-vacuity: B inherits and C overrides a member of A. -/
example : Nearest exHier (fun k => if k = 1 then some 10 else if k = 3 then some 30 else none) 2 10 ∧
    Nearest exHier (fun k => if k = 1 then some 10 else if k = 3 then some 30 else none) 3 30 := by
  refine ⟨⟨1, .step rfl (.refl 1), rfl, ?_⟩, ⟨3, .refl 3, rfl, ?_⟩⟩
  · intro e h1 h2 hne
    have := h1.depth_le
    have : e ≠ 3 := by rintro rfl; simp [exHier] at this
    simp [hne, this]
  · intro e h1 h2 hne
    exact absurd (h2.antisymm h1) hne

end Nagini.Classes
