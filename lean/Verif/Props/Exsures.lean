import Verif.Lemmas.Exsures

/-!
C91: exceptional postconditions mean what the contract says, for the method and for its callers.
C92: overriding methods raise only what the overridden method allows.
-/
set_option linter.unusedVariables false
namespace Nagini.Exsures

open Classes

variable {S E : Type}

/-- **C91**: the translated method verifies if and only if every execution of its body from a state
that satisfies the precondition ends with an outcome that the contract allows; in particular a
method without `Exsures` raises nothing. -/
theorem C91_verified_iff (H : Hier) (cls : E → Nat) (m : Method S E)
    (exec : S → Option E → S → Prop) :
    verified H cls m exec ↔ ∀ s o s', m.pre s → exec s o s' → Allowed H cls m s o s' := by
  unfold verified
  constructor
  · intro h s o s' hp he
    have := h s o s' hp he
    cases hm : declares m with
    | true =>
      cases o with
      | none => exact (allPosts_declares m hm s none s').1 this
      | some e =>
        simp only [hm, if_true] at this
        exact (allPosts_declares m hm s (some e) s').1 this
    | false =>
      cases o with
      | none => exact (allPosts_pure m hm s none s').1 this
      | some e => simp [hm] at this
  · intro h s o s' hp he
    have := h s o s' hp he
    cases hm : declares m with
    | true =>
      cases o with
      | none => exact (allPosts_declares m hm s none s').2 this
      | some e =>
        simp only [if_true]
        exact (allPosts_declares m hm s (some e) s').2 this
    | false =>
      cases o with
      | none => exact (allPosts_pure m hm s none s').2 this
      | some e => exact absurd this (not_allowed_pure m hm s e s')

/-- **C91**: callers consider exactly the outcomes that the contract allows. -/
theorem C91_call_iff (H : Hier) (cls : E → Nat) (m : Method S E) (s : S) (o : Option E) (s' : S) :
    callOutcome H cls m s o s' ↔ Allowed H cls m s o s' := by
  unfold callOutcome
  cases hm : declares m with
  | true => rw [if_pos rfl, allPosts_declares m hm]
  | false =>
    rw [if_neg (by simp), allPosts_pure m hm]
    cases o with
    | none => simp
    | some e => simp [not_allowed_pure m hm s e s']

/-- **C91**: whatever a verified method does is considered by its callers. -/
theorem C91_modular (H : Hier) (cls : E → Nat) (m : Method S E) (exec : S → Option E → S → Prop)
    (hv : verified H cls m exec) (s : S) (o : Option E) (s' : S) (hp : m.pre s) (he : exec s o s') :
    callOutcome H cls m s o s' :=
  (C91_call_iff H cls m s o s').2 ((C91_verified_iff H cls m exec).1 hv s o s' hp he)

/-- **C92** (soundness): an accepted overriding method refines the overridden one. -/
theorem C92_sound (H : Hier) (cls : E → Nat) (recv : S → Nat) (c : Nat) (sub sup : Method S E)
    (h : overrideAccepted H cls recv c sub sup) :
    Refines H cls recv c sub sup ∧ DeclaresLess H sub sup := by
  refine ⟨fun s hr hp => ?_, (overrideValid_iff sub sup).1 h.1⟩
  obtain ⟨h1, h2⟩ := h.2 s hr hp
  refine ⟨h1, fun o s' ha => ?_⟩
  cases hs : declares sub with
  | true =>
    simp only [hs, if_true] at h2
    have hsup : declares sup = true := by
      rw [declares_iff] at hs ⊢
      obtain ⟨x, hx⟩ := List.exists_mem_of_ne_nil _ hs
      obtain ⟨y, hy, -⟩ := (overrideValid_iff sub sup).1 h.1 x hx
      exact List.ne_nil_of_mem hy
    exact (allPosts_declares sup hsup s o s').1
      (h2 o s' ((allPosts_declares sub hs s o s').2 ha))
  | false =>
    simp only [hs] at h2
    cases o with
    | some e => exact absurd ha (not_allowed_pure sub hs s e s')
    | none =>
      have h3 := h2 s' ((allPosts_pure sub hs s none s').2 ha) none
      cases hsup : declares sup with
      | true => exact (allPosts_declares sup hsup s none s').1 h3
      | false => exact (allPosts_pure sup hsup s none s').1 h3

/-- **C92** (full claim): an overriding method is accepted if and only if it refines the overridden
one and declares only subclasses of the exceptions declared there. -/
def C92 : Prop :=
  ∀ (S E : Type) (H : Hier) (cls : E → Nat) (recv : S → Nat) (c : Nat) (sub sup : Method S E),
    overrideAccepted H cls recv c sub sup ↔
      Refines H cls recv c sub sup ∧ DeclaresLess H sub sup

/-- **C92, where it fails**: an overriding method without `Exsures` that can be called at all is
rejected if the overridden method has an `Exsures` (unless every object is an instance of a declared
exception): the check method does not assign its error result. -/
theorem C92_no_exceptions_rejected (H : Hier) (cls : E → Nat) (recv : S → Nat) (c : Nat)
    (sub sup : Method S E) (hsub : sub.exsures = []) (hsup : sup.exsures ≠ [])
    (e : E) (he : ∀ x ∈ sup.exsures, ¬ Anc H (cls e) x.1)
    (s s' : S) (hr : Anc H (recv s) c) (hp : sup.pre s) (ha : Allowed H cls sub s none s') :
    ¬ overrideAccepted H cls recv c sub sup := by
  intro h
  have hs : declares sub = false := by
    rw [← Bool.not_eq_true, declares_iff]; simp [hsub]
  have h2 := (h.2 s hr hp).2
  simp only [hs] at h2
  have h3 := h2 s' ((allPosts_pure sub hs s none s').2 ha) (some e)
  obtain ⟨⟨x, hx, hxe⟩, -⟩ := (allPosts_declares sup ((declares_iff sup).2 hsup) s (some e) s').1 h3
  exact he x hx hxe

/-- **C92** (partial: the overriding method declares exceptions or the overridden one does not):
acceptance is refinement. -/
theorem C92_iff_partial (H : Hier) (cls : E → Nat) (recv : S → Nat) (c : Nat) (sub sup : Method S E)
    (hg : sub.exsures ≠ [] ∨ sup.exsures = []) :
    overrideAccepted H cls recv c sub sup ↔
      Refines H cls recv c sub sup ∧ DeclaresLess H sub sup := by
  refine ⟨C92_sound H cls recv c sub sup, fun ⟨h, hd⟩ => ⟨(overrideValid_iff sub sup).2 hd, ?_⟩⟩
  intro s hr hp
  obtain ⟨h1, h2⟩ := h s hr hp
  refine ⟨h1, ?_⟩
  cases hs : declares sub with
  | true =>
    rw [if_pos rfl]
    have hsup : declares sup = true := by
      rw [declares_iff] at hs ⊢
      obtain ⟨x, hx⟩ := List.exists_mem_of_ne_nil _ hs
      obtain ⟨y, hy, -⟩ := hd x hx
      exact List.ne_nil_of_mem hy
    intro err s' ha
    exact (allPosts_declares sup hsup s err s').2 (h2 err s' ((allPosts_declares sub hs s err s').1 ha))
  | false =>
    rw [if_neg (by simp)]
    have hsup : declares sup = false := by
      rw [← Bool.not_eq_true, declares_iff] at hs ⊢
      rcases hg with hg | hg
      · exact absurd hg hs
      · simp [hg]
    intro s' ha err
    exact (allPosts_pure sup hsup s err s').2 (h2 none s' ((allPosts_pure sub hs s none s').1 ha))

/-- Classes for the examples: 0 `object`, 1 `Exception`, 2 `MyException`, 3 `MySpecialException`,
4 `Super`, 5 `Sub`. -/
def exHier : Hier where
  sup := fun c => if c = 0 then none else if c = 3 then some 2 else if c = 5 then some 4 else
    if c = 2 then some 1 else some 0
  depth := fun c => if c = 0 then 0 else if c = 3 then 3 else if c = 5 ∨ c = 2 then 2 else 1
  depth_lt := by
    intro c p h
    by_cases h0 : c = 0
    · simp [h0] at h
    · by_cases h3 : c = 3
      · simp [h3] at h; subst h; simp [h3]
      · by_cases h5 : c = 5
        · simp [h5] at h; subst h; simp [h5]
        · by_cases h2 : c = 2
          · simp [h2] at h; subst h; simp [h2]
          · simp [h0, h3, h5, h2] at h; subst h; simp [h0, h3, h5, h2]

/-- `some_function` of `Super`: the result is above 17, or a `MyException` whose payload is positive
is raised.  States are the results; exceptions are a class and a payload. -/
def exSup : Method Int (Nat × Int) :=
  ⟨fun _ => True, [fun _ s' => 17 < s'], [(2, fun _ o _ => ∀ e, o = some e → 0 < e.2)], fun _ => True⟩

/-- An overriding method that raises only `MySpecialException`. -/
def exSub : Method Int (Nat × Int) :=
  ⟨fun _ => True, [fun _ s' => 18 < s'],
    [(3, fun _ o _ => ∀ e, o = some e → 1 < e.2), (3, fun _ o _ => ∀ e, o = some e → e.2 < 9)],
    fun _ => True⟩

/-- An overriding method that raises nothing. -/
def exQuiet : Method Int (Nat × Int) := ⟨fun _ => True, [fun _ s' => s' = 19], [], fun _ => True⟩

theorem anc32 : Anc exHier 3 2 := .step (p := 2) (by simp [exHier]) (.refl 2)

/-- A concrete class with a superclass chain is only below the members of the chain. -/
theorem anc0 (d : Nat) (h : Anc exHier 0 d) : d = 0 := by
  cases h with
  | refl => rfl
  | step hs _ => simp [exHier] at hs

/-- **C92**: the full claim fails. -/
theorem C92_fails : ¬ C92 := by
  intro h
  have hacc := (h Int (Nat × Int) exHier (fun e => e.1) (fun _ => 5) 5 exQuiet exSup).2
    ⟨fun s _ _ => ⟨trivial, fun o s' ha => by
      cases o with
      | some e => exact absurd ha (not_allowed_pure exQuiet rfl s e s')
      | none =>
        refine ⟨trivial, ?_⟩
        have := ha.2 _ (List.mem_singleton.2 rfl)
        intro p hp
        rw [List.mem_singleton.1 hp]
        show (17 : Int) < s'
        have : s' = 19 := this
        omega⟩, fun x hx => by cases hx⟩
  refine C92_no_exceptions_rejected exHier (fun e => e.1) (fun _ => 5) 5 exQuiet exSup rfl
    (by simp [exSup]) (0, 0) ?_ 0 19 (.refl 5) trivial ⟨trivial, ?_⟩ hacc
  · intro x hx ha
    have hx : x.1 = 2 := by simp [exSup] at hx; rw [hx]
    have := anc0 _ ha
    omega
  · intro p hp
    rw [List.mem_singleton.1 hp]

/-- The special exception with payload 5 is allowed by both, one with payload 0 by neither, and an
`Exception` by neither. -/
example : Allowed exHier (fun e => e.1) exSub 0 (some (3, 5)) 0 ∧
    ¬ Allowed exHier (fun e => e.1) exSub 0 (some (3, 0)) 0 ∧
    ¬ Allowed exHier (fun e => e.1) exSub 0 (some (0, 5)) 0 := by
  refine ⟨⟨⟨_, List.mem_cons_self, .refl 3⟩, ?_⟩, ?_, ?_⟩
  · intro x hx _
    simp only [exSub, List.mem_cons, List.not_mem_nil, or_false] at hx
    rcases hx with rfl | rfl <;> intro e he <;> cases he <;> decide
  · rintro ⟨-, h⟩
    have := h _ List.mem_cons_self (.refl 3) _ rfl
    exact absurd this (by decide)
  · rintro ⟨⟨x, hx, ha⟩, -⟩
    have := anc0 _ ha
    simp only [exSub, List.mem_cons, List.not_mem_nil, or_false] at hx
    rcases hx with rfl | rfl <;> cases this

/-- The override is accepted: the partial theorem applies. -/
example : overrideAccepted exHier (fun e => e.1) (fun _ => 5) 5 exSub exSup := by
  refine (C92_iff_partial exHier (fun e => e.1) (fun _ => 5) 5 exSub exSup
    (.inl (by simp [exSub]))).2 ⟨?_, ?_⟩
  · intro s _ _
    refine ⟨trivial, fun o s' ha => ?_⟩
    cases o with
    | none =>
      refine ⟨trivial, fun p hp => ?_⟩
      have := ha.2 _ (List.mem_singleton.2 rfl)
      rw [List.mem_singleton.1 hp]
      show (17 : Int) < s'
      have : (18 : Int) < s' := this
      omega
    | some e =>
      obtain ⟨⟨x, hx, hxa⟩, hall⟩ := ha
      have hx3 : x.1 = 3 := by
        simp only [exSub, List.mem_cons, List.not_mem_nil, or_false] at hx
        rcases hx with rfl | rfl <;> rfl
      rw [hx3] at hxa
      refine ⟨⟨_, List.mem_singleton.2 rfl, hxa.trans anc32⟩, fun y hy _ => ?_⟩
      rw [List.mem_singleton.1 hy]
      intro e' he'
      cases he'
      have := hall _ List.mem_cons_self hxa e rfl
      have : (1 : Int) < e.2 := this
      show (0 : Int) < e.2
      omega
  · intro x hx
    have hx3 : x.1 = 3 := by
      simp only [exSub, List.mem_cons, List.not_mem_nil, or_false] at hx
      rcases hx with rfl | rfl <;> rfl
    exact ⟨_, List.mem_singleton.2 rfl, hx3 ▸ anc32⟩

/-- A body that returns 20 or raises `MySpecialException` with payload 3 verifies. -/
example : verified exHier (fun e => e.1) exSub
    (fun _ o s' => (o = none ∧ s' = 20) ∨ o = some (3, 3)) := by
  refine (C91_verified_iff _ _ _ _).2 ?_
  rintro s o s' - (⟨rfl, rfl⟩ | rfl)
  · exact ⟨trivial, fun p hp => by rw [List.mem_singleton.1 hp]; show (18 : Int) < 20; decide⟩
  · refine ⟨⟨_, List.mem_cons_self, .refl 3⟩, fun x hx _ => ?_⟩
    simp only [exSub, List.mem_cons, List.not_mem_nil, or_false] at hx
    rcases hx with rfl | rfl <;> intro e he <;> cases he <;> decide

end Nagini.Exsures
