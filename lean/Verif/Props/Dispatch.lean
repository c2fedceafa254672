import Verif.Lemmas.Dispatch

/-! C75: a program all of whose checks verify never fails at run time, whichever classes its objects
have. -/
set_option linter.unusedVariables false
namespace Nagini.Dispatch

open Classes

/-- **C75**, full claim: if all generated checks verify, and the main code verifies, then execution of
the main code never fails, and every call that satisfies the contract known for the static class of the
receiver behaves according to that contract. -/
def C75 : Prop :=
  ∀ (Hp V Obj : Type) (H : Hier) (dyn : Obj → Nat) (alloc : Hp → Obj → Hp → Prop)
    (own : Nat → Name → Option (Meth Hp V Obj)) (cm : Nat → Bool) (p : Prog Hp V Obj) (K : Nat),
    checked H dyn alloc own cm →
    (∀ c n m o a, own c n = some m → m.interface = false → clsCalls cm (m.body o a)) →
    clsCalls cm p → (∀ h, VC H dyn alloc own [] K p h fun _ _ => True) →
    MainSound H dyn alloc own K p ∧ CallsSound H dyn alloc own

/-- C75 for programs without the constructs that are not checked (`Guard`): verified code does not
fail. -/
theorem C75_verified_code_never_fails_partial {Hp V Obj : Type} {H : Hier} {dyn : Obj → Nat}
    {alloc : Hp → Obj → Hp → Prop} {own : Nat → Name → Option (Meth Hp V Obj)} {cm : Nat → Bool}
    {p : Prog Hp V Obj} {K : Nat} (hc : checked H dyn alloc own cm) (g : Guard H dyn alloc own cm)
    (hcls : ∀ c n m o a, own c n = some m → m.interface = false → clsCalls cm (m.body o a))
    (hp : clsCalls cm p) (hs : SuperOk K p) (hv : ∀ h, VC H dyn alloc own [] K p h fun _ _ => True) :
    MainSound H dyn alloc own K p :=
  fun h hrun => run_good hc g hcls hrun ⟨hs, hp, _, hv h⟩

/-- C75 for programs without the constructs that are not checked: whatever method is executed by a
dynamically bound call, it behaves according to the contract known for the static class. -/
theorem C75_calls_satisfy_static_contract_partial {Hp V Obj : Type} {H : Hier} {dyn : Obj → Nat}
    {alloc : Hp → Obj → Hp → Prop} {own : Nat → Name → Option (Meth Hp V Obj)} {cm : Nat → Bool}
    (hc : checked H dyn alloc own cm) (g : Guard H dyn alloc own cm)
    (hcls : ∀ c n m o a, own c n = some m → m.interface = false → clsCalls cm (m.body o a)) :
    CallsSound H dyn alloc own := by
  intro n hn o C K L known run a h R hoC hk hr hpre hrun
  have := run_good hc g hcls hrun
    (inv_ok hc g hcls (fun h => absurd h hn) hoC hk hr hpre fun v h' hv => hv)
  cases R with
  | fail => exact this.elim
  | ok v h' => exact ⟨v, h', rfl, this⟩

/-- Execution of verified code establishes the postcondition with which it verifies. -/
theorem C75_postcondition_partial {Hp V Obj : Type} {H : Hier} {dyn : Obj → Nat}
    {alloc : Hp → Obj → Hp → Prop} {own : Nat → Name → Option (Meth Hp V Obj)} {cm : Nat → Bool}
    {p : Prog Hp V Obj} {K : Nat} (hc : checked H dyn alloc own cm) (g : Guard H dyn alloc own cm)
    (hcls : ∀ c n m o a, own c n = some m → m.interface = false → clsCalls cm (m.body o a))
    (hp : clsCalls cm p) (hs : SuperOk K p) {h : Hp} {Q : V → Hp → Prop}
    (hv : VC H dyn alloc own [] K p h Q) {v : V} {h' : Hp}
    (hrun : Run H dyn alloc own (.prog K p) h (.ok v h')) : Q v h' :=
  run_good hc g hcls hrun ⟨hs, hp, _, hv⟩

/-! ### Witnesses

Objects are numbers, the object `o` has the class `o`; the classes are `2 < 1 < 0`. -/

/-- `class A`, `class B(A)`, `class C(B)`. -/
def chain3 : Hier where
  sup c := match c with | 2 => some 1 | 1 => some 0 | _ => none
  depth c := c
  depth_lt c p h := by
    match c, h with
    | 2, h => cases h; omega
    | 1, h => cases h; omega

/-- A member that requires nothing, ensures `q` of the receiver and the result, and is implemented by
`b`. -/
def member (q : Nat → Nat → Prop) (b : Nat → Prog Unit Nat Nat) : Meth Unit Nat Nat :=
  ⟨fun _ _ _ => True, fun o _ _ v _ => q o v, fun o _ => b o, false⟩

/-- Every object may be created at any time. -/
def anyAlloc : Unit → Nat → Unit → Prop := fun _ _ _ => True

theorem anc_10 : Anc chain3 1 0 := .step rfl (.refl 0)
theorem anc_20 : Anc chain3 2 0 := .step rfl anc_10

theorem anc_0 {d : Nat} (h : Anc chain3 0 d) : d = 0 := by
  cases h with
  | refl => rfl
  | step hs _ => cases hs

theorem anc_1 {d : Nat} (h : Anc chain3 1 d) : d = 1 ∨ d = 0 := by
  cases h with
  | refl => exact .inl rfl
  | step hs h => cases hs; exact .inr (anc_0 h)

theorem anc_2 {d : Nat} (h : Anc chain3 2 d) : d = 2 ∨ d = 1 ∨ d = 0 := by
  cases h with
  | refl => exact .inl rfl
  | step hs h => cases hs; exact .inr (anc_1 h)

/-- `class A: def __init__(self): Ensures(type(self) == A)`, or a setter with this postcondition. -/
def ownExact (n : Name) (c : Nat) (k : Name) : Option (Meth Unit Nat Nat) :=
  if c = 0 ∧ k = n then some (member (fun o _ => o = 0) fun _ => .ret 0) else none

theorem ownExact_some {n k : Name} {c : Nat} {m : Meth Unit Nat Nat} (h : ownExact n c k = some m) :
    c = 0 ∧ k = n ∧ m = member (fun o _ => o = 0) fun _ => .ret 0 := by
  unfold ownExact at h
  split at h
  · rename_i hc
    cases h
    exact ⟨hc.1, hc.2, rfl⟩
  · cases h

theorem ownExact_finds (n : Name) : Finds chain3 (ownExact n) 1 n 0 (member (fun o _ => o = 0) fun _ => .ret 0) := by
  refine resolve_iff.mp ?_
  have h0 : ownExact n 0 n = some (member (fun o _ => o = 0) fun _ => .ret 0) := by simp [ownExact]
  have h1 : ownExact n 1 n = none := by simp [ownExact]
  refine resolve_iff.mpr ⟨0, anc_10, by simp [owned, h0], fun e h1e he0 hne => ?_⟩
  rcases anc_1 h1e with rfl | rfl
  · simp [owned, h1]
  · exact absurd rfl hne

theorem ownExact_checked {n : Name} (hn : ∀ k, n ≠ .meth k) :
    checked chain3 id anyAlloc (ownExact n) fun _ => false := by
  intro d
  refine ⟨fun k m hm hi => ?_, fun k c m hr hcd hi => ?_⟩
  · obtain ⟨rfl, rfl, rfl⟩ := ownExact_some hm
    refine ⟨fun o a h ho _ => .ret ho, ?_⟩
    cases k with
    | meth k => exact absurd rfl (hn k)
    | init => intro m' p hs; cases hs
    | setter k => rfl
  · obtain ⟨-, h, -⟩ := ownExact_some (resolve_iff.mp hr).owns.2
    exact absurd h.symm (hn k)

theorem ownExact_cls {n : Name} : ∀ c k m o a, ownExact n c k = some m → m.interface = false →
    clsCalls (fun _ => false) (m.body o a) := by
  intro c k m o a hm _
  obtain ⟨-, -, rfl⟩ := ownExact_some hm
  exact trivial

/-- The real behaviour, 1: a constructor that a class inherits is not verified for the class.
`class A: def __init__(self): Ensures(type(self) == A)` and `class B(A): pass` verify, and so does
`b = B(); assert type(b) == A`. -/
theorem C75_inherited_constructor_fails :
    ∃ p : Prog Unit Nat Nat, checked chain3 id anyAlloc (ownExact .init) (fun _ => false) ∧
      clsCalls (fun _ => false) p ∧
      (∀ h, VC chain3 id anyAlloc (ownExact .init) [] 0 p h fun _ _ => True) ∧
      Run chain3 id anyAlloc (ownExact .init) (.prog 0 p) () .fail := by
  refine ⟨.new 1 0 fun o => .asrt (fun _ => o = 0) (.ret 0), ownExact_checked (by simp), fun _ => trivial,
    fun h => ?_, ?_⟩
  · exact .new (resolve_iff.mpr (ownExact_finds .init)) (fun _ _ _ _ => trivial)
      fun o _ v h' _ _ hp => .asrt hp (.ret trivial)
  · exact .new (o := 1) (h₁ := ()) rfl trivial (ownExact_finds .init) (.inv rfl .ret) (.asrt_fail (by simp))

/-- The real behaviour, 2: neither is the setter of a property. -/
theorem C75_inherited_setter_fails :
    ∃ p : Prog Unit Nat Nat, checked chain3 id anyAlloc (ownExact (.setter 0)) (fun _ => false) ∧
      clsCalls (fun _ => false) p ∧
      (∀ h, VC chain3 id anyAlloc (ownExact (.setter 0)) [] 0 p h fun _ _ => True) ∧
      Run chain3 id anyAlloc (ownExact (.setter 0)) (.prog 0 p) () .fail := by
  refine ⟨.call 1 1 (.setter 0) 0 fun _ => .asrt (fun _ => False) (.ret 0), ownExact_checked (by simp),
    ⟨by simp, fun _ => trivial⟩, fun h => ?_, ?_⟩
  · exact .call (resolve_iff.mpr (ownExact_finds _)) (fun _ => trivial)
      fun v h' _ hp => absurd hp (by simp [member])
  · exact .call (.refl _) (ownExact_finds _) (.inv rfl .ret) (.asrt_fail (by simp))

/-- `A.m` returns 0, `B.m` returns 1, `C.n` asserts that `super(B, self).m()` is 1. -/
def ownSuper (c : Nat) (k : Name) : Option (Meth Unit Nat Nat) :=
  match c, k with
  | 0, .meth 0 => some (member (fun _ _ => True) fun _ => .ret 0)
  | 1, .meth 0 => some (member (fun _ _ => True) fun _ => .ret 1)
  | 2, .meth 1 => some (member (fun _ _ => True) fun o =>
      .sup (some 1) o (.meth 0) 0 fun v => .asrt (fun _ => v = 1) (.ret 0))
  | _, _ => none

theorem ownSuper_finds1 : Finds chain3 ownSuper 1 (.meth 0) 1 (member (fun _ _ => True) fun _ => .ret 1) :=
  finds_own rfl

theorem ownSuper_vc (o a : Nat) (h : Unit) : VC chain3 id anyAlloc ownSuper [] 2
    (.sup (some 1) o (.meth 0) 0 fun v => .asrt (fun _ => v = 1) (.ret 0)) h fun _ _ => True :=
  .sup_inline (fun v _ => v = 1) rfl (resolve_iff.mpr ownSuper_finds1) rfl (by simp) (.ret rfl)
    fun v h' hv => .asrt hv (.ret trivial)

theorem ownSuper_some {k : Name} {c : Nat} {m : Meth Unit Nat Nat} (h : ownSuper c k = some m) :
    (∃ w, c < 2 ∧ k = .meth 0 ∧ m = member (fun _ _ => True) fun _ => .ret w) ∨
    (c = 2 ∧ k = .meth 1 ∧ m = member (fun _ _ => True) fun o =>
      .sup (some 1) o (.meth 0) 0 fun v => .asrt (fun _ => v = 1) (.ret 0)) := by
  unfold ownSuper at h
  split at h
  · cases h; exact .inl ⟨0, by omega, rfl, rfl⟩
  · cases h; exact .inl ⟨1, by omega, rfl, rfl⟩
  · cases h; exact .inr ⟨rfl, rfl, rfl⟩
  · cases h

theorem anc_big {d c : Nat} (h : Anc chain3 d c) (hd : 2 < d) : c = d := by
  cases h with
  | refl => rfl
  | step hs _ =>
    exfalso
    simp only [chain3] at hs
    split at hs
    · omega
    · omega
    · cases hs

theorem ownSuper_checked : checked chain3 id anyAlloc ownSuper fun _ => false := by
  intro d
  refine ⟨fun k m hm hi => ?_, fun k c m hr hcd hi => ?_⟩
  · rcases ownSuper_some hm with ⟨w, hd, rfl, rfl⟩ | ⟨rfl, rfl, rfl⟩
    · refine ⟨fun o a h ho _ => .ret trivial, fun m' hm' o a h ho hp => ⟨trivial, fun v h' _ => ?_⟩⟩
      simp only [overridden] at hm'
      split at hm'
      · cases hm'
      · rcases ownSuper_some hm' with ⟨w', -, -, rfl⟩ | ⟨-, h2, -⟩
        · exact trivial
        · cases h2
    · exact ⟨fun o a h ho _ => ownSuper_vc o a h, fun m' hm' => by cases hm'⟩
  · obtain ⟨h1, h2⟩ := (resolve_iff.mp hr).owns
    rcases ownSuper_some h2 with ⟨w, hd, hk, rfl⟩ | ⟨rfl, hk, rfl⟩
    · exact fun o a h ho _ => .ret trivial
    · exfalso
      by_cases hd : 2 < d
      · exact hcd (anc_big h1 hd)
      · rcases (by omega : d = 0 ∨ d = 1 ∨ d = 2) with rfl | rfl | rfl
        · exact absurd (anc_0 h1) (by omega)
        · rcases anc_1 h1 with h | h <;> omega
        · exact hcd rfl

/-- The real behaviour, 3: `super(T, self)` is taken for `super()`.  In `class C(B)` with `class B(A)`
the call `super(B, self).m()` is verified as a call of `B.m`; Python calls `A.m`. -/
theorem C75_explicit_super_fails :
    ∃ p : Prog Unit Nat Nat, checked chain3 id anyAlloc ownSuper (fun _ => false) ∧
      (∀ c n m o a, ownSuper c n = some m → m.interface = false → clsCalls (fun _ => false) (m.body o a)) ∧
      clsCalls (fun _ => false) p ∧
      (∀ h, VC chain3 id anyAlloc ownSuper [] 0 p h fun _ _ => True) ∧
      Run chain3 id anyAlloc ownSuper (.prog 0 p) () .fail := by
  refine ⟨.call 2 2 (.meth 1) 0 fun _ => .ret 0, ownSuper_checked, fun c n m o a hm _ => ?_,
    ⟨by simp, fun _ => trivial⟩, fun h => ?_, ?_⟩
  · rcases ownSuper_some hm with ⟨w, hd, rfl, rfl⟩ | ⟨rfl, rfl, rfl⟩
    · exact trivial
    · exact fun _ => trivial
  · exact .call (resolve_iff.mpr (finds_own rfl)) (fun _ => trivial) fun v h' _ _ => .ret trivial
  · refine .call_fail (.refl _) (finds_own rfl) (.inv rfl ?_)
    exact .sup (p := 0) (v := 0) (h' := ()) rfl (finds_own rfl) (.inv rfl .ret) (.asrt_fail (by simp))

/-- `class A` has no constructor, `class B(A): def __init__(self): Requires(False)`. -/
def ownLate (c : Nat) (k : Name) : Option (Meth Unit Nat Nat) :=
  match c, k with
  | 1, .init => some ⟨fun _ _ _ => False, fun _ _ _ _ _ => True, fun _ _ => .asrt (fun _ => False) (.ret 0), false⟩
  | _, _ => none

theorem ownLate_some {k : Name} {c : Nat} {m : Meth Unit Nat Nat} (h : ownLate c k = some m) :
    c = 1 ∧ k = .init ∧
      m = ⟨fun _ _ _ => False, fun _ _ _ _ _ => True, fun _ _ => .asrt (fun _ => False) (.ret 0), false⟩ := by
  unfold ownLate at h
  split at h
  · cases h; exact ⟨rfl, rfl, rfl⟩
  · cases h

/-- The real behaviour, 4: `cls()` in a class method of `class A`, which has no constructor, is verified
without any precondition; called for `class B(A)` it executes `B.__init__`, for which no override check
is generated since there is nothing to override. -/
theorem C75_constructor_of_cls_fails :
    ∃ p : Prog Unit Nat Nat, checked chain3 id anyAlloc ownLate (fun c => c == 0) ∧
      (∀ c n m o a, ownLate c n = some m → m.interface = false → clsCalls (fun c => c == 0) (m.body o a)) ∧
      clsCalls (fun c => c == 0) p ∧
      (∀ h, VC chain3 id anyAlloc ownLate [] 0 p h fun _ _ => True) ∧
      Run chain3 id anyAlloc ownLate (.prog 0 p) () .fail := by
  refine ⟨.newcls 1 0 0 fun _ => .ret 0, fun d => ⟨fun k m hm hi => ?_, fun k c m hr hcd hi => ?_⟩,
    fun c n m o a hm _ => ?_, ⟨rfl, fun _ => trivial⟩, fun h => ?_, ?_⟩
  · obtain ⟨rfl, rfl, rfl⟩ := ownLate_some hm
    exact ⟨fun o a h ho hp => absurd hp id, fun m' p hs _ hm' => by cases hm'⟩
  · obtain ⟨-, h, -⟩ := ownLate_some (resolve_iff.mp hr).owns.2
    cases h
  · obtain ⟨-, -, rfl⟩ := ownLate_some hm
    exact trivial
  · refine .newcls_plain (resolve_none.mpr fun d hd => ?_) fun o h₁ _ _ _ => .ret trivial
    rw [anc_0 hd]
    rfl
  · exact .newcls_fail (o := 1) (h₁ := ()) anc_10 rfl trivial (finds_own rfl) (.inv rfl (.asrt_fail id))

/-- `A.m` ensures that the result is 0, `C.m` returns 1. -/
def ownGap (c : Nat) (k : Name) : Option (Meth Unit Nat Nat) :=
  match c, k with
  | 0, .meth 0 => some (member (fun _ v => v = 0) fun _ => .ret 0)
  | 2, .meth 0 => some (member (fun _ _ => True) fun _ => .ret 1)
  | _, _ => none

theorem ownGap_some {k : Name} {c : Nat} {m : Meth Unit Nat Nat} (h : ownGap c k = some m) :
    (c = 0 ∧ k = .meth 0 ∧ m = member (fun _ v => v = 0) fun _ => .ret 0) ∨
    (c = 2 ∧ k = .meth 0 ∧ m = member (fun _ _ => True) fun _ => .ret 1) := by
  unfold ownGap at h
  split at h
  · cases h; exact .inl ⟨rfl, rfl, rfl⟩
  · cases h; exact .inr ⟨rfl, rfl, rfl⟩
  · cases h

/-- The real behaviour, 5: a method that overrides one of a class further up than the direct superclass
is not checked against it (cf. C57). -/
theorem C75_override_gap_fails :
    ∃ p : Prog Unit Nat Nat, checked chain3 id anyAlloc ownGap (fun _ => false) ∧
      (∀ c n m o a, ownGap c n = some m → m.interface = false → clsCalls (fun _ => false) (m.body o a)) ∧
      clsCalls (fun _ => false) p ∧
      (∀ h, VC chain3 id anyAlloc ownGap [] 0 p h fun _ _ => True) ∧
      Run chain3 id anyAlloc ownGap (.prog 0 p) () .fail := by
  refine ⟨.call 2 0 (.meth 0) 0 fun v => .asrt (fun _ => v = 0) (.ret 0),
    fun d => ⟨fun k m hm hi => ?_, fun k c m hr hcd hi => ?_⟩,
    fun c n m o a hm _ => ?_, ⟨by simp, fun _ => trivial⟩, fun h => ?_, ?_⟩
  · rcases ownGap_some hm with ⟨rfl, rfl, rfl⟩ | ⟨rfl, rfl, rfl⟩
    · exact ⟨fun o a h ho _ => .ret rfl, fun m' hm' => by cases hm'⟩
    · exact ⟨fun o a h ho _ => .ret trivial, fun m' hm' => by cases hm'⟩
  · obtain ⟨h1, h2⟩ := (resolve_iff.mp hr).owns
    rcases ownGap_some h2 with ⟨rfl, hk, rfl⟩ | ⟨rfl, hk, rfl⟩
    · exact fun o a h ho _ => .ret rfl
    · exact fun o a h ho _ => .ret trivial
  · rcases ownGap_some hm with ⟨rfl, rfl, rfl⟩ | ⟨rfl, rfl, rfl⟩ <;> exact trivial
  · exact .call (resolve_iff.mpr (finds_own rfl)) (fun _ => trivial)
      fun v h' _ hp => .asrt hp (.ret trivial)
  · exact .call (v := 1) (h' := ()) anc_20 (finds_own rfl) (.inv rfl .ret) (.asrt_fail (by simp))

/-- The full claim is false of the code. -/
theorem C75_fails : ¬ C75 := by
  intro h
  obtain ⟨p, h1, h2, h3, h4⟩ := C75_inherited_constructor_fails
  exact (h _ _ _ _ _ _ _ _ p 0 h1 ownExact_cls h2 h3).1 () h4

/-! ### A program that meets the hypotheses

`class A: def m(self): Ensures(Result() > 0)`, `class B(A)` redefines `m` with the stronger postcondition
`Result() > 1` and calls `super().m()`, `class C(B)` inherits it. -/

/-- `A.m` returns 3; `B.m` returns `super().m() + 1`. -/
def ownOk (c : Nat) (k : Name) : Option (Meth Unit Nat Nat) :=
  match c, k with
  | 0, .meth 0 => some (member (fun _ v => 0 < v) fun _ => .ret 3)
  | 1, .meth 0 => some (member (fun _ v => 1 < v) fun o => .sup none o (.meth 0) 0 fun v => .ret (v + 1))
  | _, _ => none

theorem ownOk_some {k : Name} {c : Nat} {m : Meth Unit Nat Nat} (h : ownOk c k = some m) :
    (c = 0 ∧ k = .meth 0 ∧ m = member (fun _ v => 0 < v) fun _ => .ret 3) ∨
    (c = 1 ∧ k = .meth 0 ∧ m = member (fun _ v => 1 < v) fun o =>
      .sup none o (.meth 0) 0 fun v => .ret (v + 1)) := by
  unfold ownOk at h
  split at h
  · cases h; exact .inl ⟨rfl, rfl, rfl⟩
  · cases h; exact .inr ⟨rfl, rfl, rfl⟩
  · cases h

theorem ownOk_vc {inl : List (Nat × Name)} (hi : (0, Name.meth 0) ∉ inl) (o : Nat) (h : Unit) :
    VC chain3 id anyAlloc ownOk inl 1 (.sup none o (.meth 0) 0 fun v => .ret (v + 1)) h fun v _ => 1 < v :=
  .sup_inline (L := 0) (fun v _ => v = 3) rfl (resolve_iff.mpr (finds_own rfl)) rfl hi (.ret rfl)
    fun v h' hv => .ret (by omega)

theorem ownOk_checked : checked chain3 id anyAlloc ownOk fun _ => false := by
  intro d
  refine ⟨fun k m hm hi => ?_, fun k c m hr hcd hi => ?_⟩
  · rcases ownOk_some hm with ⟨rfl, rfl, rfl⟩ | ⟨rfl, rfl, rfl⟩
    · exact ⟨fun o a h ho _ => .ret (show 0 < 3 by omega), fun m' hm' => by cases hm'⟩
    · refine ⟨fun o a h ho _ => ownOk_vc (by simp) o h, fun m' hm' => ?_⟩
      cases hm'
      exact fun o a h _ _ => ⟨trivial, fun v h' (hv : 1 < v) => show 0 < v by omega⟩
  · obtain ⟨h1, h2⟩ := (resolve_iff.mp hr).owns
    rcases ownOk_some h2 with ⟨rfl, hk, rfl⟩ | ⟨rfl, hk, rfl⟩
    · exact fun o a h ho _ => .ret (show 0 < 3 by omega)
    · exact fun o a h ho _ => ownOk_vc (by simp) o h

theorem ownOk_guard : Guard chain3 id anyAlloc ownOk fun _ => false where
  inherited d c n m hn hf _ _ := by
    rcases ownOk_some hf.owns.2 with ⟨-, h, -⟩ | ⟨-, h, -⟩ <;> exact absurd h (hn 0)
  noGap n c p e hc hs hp he := by
    obtain ⟨m, hm⟩ := Option.ne_none_iff_exists'.mp hc
    rcases ownOk_some hm with ⟨rfl, rfl, -⟩ | ⟨rfl, rfl, -⟩
    · cases hs
    · cases hs; cases hp
  interfaceOk c n m hm hi := by
    rcases ownOk_some hm with ⟨-, -, rfl⟩ | ⟨-, -, rfl⟩ <;> cases hi
  initOk C c h := by cases h
  superOk c n m o a hm _ := by
    rcases ownOk_some hm with ⟨rfl, rfl, rfl⟩ | ⟨rfl, rfl, rfl⟩
    · exact trivial
    · exact ⟨.inl rfl, fun _ => trivial⟩

theorem ownOk_cls : ∀ c n m o a, ownOk c n = some m → m.interface = false →
    clsCalls (fun _ => false) (m.body o a) := by
  intro c n m o a hm _
  rcases ownOk_some hm with ⟨rfl, rfl, rfl⟩ | ⟨rfl, rfl, rfl⟩
  · exact trivial
  · exact fun _ => trivial

/-- Main code: `x.m()` for an object of class `C` seen as an `A`, whose result is positive. -/
def mainOk : Prog Unit Nat Nat := .call 2 0 (.meth 0) 0 fun v => .asrt (fun _ => 0 < v) (.ret 0)

example : MainSound chain3 id anyAlloc ownOk 0 mainOk :=
  C75_verified_code_never_fails_partial ownOk_checked ownOk_guard ownOk_cls ⟨by simp, fun _ => trivial⟩
    (fun _ => trivial) fun h => .call (resolve_iff.mpr (finds_own rfl)) (fun _ => trivial)
      fun v h' _ hp => .asrt hp (.ret trivial)

example : CallsSound chain3 id anyAlloc ownOk :=
  C75_calls_satisfy_static_contract_partial ownOk_checked ownOk_guard ownOk_cls

/-- The run of the main code: `C` inherits `B.m`, which calls `A.m`. -/
theorem mainOk_run : Run chain3 id anyAlloc ownOk (.prog 0 mainOk) () (.ok 0 ()) := by
  have hf : Finds chain3 ownOk 2 (.meth 0) 1 (member (fun _ v => 1 < v) fun o =>
      .sup none o (.meth 0) 0 fun v => .ret (v + 1)) := by
    refine ⟨1, .step rfl (.refl 1), rfl, fun e h2 h1 hne => ?_⟩
    rcases anc_2 h2 with rfl | rfl | rfl
    · rfl
    · exact absurd rfl hne
    · exact absurd (anc_0 h1) (by omega)
  exact .call (v := 4) (h' := ()) anc_20 hf
    (.inv rfl (.sup (p := 0) (v := 3) (h' := ()) rfl (finds_own rfl) (.inv rfl .ret) .ret))
    (.asrt (by omega) .ret)

example : (0 : Nat) = 0 :=
  C75_postcondition_partial (Q := fun v _ => v = 0) ownOk_checked ownOk_guard ownOk_cls
    (p := mainOk) ⟨by simp, fun _ => trivial⟩ (fun _ => trivial)
    (.call (resolve_iff.mpr (finds_own rfl)) (fun _ => trivial) fun v h' _ hp => .asrt hp (.ret rfl))
    mainOk_run

end Nagini.Dispatch
