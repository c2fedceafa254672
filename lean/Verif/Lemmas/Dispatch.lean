import Verif.Model.Dispatch
import Verif.Lemmas.Classes

/-! Lemmas about dispatch (C75). -/
set_option linter.unusedVariables false
set_option linter.unusedSimpArgs false
namespace Nagini.Dispatch

open Classes

variable {Hp V Obj : Type} {H : Hier} {dyn : Obj → Nat} {alloc : Hp → Obj → Hp → Prop}
  {own : Nat → Name → Option (Meth Hp V Obj)} {cm : Nat → Bool}

theorem resolve_iff {c : Nat} {n : Name} {K : Nat} {m : Meth Hp V Obj} :
    resolve H own c n = some (K, m) ↔ Finds H own c n K m := lookup_iff _ _ _

theorem resolve_none {c : Nat} {n : Name} :
    resolve H own c n = none ↔ ∀ d, Anc H c d → own d n = none := by
  unfold resolve
  rw [lookup_none]
  simp [owned]

theorem Finds.unique {c : Nat} {n : Name} {K L : Nat} {m m' : Meth Hp V Obj}
    (h : Finds H own c n K m) (h' : Finds H own c n L m') : K = L ∧ m = m' := by
  have := Nearest.unique h h'
  simpa using this

theorem Finds.owns {c : Nat} {n : Name} {K : Nat} {m : Meth Hp V Obj} (h : Finds H own c n K m) :
    Anc H c K ∧ own K n = some m := by
  obtain ⟨d, hd, ho, -⟩ := h
  simp only [owned, Option.map_eq_some_iff, Prod.mk.injEq] at ho
  obtain ⟨m', h1, rfl, rfl⟩ := ho
  exact ⟨hd, h1⟩

theorem finds_own {c : Nat} {n : Name} {m : Meth Hp V Obj} (h : own c n = some m) :
    Finds H own c n c m :=
  ⟨c, .refl c, by simp [owned, h], fun e h1 h2 hne => absurd (h2.antisymm h1) hne⟩

theorem finds_sup {c p : Nat} {n : Name} {K : Nat} {m : Meth Hp V Obj} (hs : H.sup c = some p)
    (hn : own c n = none) (h : Finds H own c n K m) : Finds H own p n K m := by
  obtain ⟨d, hd, ho, hb⟩ := h
  cases hd with
  | refl => simp [owned, hn] at ho
  | step hs' hd =>
    rw [hs] at hs'
    cases hs'
    exact ⟨d, hd, ho, fun e h1 h2 hne => hb e (.step hs h1) h2 hne⟩

/-- The member found for a subclass refines the one found for a superclass. -/
theorem refine (hc : checked H dyn alloc own cm) (g : Guard H dyn alloc own cm) {n : Name} {o : Obj} {d C : Nat}
    (hdC : Anc H d C) (hod : Anc H (dyn o) d) {K L : Nat} {known run : Meth Hp V Obj}
    (hcm : n = .init → hasClassmethod H cm C)
    (hk : Finds H own C n K known) (hr : Finds H own d n L run) {a : V} {h : Hp} (hpre : known.pre o a h) :
    run.pre o a h ∧ ∀ v h', run.post o a h v h' → known.post o a h v h' := by
  induction hdC generalizing L run with
  | refl =>
    obtain ⟨-, rfl⟩ := hk.unique hr
    exact ⟨hpre, fun _ _ h => h⟩
  | @step c p C hs hpC ih =>
    have hop : Anc H (dyn o) p := hod.trans (.step hs (.refl p))
    cases hown : own c n with
    | none => exact ih hop hcm hk (finds_sup hs hown hr)
    | some m =>
      obtain ⟨-, rfl⟩ := hr.unique (finds_own (H := H) hown)
      have hpn : own p n ≠ none := by
        intro hp
        obtain ⟨hCK, hK⟩ := hk.owns
        have := g.noGap n c p K (by simp [hown]) hs hp (hpC.trans hCK)
        simp [hK] at this
      obtain ⟨mp, hmp⟩ := Option.ne_none_iff_exists'.mp hpn
      obtain ⟨h1, h2⟩ := ih hop hcm hk (finds_own hmp)
      have hov : overridden H own c n = some mp := by simp [overridden, hs, hmp]
      have hok : overrideOk H dyn own cm c n run := by
        by_cases hi : run.interface = true
        · exact g.interfaceOk c n run hown hi
        · exact ((hc c).1 n run hown (by simpa using hi)).2
      have hcheck : overrideCheck H dyn c run mp := by
        cases n with
        | meth k => exact hok mp hov
        | init =>
          obtain ⟨e, he, hce⟩ := hcm rfl
          exact hok mp p hs ⟨e, hpC.trans he, hce⟩ hov
        | setter k =>
          have : overridden H own c (.setter k) = none := hok
          rw [this] at hov
          cases hov
      obtain ⟨h3, h4⟩ := hcheck o a h hod h1
      exact ⟨h3, fun v h' hv => h2 v h' (h4 v h' hv)⟩

/-- Whatever member is found for the class of an object verifies for the object. -/
theorem body_ok (hc : checked H dyn alloc own cm) (g : Guard H dyn alloc own cm) {n : Name} {o : Obj} {L : Nat}
    {m : Meth Hp V Obj} (hf : Finds H own (dyn o) n L m) (hi : m.interface = false) {a : V} {h : Hp}
    (hpre : m.pre o a h) : ∃ inl, VC H dyn alloc own inl L (m.body o a) h (m.post o a h) := by
  by_cases hL : L = dyn o
  · subst hL
    exact ⟨_, ((hc (dyn o)).1 n m hf.owns.2 hi).1 o a h rfl hpre⟩
  · cases n with
    | meth k => exact ⟨_, (hc (dyn o)).2 k L m (resolve_iff.mpr hf) hL hi o a h rfl hpre⟩
    | init => exact ⟨_, g.inherited (dyn o) L .init m (by simp) hf hL hi o a h rfl hpre⟩
    | setter k => exact ⟨_, g.inherited (dyn o) L (.setter k) m (by simp) hf hL hi o a h rfl hpre⟩

/-- A result that satisfies the postcondition. -/
def Good (Q : V → Hp → Prop) : Res Hp V → Prop
  | .fail => False
  | .ok v h => Q v h

/-- What is known about something that is executed. -/
def Ok (H : Hier) (dyn : Obj → Nat) (alloc : Hp → Obj → Hp → Prop)
    (own : Nat → Name → Option (Meth Hp V Obj)) (cm : Nat → Bool) (Q : V → Hp → Prop) (h : Hp) :
    Job Hp V Obj → Prop
  | .prog K p => SuperOk K p ∧ clsCalls cm p ∧ ∃ inl, VC H dyn alloc own inl K p h Q
  | .inv L m o a =>
    (m.interface = true → m.pre o a h ∧ ∀ v h', m.post o a h v h' → Q v h') ∧
    (m.interface = false → SuperOk L (m.body o a) ∧ clsCalls cm (m.body o a) ∧
      ∃ inl, VC H dyn alloc own inl L (m.body o a) h Q)

theorem VC.mono {inl : List (Nat × Name)} {K : Nat} {p : Prog Hp V Obj} {h : Hp} {Q : V → Hp → Prop}
    (hv : VC H dyn alloc own inl K p h Q) : ∀ {Q' : V → Hp → Prop}, (∀ v h, Q v h → Q' v h) →
    VC H dyn alloc own inl K p h Q' := by
  induction hv with
  | ret hq => exact fun hQ => .ret (hQ _ _ hq)
  | act _ ih => exact fun hQ => .act fun v h' hr => ih v h' hr hQ
  | asrt hp _ ih => exact fun hQ => .asrt hp (ih hQ)
  | loop hI hb _ _ ih => exact fun hQ => .loop hI hb fun v h hi hc => ih v h hi hc hQ
  | call hr hp _ ih => exact fun hQ => .call hr hp fun v h' ha hv => ih v h' ha hv hQ
  | scall_contract hr hi hp _ ih => exact fun hQ => .scall_contract hr hi hp fun v h' hv => ih v h' hv hQ
  | scall_inline P hr hi hn hb _ _ ih => exact fun hQ => .scall_inline P hr hi hn hb fun v h' hv => ih v h' hv hQ
  | sup_contract hs hr hi hp _ ih => exact fun hQ => .sup_contract hs hr hi hp fun v h' hv => ih v h' hv hQ
  | sup_inline P hs hr hi hn hb _ _ ih => exact fun hQ => .sup_inline P hs hr hi hn hb fun v h' hv => ih v h' hv hQ
  | new hr hp _ ih => exact fun hQ => .new hr hp fun o h₁ v h' hd ha hv => ih o h₁ v h' hd ha hv hQ
  | new_plain hr _ ih => exact fun hQ => .new_plain hr fun o h₁ hd ha => ih o h₁ hd ha hQ
  | newcls hr hp _ ih => exact fun hQ => .newcls hr hp fun o h₁ v h' hC hd ha hv => ih o h₁ v h' hC hd ha hv hQ
  | newcls_plain hr _ ih => exact fun hQ => .newcls_plain hr fun o h₁ hC hd ha => ih o h₁ hC hd ha hQ

/-- What is known of the member found for an object when the precondition found for a superclass
holds. -/
theorem inv_ok (hc : checked H dyn alloc own cm) (g : Guard H dyn alloc own cm)
    (hcls : ∀ c n m o a, own c n = some m → m.interface = false → clsCalls cm (m.body o a))
    {n : Name} {o : Obj} {C K L : Nat} {known run : Meth Hp V Obj}
    (hcm : n = .init → C = dyn o ∨ hasClassmethod H cm C) (hoC : Anc H (dyn o) C)
    (hk : Finds H own C n K known) (hr : Finds H own (dyn o) n L run) {a : V} {h : Hp}
    (hpre : known.pre o a h) {Q : V → Hp → Prop} (hQ : ∀ v h', known.post o a h v h' → Q v h') :
    Ok H dyn alloc own cm Q h (.inv L run o a) := by
  have href : run.pre o a h ∧ ∀ v h', run.post o a h v h' → known.post o a h v h' := by
    by_cases hCo : C = dyn o
    · subst hCo
      obtain ⟨-, rfl⟩ := hk.unique hr
      exact ⟨hpre, fun _ _ h => h⟩
    · exact refine hc g hoC (.refl _) (fun hn => (hcm hn).resolve_left hCo) hk hr hpre
  refine ⟨fun hi => ⟨href.1, fun v h' hv => hQ v h' (href.2 v h' hv)⟩, fun hi => ?_⟩
  obtain ⟨inl, hvc⟩ := body_ok hc g hr hi href.1
  exact ⟨g.superOk L n run o a hr.owns.2 hi, hcls L n run o a hr.owns.2 hi, inl,
    hvc.mono fun v h' hv => hQ v h' (href.2 v h' hv)⟩

/-- No constructor appears below a class with a class method that has none. -/
theorem late (g : Guard H dyn alloc own cm) {C c L : Nat} {m : Meth Hp V Obj} (hcm : cm C = true)
    (hcC : Anc H c C) (hr : resolve H own C .init = none) (hf : Finds H own c .init L m) : False := by
  obtain ⟨hcL, hL⟩ := hf.owns
  rcases hcL.linear hcC with h | h
  · obtain ⟨d, hd, hn⟩ := g.initOk C L hcm h (by simp [hL])
    exact hn (resolve_none.mp hr d hd)
  · have := resolve_none.mp hr L h
    rw [hL] at this
    cases this

/-- Everything that verifies runs without failing and establishes its postcondition. -/
theorem run_good (hc : checked H dyn alloc own cm) (g : Guard H dyn alloc own cm)
    (hcls : ∀ c n m o a, own c n = some m → m.interface = false → clsCalls cm (m.body o a))
    {j : Job Hp V Obj} {h : Hp} {R : Res Hp V} (hrun : Run H dyn alloc own j h R) :
    ∀ {Q : V → Hp → Prop}, Ok H dyn alloc own cm Q h j → Good Q R := by
  induction hrun with
  | ret => rintro Q ⟨-, -, inl, hv⟩; cases hv; assumption
  | act hr _ ih =>
    rintro Q ⟨hs, hcl, inl, hv⟩
    cases hv with
    | act hk => exact ih ⟨hs _, hcl _, inl, hk _ _ hr⟩
  | asrt hp _ ih =>
    rintro Q ⟨hs, hcl, inl, hv⟩
    cases hv with
    | asrt _ hk => exact ih ⟨hs, hcl, inl, hk⟩
  | asrt_fail hp =>
    rintro Q ⟨-, -, inl, hv⟩
    cases hv with
    | asrt hp' _ => exact absurd hp' hp
  | loop_end hcv _ ih =>
    rintro Q ⟨hs, hcl, inl, hv⟩
    cases hv with
    | loop hI hb hk => exact ih ⟨hs.2 _, hcl.2 _, inl, hk _ _ hI hcv⟩
  | loop_step hcv _ _ ih₁ ih₂ =>
    rintro Q ⟨hs, hcl, inl, hv⟩
    cases hv with
    | loop hI hb hk =>
      exact ih₂ ⟨hs, hcl, inl, .loop (ih₁ ⟨hs.1 _, hcl.1 _, inl, hb _ _ hI hcv⟩) hb hk⟩
  | loop_fail hcv _ ih =>
    rintro Q ⟨hs, hcl, inl, hv⟩
    cases hv with
    | loop hI hb hk => exact (ih ⟨hs.1 _, hcl.1 _, inl, hb _ _ hI hcv⟩).elim
  | call hoC hf _ _ ih₁ ih₂ =>
    rintro Q ⟨hs, hcl, inl, hv⟩
    cases hv with
    | call hr hp hk =>
      have := ih₁ (inv_ok hc g hcls (fun hn => absurd hn hcl.1) hoC (resolve_iff.mp hr) hf (hp hoC)
        fun v h' hv => hv)
      exact ih₂ ⟨hs _, hcl.2 _, inl, hk _ _ hoC this⟩
  | call_fail hoC hf _ ih =>
    rintro Q ⟨hs, hcl, inl, hv⟩
    cases hv with
    | call hr hp hk =>
      exact (ih (inv_ok hc g hcls (fun hn => absurd hn hcl.1) hoC (resolve_iff.mp hr) hf (hp hoC)
        fun v h' hv => hv)).elim
  | scall hf _ _ ih₁ ih₂ =>
    rintro Q ⟨hs, hcl, inl, hv⟩
    cases hv with
    | scall_contract hr hi hp hk =>
      obtain ⟨rfl, rfl⟩ := (resolve_iff.mp hr).unique hf
      have := ih₁ ⟨fun _ => ⟨hp, fun v h' hv => hv⟩, fun hi' => by simp [hi] at hi'⟩
      exact ih₂ ⟨hs _, hcl _, inl, hk _ _ this⟩
    | scall_inline P hr hi hn hb hk =>
      obtain ⟨rfl, rfl⟩ := (resolve_iff.mp hr).unique hf
      have := ih₁ ⟨fun hi' => by simp [hi] at hi', fun _ =>
        ⟨g.superOk _ _ _ _ _ hf.owns.2 hi, hcls _ _ _ _ _ hf.owns.2 hi, _, hb⟩⟩
      exact ih₂ ⟨hs _, hcl _, inl, hk _ _ this⟩
  | scall_fail hf _ ih =>
    rintro Q ⟨hs, hcl, inl, hv⟩
    cases hv with
    | scall_contract hr hi hp hk =>
      obtain ⟨rfl, rfl⟩ := (resolve_iff.mp hr).unique hf
      exact (ih ⟨fun _ => ⟨hp, fun v h' hv => hv⟩, fun hi' => by simp [hi] at hi'⟩).elim
    | scall_inline P hr hi hn hb hk =>
      obtain ⟨rfl, rfl⟩ := (resolve_iff.mp hr).unique hf
      exact (ih ⟨fun hi' => by simp [hi] at hi', fun _ =>
        ⟨g.superOk _ _ _ _ _ hf.owns.2 hi, hcls _ _ _ _ _ hf.owns.2 hi, _, hb⟩⟩).elim
  | @sup K T o n a k h p L m v h' R hp hf _ _ ih₁ ih₂ =>
    rintro Q ⟨hs, hcl, inl, hv⟩
    have hT : T.getD K = K := by rcases hs.1 with rfl | rfl <;> rfl
    rw [hT] at hp
    cases hv with
    | sup_contract hsc hr hi hpre hk =>
      obtain rfl := Option.some.inj (hp.symm.trans hsc)
      obtain ⟨rfl, rfl⟩ := (resolve_iff.mp hr).unique hf
      have := ih₁ ⟨fun _ => ⟨hpre, fun v h' hv => hv⟩, fun hi' => by simp [hi] at hi'⟩
      exact ih₂ ⟨hs.2 _, hcl _, inl, hk _ _ this⟩
    | sup_inline P hsc hr hi hn hb hk =>
      obtain rfl := Option.some.inj (hp.symm.trans hsc)
      obtain ⟨rfl, rfl⟩ := (resolve_iff.mp hr).unique hf
      have := ih₁ ⟨fun hi' => by simp [hi] at hi', fun _ =>
        ⟨g.superOk _ _ _ _ _ hf.owns.2 hi, hcls _ _ _ _ _ hf.owns.2 hi, _, hb⟩⟩
      exact ih₂ ⟨hs.2 _, hcl _, inl, hk _ _ this⟩
  | @sup_fail K T o n a k h p L m hp hf _ ih =>
    rintro Q ⟨hs, hcl, inl, hv⟩
    have hT : T.getD K = K := by rcases hs.1 with rfl | rfl <;> rfl
    rw [hT] at hp
    cases hv with
    | sup_contract hsc hr hi hpre hk =>
      obtain rfl := Option.some.inj (hp.symm.trans hsc)
      obtain ⟨rfl, rfl⟩ := (resolve_iff.mp hr).unique hf
      exact (ih ⟨fun _ => ⟨hpre, fun v h' hv => hv⟩, fun hi' => by simp [hi] at hi'⟩).elim
    | sup_inline P hsc hr hi hn hb hk =>
      obtain rfl := Option.some.inj (hp.symm.trans hsc)
      obtain ⟨rfl, rfl⟩ := (resolve_iff.mp hr).unique hf
      exact (ih ⟨fun hi' => by simp [hi] at hi', fun _ =>
        ⟨g.superOk _ _ _ _ _ hf.owns.2 hi, hcls _ _ _ _ _ hf.owns.2 hi, _, hb⟩⟩).elim
  | new hd ha hf _ _ ih₁ ih₂ =>
    rintro Q ⟨hs, hcl, inl, hv⟩
    subst hd
    cases hv with
    | new hr hp hk =>
      have := ih₁ (inv_ok hc g hcls (fun _ => Or.inl rfl) (.refl _) (resolve_iff.mp hr) hf (hp _ _ rfl ha)
        fun v h' hv => hv)
      exact ih₂ ⟨hs _, hcl _, inl, hk _ _ _ _ rfl ha this⟩
    | new_plain hr hk =>
      have h1 := resolve_none.mp hr _ hf.owns.1
      rw [hf.owns.2] at h1
      cases h1
  | new_fail hd ha hf _ ih =>
    rintro Q ⟨hs, hcl, inl, hv⟩
    subst hd
    cases hv with
    | new hr hp hk =>
      exact (ih (inv_ok hc g hcls (fun _ => Or.inl rfl) (.refl _) (resolve_iff.mp hr) hf (hp _ _ rfl ha)
        fun v h' hv => hv)).elim
    | new_plain hr hk =>
      have h1 := resolve_none.mp hr _ hf.owns.1
      rw [hf.owns.2] at h1
      cases h1
  | new_plain hd ha hn _ ih =>
    rintro Q ⟨hs, hcl, inl, hv⟩
    cases hv with
    | new hr hp hk =>
      rw [resolve_none.mpr hn] at hr
      cases hr
    | new_plain hr hk => exact ih ⟨hs _, hcl _, inl, hk _ _ hd ha⟩
  | newcls hcC hd ha hf _ _ ih₁ ih₂ =>
    rintro Q ⟨hs, hcl, inl, hv⟩
    subst hd
    cases hv with
    | newcls hr hp hk =>
      have := ih₁ (inv_ok hc g hcls (fun _ => Or.inr ⟨_, .refl _, hcl.1⟩) hcC (resolve_iff.mp hr) hf
        (hp _ _ hcC rfl ha) fun v h' hv => hv)
      exact ih₂ ⟨hs _, hcl.2 _, inl, hk _ _ _ _ hcC rfl ha this⟩
    | newcls_plain hr hk => exact (late g hcl.1 hcC hr hf).elim
  | newcls_fail hcC hd ha hf _ ih =>
    rintro Q ⟨hs, hcl, inl, hv⟩
    subst hd
    cases hv with
    | newcls hr hp hk =>
      exact (ih (inv_ok hc g hcls (fun _ => Or.inr ⟨_, .refl _, hcl.1⟩) hcC (resolve_iff.mp hr) hf
        (hp _ _ hcC rfl ha) fun v h' hv => hv)).elim
    | newcls_plain hr hk => exact (late g hcl.1 hcC hr hf).elim
  | newcls_plain hcC hd ha hn _ ih =>
    rintro Q ⟨hs, hcl, inl, hv⟩
    cases hv with
    | newcls hr hp hk =>
      have h1 := (resolve_iff.mp hr).owns
      have h2 := hn _ (hcC.trans h1.1)
      rw [h1.2] at h2
      cases h2
    | newcls_plain hr hk => exact ih ⟨hs _, hcl.2 _, inl, hk _ _ hcC hd ha⟩
  | inv hi _ ih =>
    rintro Q ⟨-, h2⟩
    exact ih (h2 hi)
  | inv_interface hi hp hpost =>
    rintro Q ⟨h1, -⟩
    exact (h1 hi).2 _ _ hpost
  | inv_interface_fail hi hp =>
    rintro Q ⟨h1, -⟩
    exact absurd (h1 hi).1 hp

end Nagini.Dispatch
