import Verif.Lemmas.GlobalNames

/-!
C126: a verified module does not look up undefined global names.  C127: modules that define names before they are
needed pass the checks.
-/
namespace Nagini.GlobalNames

/-- C126, full claim: a module that mypy accepts and that is verified runs without NameErrors. -/
def C126_claim : Prop := ∀ p ss, WF p → Exists p ss → Direct p [] ss → Verified p [] ss → Safe p [] ss

/-- C127, full claim: a module that runs without NameErrors is verified. -/
def C127_claim : Prop := ∀ p ss, WF p → Exists p ss → Direct p [] ss → Safe p [] ss → Verified p [] ss

/-- A name is not the name of a method or field of a class. -/
def Outer (p : Prog) (n : Nat) : Prop := ∀ cd ∈ p.classes, n ∉ cd.inner

/-- Actions in bodies for which the recorded dependencies are complete: names are not names of methods, constructors
and implicitly called methods do not look up anything. -/
def Plain (p : Prog) : Act → Prop
  | .read n | .call n => Outer p n
  | .new c => ∀ b, Finds p initName c b → b = []
  | .meth _ _ | .smeth _ _ => True
  | .implicit c m => ∀ d b, Sub p c d → Finds p m d b → b = []

/-- Actions of the main method that are checked. -/
def PlainMain (p : Prog) : Act → Prop
  | .read n | .call n => Outer p n
  | .new _ => True
  | .meth c m | .implicit c m => ∀ d b, Sub p c d → Finds p m d b → b = []
  | .smeth _ _ => False

/-- The guard of C126. -/
structure Guard (p : Prog) (ss : List Stm) : Prop where
  funs : ∀ f b, p.funs f = some b → ∀ a ∈ b, Plain p a
  methods : ∀ cd ∈ p.classes, ∀ m b, cd.methods m = some b → ∀ a ∈ b, Plain p a
  classes : ∀ cd ∈ p.classes, Outer p cd.name
  main : ∀ as, (Stm.eval as ∈ ss ∨ ∃ x, Stm.assign x as ∈ ss) → ∀ a ∈ as, PlainMain p a

theorem finds_plain {p : Prog} (hm : ∀ cd ∈ p.classes, ∀ m b, cd.methods m = some b → ∀ a ∈ b, Plain p a)
    {m c b} (h : Finds p m c b) : ∀ a ∈ b, Plain p a := by
  induction h with
  | own hc hb => exact hm _ (List.mem_of_getElem? hc) _ _ hb
  | up _ _ _ _ ih => exact ih

/-- If an action of a body may fail, a dependency of it is not defined. -/
theorem bad_needs {p : Prog} (w : WF p) {E D} (hA : Agree p E D)
    (hf : ∀ f b, p.funs f = some b → ∀ a ∈ b, Plain p a)
    (hm : ∀ cd ∈ p.classes, ∀ m b, cd.methods m = some b → ∀ a ∈ b, Plain p a)
    (hcl : ∀ cd ∈ p.classes, Outer p cd.name) {a} (h : Bad p D a) : Plain p a → ∀ b, a ∈ b →
    ∃ cs r, Needs p b cs r ∧ (∀ c ∈ cs, Ref.single (className p c) ∈ E) ∧ r ∉ E := by
  have hout : ∀ n, n ∉ D → Outer p n → Ref.single n ∉ E := by
    intro n hn ho he
    rcases hA.back n he with h | ⟨cd, hcd, h⟩
    · exact hn h
    · exact ho cd hcd h
  induction h with
  | @read n hn =>
    intro hp b hb
    exact ⟨[], .single n, .direct hb (e := ⟨some (.single n), [], []⟩) (by simp [depsOf]) rfl, by simp, hout n hn hp⟩
  | @callName f hn =>
    intro hp b hb
    exact ⟨[], .single f, .direct hb (e := ⟨some (.single f), (p.funs f).getD [], []⟩) (by simp [depsOf]) rfl, by simp,
      hout f hn hp⟩
  | @callBody f b' a hb' ha hbad ih =>
    intro hp b hb
    obtain ⟨cs, r, h1, h2, h3⟩ := ih (hf f b' hb' a ha) b' ha
    exact ⟨[] ++ cs, r, .step hb (e := ⟨some (.single f), (p.funs f).getD [], []⟩) (by simp [depsOf])
      (by simpa [hb'] using h1), by simpa using h2, h3⟩
  | @newName c n hn hnd =>
    intro hp b hb
    refine ⟨[], .single (className p c), .direct hb (e := ⟨some (.single (className p c)), [], []⟩) (by simp [depsOf]) rfl,
      by simp, ?_⟩
    rw [named_className hn]
    obtain ⟨cd, hc, rfl⟩ := hn
    exact hout _ hnd (hcl cd (List.mem_of_getElem? hc))
  | @newBody c b' a hfind ha hbad ih =>
    intro hp b hb
    rw [hp b' hfind] at ha
    simp at ha
  | @meth c d m n b' a hsub hn hnd hfind ha hbad ih =>
    intro hp b hb
    obtain ⟨cs, r, h1, h2, h3⟩ := ih (finds_plain hm hfind a ha) b' ha
    refine ⟨[d] ++ cs, r, .step hb (e := ⟨none, (lookup p m (d + 1) d).getD [], [d]⟩) ?_ ?_, ?_, h3⟩
    · simp only [depsOf, List.mem_map]
      exact ⟨d, (mem_subclasses w).2 hsub, rfl⟩
    · simpa [lookup_complete w hfind (d + 1) (by omega)] using h1
    · intro k hk
      simp only [List.mem_append, List.mem_singleton] at hk
      rcases hk with rfl | hk
      · rw [named_className hn]; exact hA.to n hnd
      · exact h2 k hk
  | @smethName c m n hn hnd =>
    intro hp b hb
    exact ⟨[], .comb (className p c) m, .direct hb (e := ⟨some (.comb (className p c) m), (lookup p m (c + 1) c).getD [], []⟩)
      (by simp [depsOf]) rfl, by simp, hA.comb _ _⟩
  | @smethBody c m b' a hfind ha hbad ih =>
    intro hp b hb
    exact ⟨[], .comb (className p c) m, .direct hb (e := ⟨some (.comb (className p c) m), (lookup p m (c + 1) c).getD [], []⟩)
      (by simp [depsOf]) rfl, by simp, hA.comb _ _⟩
  | @implicit c d m n b' a hsub hn hnd hfind ha hbad ih =>
    intro hp b hb
    rw [hp d b' hsub hfind] at ha
    simp at ha

theorem passes_safe {p : Prog} (w : WF p) {E D} (hA : Agree p E D)
    (hf : ∀ f b, p.funs f = some b → ∀ a ∈ b, Plain p a)
    (hm : ∀ cd ∈ p.classes, ∀ m b, cd.methods m = some b → ∀ a ∈ b, Plain p a)
    (hcl : ∀ cd ∈ p.classes, Outer p cd.name) {b} (hb : ∀ a ∈ b, Plain p a) (h : Passes p E b) : ∀ a ∈ b, ¬ Bad p D a := by
  intro a ha hbad
  obtain ⟨cs, r, h1, h2, h3⟩ := bad_needs w hA hf hm hcl hbad (hb a ha) b ha
  exact h3 (h cs r h1 h2)

theorem check_safe {p : Prog} (w : WF p) {E D} (hA : Agree p E D)
    (hf : ∀ f b, p.funs f = some b → ∀ a ∈ b, Plain p a)
    (hm : ∀ cd ∈ p.classes, ∀ m b, cd.methods m = some b → ∀ a ∈ b, Plain p a)
    (hcl : ∀ cd ∈ p.classes, Outer p cd.name) {a} (ha : PlainMain p a) (h : checkAct p E a) : ¬ Bad p D a := by
  have hout : ∀ n, Ref.single n ∈ E → Outer p n → n ∈ D := by
    intro n he ho
    rcases hA.back n he with h | ⟨cd, hcd, h⟩
    · exact h
    · exact absurd h (ho cd hcd)
  intro hbad
  cases hbad with
  | read hn => exact hn (hout _ h ha)
  | callName hn => exact hn (hout _ h.1 ha)
  | @callBody f b a hb hab hbad =>
    have h2 := h.2
    simp only [hb, Option.getD_some] at h2
    exact passes_safe w hA hf hm hcl (hf f b hb) h2 a hab hbad
  | @newName c n hn hnd =>
    have h1 := h.1
    rw [named_className hn] at h1
    obtain ⟨cd, hc, rfl⟩ := hn
    exact hnd (hout _ h1 (hcl cd (List.mem_of_getElem? hc)))
  | @newBody c b a hfind hab hbad =>
    have h2 := h.2
    simp only [lookup_complete w hfind (c + 1) (by omega), Option.getD_some] at h2
    exact passes_safe w hA hf hm hcl (finds_plain hm hfind) h2 a hab hbad
  | @meth c d m n b a hsub hn hnd hfind hab hbad => rw [ha d b hsub hfind] at hab; simp at hab
  | smethName => exact ha
  | smethBody => exact ha
  | @implicit c d m n b a hsub hn hnd hfind hab hbad => rw [ha d b hsub hfind] at hab; simp at hab

/-- C126 under the guard: no static method calls in the main method and no (explicit or implicit) method calls there
that look up names, no constructors that look up names in bodies, no implicitly called methods that look up names, no
methods with names of global things.  mypy's check is not needed for this part. -/
theorem C126_partial {p : Prog} {ss : List Stm} (w : WF p) (g : Guard p ss) (h : Verified p [] ss) : Safe p [] ss := by
  have key : ∀ (ss : List Stm) (E : List Ref) (D : List Nat), Agree p E D →
      (∀ as, (Stm.eval as ∈ ss ∨ ∃ x, Stm.assign x as ∈ ss) → ∀ a ∈ as, PlainMain p a) →
      Verified p E ss → Safe p D ss := by
    intro ss
    induction ss with
    | nil => intro E D _ _ _; trivial
    | cons s r ih =>
      intro E D hA hmain hv
      have hr : ∀ as, (Stm.eval as ∈ r ∨ ∃ x, Stm.assign x as ∈ r) → ∀ a ∈ as, PlainMain p a := by
        intro as ha
        apply hmain
        rcases ha with ha | ⟨x, ha⟩
        · exact .inl (by simp [ha])
        · exact .inr ⟨x, by simp [ha]⟩
      cases s with
      | def_ f => exact ih _ _ (hA.cons f) hr hv
      | cls c =>
        intro cd hc
        obtain ⟨h1, h2⟩ := hv cd hc
        refine ⟨?_, ih _ _ (hA.cls hc) hr h2⟩
        intro d n hs hn
        have := h1 d hs
        rw [named_className hn] at this
        obtain ⟨cd', hc', rfl⟩ := hn
        rcases hA.back _ this with h | ⟨cd'', hcd, h⟩
        · exact h
        · exact absurd h (g.classes cd' (List.mem_of_getElem? hc') cd'' hcd)
      | assign x as =>
        refine ⟨?_, ih _ _ (hA.cons x) hr hv.2⟩
        intro a ha
        exact check_safe w hA g.funs g.methods g.classes (hmain as (.inr ⟨x, by simp⟩) a ha) (hv.1 a ha)
      | eval as =>
        refine ⟨?_, ih _ _ hA hr hv.2⟩
        intro a ha
        exact check_safe w hA g.funs g.methods g.classes (hmain as (.inl (by simp)) a ha) (hv.1 a ha)
  exact key ss [] [] ⟨by simp, by simp, by simp⟩ g.main h

/-! ### Completeness -/

/-- Actions in bodies that can be verified: no static methods. -/
def NoStatic (p : Prog) : Act → Prop
  | .smeth _ _ => False
  | .new c => ∃ cd, p.classes[c]? = some cd
  | _ => True

/-- The guard of C127. -/
structure GuardC (p : Prog) (ss : List Stm) : Prop where
  funs : ∀ f b, p.funs f = some b → ∀ a ∈ b, NoStatic p a
  methods : ∀ cd ∈ p.classes, ∀ m b, cd.methods m = some b → ∀ a ∈ b, NoStatic p a
  classes : ∀ cd ∈ p.classes, Outer p cd.name
  main : ∀ as, (Stm.eval as ∈ ss ∨ ∃ x, Stm.assign x as ∈ ss) → ∀ c, Act.new c ∈ as → ∃ cd, p.classes[c]? = some cd

theorem finds_all {p : Prog} {P : Act → Prop} (hm : ∀ cd ∈ p.classes, ∀ m b, cd.methods m = some b → ∀ a ∈ b, P a)
    {m c b} (h : Finds p m c b) : ∀ a ∈ b, P a := by
  induction h with
  | own hc hb => exact hm _ (List.mem_of_getElem? hc) _ _ hb
  | up _ _ _ _ ih => exact ih

/-- What is recorded is really looked up. -/
theorem needs_defined {p : Prog} (w : WF p) {E D} (hA : Agree p E D)
    (hf : ∀ f b, p.funs f = some b → ∀ a ∈ b, NoStatic p a)
    (hm : ∀ cd ∈ p.classes, ∀ m b, cd.methods m = some b → ∀ a ∈ b, NoStatic p a)
    (hcl : ∀ cd ∈ p.classes, Outer p cd.name) {b cs r} (h : Needs p b cs r) : (∀ a ∈ b, NoStatic p a) →
    (∀ a ∈ b, ¬ Bad p D a) → (∀ c ∈ cs, Ref.single (className p c) ∈ E) → r ∈ E := by
  induction h with
  | @direct b a e r ha he hr =>
    intro hn hb _
    have hna := hn a ha
    have hba := hb a ha
    cases a with
    | read n =>
      simp [depsOf] at he; subst he; cases hr
      exact hA.to n (by by_cases h : n ∈ D; exact h; exact absurd (.read h) hba)
    | call f =>
      simp [depsOf] at he; subst he; cases hr
      exact hA.to f (by by_cases h : f ∈ D; exact h; exact absurd (.callName h) hba)
    | new c =>
      simp [depsOf] at he; subst he; cases hr
      obtain ⟨cd, hc⟩ := hna
      refine hA.to _ ?_
      by_cases h : className p c ∈ D
      · exact h
      · exact absurd (.newName (className_named hc) h) hba
    | meth c m => simp [depsOf] at he; obtain ⟨d, _, rfl⟩ := he; cases hr
    | smeth c m => exact hna.elim
    | implicit c m => simp [depsOf] at he
  | @step b a e cs r ha he _ ih =>
    intro hn hb hcs
    have hna := hn a ha
    have hba := hb a ha
    cases a with
    | read n => simp [depsOf] at he; subst he; exact ih (by simp) (by simp) (by simpa using hcs)
    | call f =>
      simp [depsOf] at he; subst he
      cases hfb : p.funs f with
      | none => simp only [hfb, Option.getD_none] at ih; exact ih (by simp) (by simp) (by simpa using hcs)
      | some b' =>
        simp only [hfb, Option.getD_some] at ih
        exact ih (hf f b' hfb) (fun a' ha' hbad => hba (.callBody hfb ha' hbad)) (by simpa using hcs)
    | new c => simp [depsOf] at he; subst he; exact ih (by simp) (by simp) (by simpa using hcs)
    | meth c m =>
      simp [depsOf] at he
      obtain ⟨d, hd, rfl⟩ := he
      have hsub := (mem_subclasses w).1 hd
      obtain ⟨cd, hdc⟩ := sub_known hsub
      have hdE := hcs d (by simp)
      have hdD : className p d ∈ D := by
        rcases hA.back _ hdE with h | ⟨cd', hcd', h⟩
        · exact h
        · have hname : className p d = cd.name := by simp [className, hdc]
          exact absurd h (hname ▸ hcl cd (List.mem_of_getElem? hdc) cd' hcd')
      cases hl : lookup p m (d + 1) d with
      | none =>
        simp only [hl, Option.getD_none] at ih
        exact ih (by simp) (by simp) (fun k hk => hcs k (by simp [hk]))
      | some b' =>
        simp only [hl, Option.getD_some] at ih
        have hfind := lookup_sound hl
        exact ih (finds_all hm hfind)
          (fun a' ha' hbad => hba (.meth hsub (className_named hdc) hdD hfind ha' hbad)) (fun k hk => hcs k (by simp [hk]))
    | smeth c m => exact hna.elim
    | implicit c m => simp [depsOf] at he

/-- C127 under the guard: no static method calls in bodies, no methods with names of classes. -/
theorem C127_partial {p : Prog} {ss : List Stm} (w : WF p) (g : GuardC p ss) (h : Safe p [] ss) : Verified p [] ss := by
  have key : ∀ (ss : List Stm) (E : List Ref) (D : List Nat), Agree p E D →
      (∀ as, (Stm.eval as ∈ ss ∨ ∃ x, Stm.assign x as ∈ ss) → ∀ c, Act.new c ∈ as → ∃ cd, p.classes[c]? = some cd) →
      Safe p D ss → Verified p E ss := by
    intro ss
    induction ss with
    | nil => intro E D _ _ _; trivial
    | cons s r ih =>
      intro E D hA hmain hv
      have hr : ∀ as, (Stm.eval as ∈ r ∨ ∃ x, Stm.assign x as ∈ r) → ∀ c, Act.new c ∈ as → ∃ cd, p.classes[c]? = some cd := by
        intro as ha
        apply hmain
        rcases ha with ha | ⟨x, ha⟩
        · exact .inl (by simp [ha])
        · exact .inr ⟨x, by simp [ha]⟩
      have hact : ∀ as : List Act, (∀ c, Act.new c ∈ as → ∃ cd, p.classes[c]? = some cd) → (∀ a ∈ as, ¬ Bad p D a) →
          ∀ a ∈ as, checkAct p E a := by
        intro as hk hb a ha
        have hba := hb a ha
        cases a with
        | read n => exact hA.to n (by by_cases h : n ∈ D; exact h; exact absurd (.read h) hba)
        | call f =>
          refine ⟨hA.to f (by by_cases h : f ∈ D; exact h; exact absurd (.callName h) hba), ?_⟩
          cases hfb : p.funs f with
          | none => exact fun cs r hn hc => needs_defined w hA g.funs g.methods g.classes hn (by simp) (by simp) hc
          | some b =>
            exact fun cs r hn hc => needs_defined w hA g.funs g.methods g.classes hn (g.funs f b hfb)
              (fun a' ha' hbad => hba (.callBody hfb ha' hbad)) hc
        | new c =>
          obtain ⟨cd, hcd⟩ := hk c ha
          refine ⟨hA.to _ (by
            by_cases h : className p c ∈ D
            · exact h
            · exact absurd (.newName (className_named hcd) h) hba), ?_⟩
          cases hl : lookup p initName (c + 1) c with
          | none => exact fun cs r hn hc => needs_defined w hA g.funs g.methods g.classes hn (by simp) (by simp) hc
          | some b =>
            exact fun cs r hn hc => needs_defined w hA g.funs g.methods g.classes hn (finds_all g.methods (lookup_sound hl))
              (fun a' ha' hbad => hba (.newBody (lookup_sound hl) ha' hbad)) hc
        | meth c m => trivial
        | smeth c m => trivial
        | implicit c m => trivial
      cases s with
      | def_ f => exact ih _ _ (hA.cons f) hr hv
      | cls c =>
        intro cd hc
        obtain ⟨h1, h2⟩ := hv cd hc
        refine ⟨?_, ih _ _ (hA.cls hc) hr h2⟩
        intro d hs
        have hd : d < p.classes.length := by
          have := w c cd d hc hs
          have := (List.getElem?_eq_some_iff.1 hc).1
          omega
        exact hA.to _ (h1 d _ hs (className_named (List.getElem?_eq_getElem hd)))
      | assign x as => exact ⟨hact as (hmain as (.inr ⟨x, by simp⟩)) hv.1, ih _ _ (hA.cons x) hr hv.2⟩
      | eval as => exact ⟨hact as (hmain as (.inl (by simp))) hv.1, ih _ _ hA hr hv.2⟩
  exact key ss [] [] ⟨by simp, by simp, by simp⟩ g.main h

/-! ### Counterexamples -/

theorem needs_nil {p cs r} : ¬ Needs p [] cs r := by
  intro h
  cases h with
  | direct h _ _ => simp at h
  | step h _ _ => simp at h

theorem passes_nil {p E} : Passes p E [] := fun _ _ h => absurd h needs_nil

/-- A body with one action whose dependencies have no body. -/
theorem passes_one {p : Prog} {E a e} (hd : depsOf p a = [e]) (hb : e.body = []) (hr : ∀ r, e.ref = some r → r ∈ E) :
    Passes p E [a] := by
  intro cs r h _
  cases h with
  | direct ha he hr' => simp at ha; subst ha; rw [hd] at he; simp at he; subst he; exact hr _ hr'
  | step ha he h => simp at ha; subst ha; rw [hd] at he; simp at he; subst he; rw [hb] at h; exact absurd h needs_nil

/-- `class A: def foo(self): return g()` (`A` is 1, `foo` 2, `g` 3). -/
abbrev progM : Prog where
  funs f := if f = 3 then some [] else none
  classes := [⟨1, none, fun m => if m = 2 then some [.call 3] else none, [2]⟩]

theorem progM_wf : WF progM := by
  intro c cd d hc hs
  rcases c with _ | c <;> simp at hc
  subst hc; simp at hs

theorem progM_finds : Finds progM 2 0 [.call 3] := .own (cd := progM.classes[0]) rfl rfl

/-- C126 fails for methods: `a = A()`, `a.foo()`, and then `def g()`. -/
theorem C126_method_fails : ¬ C126_claim := by
  intro h
  have := h progM [.cls 0, .assign 4 [.new 0], .eval [.meth 0 2], .def_ 3] progM_wf (by simp [Exists])
    (by simp [Direct, DirectAct, Named])
    (by simp [Verified, checkAct, className, lookup, initName, passes_nil])
  simp only [Safe] at this
  obtain ⟨_, _, h2, _⟩ := this progM.classes[0] rfl
  exact h2 (.meth 0 2) (by simp) (.meth (.refl (cd := progM.classes[0]) rfl) (n := 1) ⟨progM.classes[0], rfl, rfl⟩ (by simp)
    progM_finds (a := .call 3) (by simp) (.callName (by simp)))

/-- C126 fails for static methods: `A.foo()`, and then `def g()`. -/
theorem C126_static_fails : ¬ C126_claim := by
  intro h
  have := h progM [.cls 0, .eval [.smeth 0 2], .def_ 3] progM_wf (by simp [Exists])
    (by simp [Direct, DirectAct, Named])
    (by simp [Verified, checkAct])
  simp only [Safe] at this
  obtain ⟨_, h2, _⟩ := this progM.classes[0] rfl
  exact h2 (.smeth 0 2) (by simp) (.smethBody progM_finds (a := .call 3) (by simp) (.callName (by simp)))

/-- C126 fails for implicit calls: `a = A()`, an operator that calls the method, and then `def g()`. -/
theorem C126_implicit_fails : ¬ C126_claim := by
  intro h
  have := h progM [.cls 0, .assign 4 [.new 0], .eval [.implicit 0 2], .def_ 3] progM_wf (by simp [Exists])
    (by simp [Direct, DirectAct, Named])
    (by simp [Verified, checkAct, className, lookup, initName, passes_nil])
  simp only [Safe] at this
  obtain ⟨_, _, h2, _⟩ := this progM.classes[0] rfl
  exact h2 (.implicit 0 2) (by simp) (.implicit (.refl (cd := progM.classes[0]) rfl) (n := 1) ⟨progM.classes[0], rfl, rfl⟩
    (by simp) progM_finds (a := .call 3) (by simp) (.callName (by simp)))

/-- `class A: def __init__(self): g()` and `def f(): return A()` (`A` is 1, `g` 3, `f` 5). -/
abbrev progN : Prog where
  funs f := if f = 3 then some [] else if f = 5 then some [.new 0] else none
  classes := [⟨1, none, fun m => if m = 0 then some [.call 3] else none, [0]⟩]

theorem progN_wf : WF progN := by
  intro c cd d hc hs
  rcases c with _ | c <;> simp at hc
  subst hc; simp at hs

/-- C126 fails for constructors that functions call: `f()`, and then `def g()`. -/
theorem C126_constructor_fails : ¬ C126_claim := by
  intro h
  have := h progN [.cls 0, .def_ 5, .eval [.call 5], .def_ 3] progN_wf (by simp [Exists])
    (by simp [Direct, DirectAct, Named])
    (by
      simp only [Verified]
      intro cd hc
      simp at hc; subst hc
      refine ⟨by simp, ?_, trivial⟩
      intro a ha
      simp at ha; subst ha
      refine ⟨by simp, ?_⟩
      exact passes_one (a := .new 0) (e := ⟨some (.single 1), [], []⟩) rfl rfl (by intro r hr; simp at hr; subst hr; simp))
  simp only [Safe] at this
  obtain ⟨_, h2, _⟩ := this progN.classes[0] rfl
  exact h2 (.call 5) (by simp) (.callBody (b := [.new 0]) rfl (a := .new 0) (by simp)
    (.newBody (.own (cd := progN.classes[0]) (b := [.call 3]) rfl rfl) (a := .call 3) (by simp) (.callName (by simp))))

/-- `class A: def foo(self): ...`, `def f(): return foo()` (`A` is 1, `foo` 2, `f` 5). -/
abbrev progS : Prog where
  funs f := if f = 2 then some [] else if f = 5 then some [.call 2] else none
  classes := [⟨1, none, fun m => if m = 2 then some [] else none, [2]⟩]

theorem progS_wf : WF progS := by
  intro c cd d hc hs
  rcases c with _ | c <;> simp at hc
  subst hc; simp at hs

/-- C126 fails for functions named like a method: `f()`, and then `def foo()`. -/
theorem C126_shadow_fails : ¬ C126_claim := by
  intro h
  have := h progS [.def_ 5, .cls 0, .eval [.call 5], .def_ 2] progS_wf (by simp [Exists])
    (by simp [Direct, DirectAct])
    (by
      simp only [Verified]
      intro cd hc
      simp at hc; subst hc
      refine ⟨by simp, ?_, trivial⟩
      intro a ha
      simp at ha; subst ha
      refine ⟨by simp, ?_⟩
      exact passes_one (a := .call 2) (e := ⟨some (.single 2), [], []⟩) rfl rfl (by intro r hr; simp at hr; subst hr; simp))
  simp only [Safe] at this
  obtain ⟨_, h2, _⟩ := this progS.classes[0] rfl
  exact h2 (.call 5) (by simp) (.callBody (b := [.call 2]) rfl (a := .call 2) (by simp) (.callName (by simp)))

/-- `class A: @staticmethod def foo(): ...` and `def f(): return A.foo()` (`A` is 1, `foo` 2, `f` 5). -/
abbrev progT : Prog where
  funs f := if f = 5 then some [.smeth 0 2] else none
  classes := [⟨1, none, fun m => if m = 2 then some [] else none, [2]⟩]

theorem progT_wf : WF progT := by
  intro c cd d hc hs
  rcases c with _ | c <;> simp at hc
  subst hc; simp at hs

theorem progT_safe : Safe progT [] [.cls 0, .def_ 5, .eval [.call 5]] := by
  simp only [Safe]
  intro cd hc
  simp at hc; subst hc
  refine ⟨by simp, ?_, trivial⟩
  intro a ha hbad
  simp at ha; subst ha
  cases hbad with
  | callName h => simp at h
  | callBody hb ha hbad =>
    simp at hb; subst hb
    simp at ha; subst ha
    cases hbad with
    | smethName hn h => obtain ⟨cd, hc, rfl⟩ := hn; simp at hc; subst hc; simp at h
    | smethBody hf ha _ =>
      cases hf with
      | own hc hm => simp at hc; subst hc; simp at hm; subst hm; simp at ha
      | up hc hm hs _ => simp at hc; subst hc; simp at hs

/-- C127 fails for functions that call static methods: `f()` is rejected wherever it is called. -/
theorem C127_static_fails : ¬ C127_claim := by
  intro h
  have hv := h progT _ progT_wf (by simp [Exists]) (by simp [Direct, DirectAct]) progT_safe
  simp only [Verified] at hv
  obtain ⟨_, h2, _⟩ := hv progT.classes[0] rfl
  have h3 := (h2 (.call 5) (by simp)).2 [] (.comb 1 2)
    (.direct (a := .smeth 0 2) (e := ⟨some (.comb 1 2), [], []⟩) (by simp) (by simp [depsOf, className, lookup]) rfl) (by simp)
  simp at h3

/-! ### Cases that meet the hypotheses -/

/-- `class A: def foo(self): return x`, `def f(a: A): a.foo(); g(a)`, `def g(a: A): f(a)` (`A` is 1, `foo` 2, `f` 5, `g` 6,
`x` 9): mutually recursive functions that call a method which reads a global variable. -/
abbrev progE : Prog where
  funs f := if f = 5 then some [.meth 0 2, .call 6] else if f = 6 then some [.call 5] else none
  classes := [⟨1, none, fun m => if m = 2 then some [.read 9] else none, [2]⟩]

/-- The functions are called before the class exists, and again when class and variable exist. -/
abbrev stmsE : List Stm := [.def_ 5, .def_ 6, .eval [.call 5], .cls 0, .assign 9 [.new 0], .eval [.call 5]]

theorem progE_wf : WF progE := by
  intro c cd d hc hs
  rcases c with _ | c <;> simp at hc
  subst hc; simp at hs

theorem progE_finds {m b} (h : Finds progE m 0 b) : m = 2 ∧ b = [.read 9] := by
  cases h with
  | own hc hm =>
    simp at hc; subst hc
    simp at hm
    exact ⟨hm.1, hm.2.symm⟩
  | up hc _ hs _ => simp at hc; subst hc; simp at hs

theorem progE_ok {D : List Nat} (h5 : 5 ∈ D) (h6 : 6 ∈ D) (h9 : 1 ∈ D → 9 ∈ D) {a} (h : Bad progE D a) :
    ¬ (a = .call 5 ∨ a = .call 6 ∨ a = .meth 0 2 ∨ (a = .read 9 ∧ 9 ∈ D)) := by
  induction h with
  | read hn => rintro (h | h | h | ⟨h, h'⟩) <;> cases h; exact hn h'
  | callName hn => rintro (h | h | h | ⟨h, h'⟩) <;> cases h; exact hn h5; exact hn h6
  | callBody hb ha _ ih =>
    rintro (h | h | h | ⟨h, h'⟩) <;> cases h
    · simp at hb; subst hb
      simp at ha
      rcases ha with rfl | rfl <;> simp at ih
    · simp at hb; subst hb
      simp at ha
      subst ha; simp at ih
  | newName _ _ => rintro (h | h | h | ⟨h, h'⟩) <;> cases h
  | newBody _ _ _ _ => rintro (h | h | h | ⟨h, h'⟩) <;> cases h
  | @meth c d m n b a hs hn hD hf ha _ ih =>
    rintro (h | h | h | ⟨h, h'⟩) <;> cases h
    obtain ⟨cd, hc, rfl⟩ := hn
    rcases d with _ | d <;> simp at hc
    subst hc
    obtain ⟨_, rfl⟩ := progE_finds hf
    simp at ha; subst ha
    exact ih (.inr (.inr (.inr ⟨rfl, h9 hD⟩)))
  | smethName _ _ => rintro (h | h | h | ⟨h, h'⟩) <;> cases h
  | smethBody _ _ _ _ => rintro (h | h | h | ⟨h, h'⟩) <;> cases h
  | implicit _ _ _ _ _ _ => rintro (h | h | h | ⟨h, h'⟩) <;> cases h

theorem progE_safe : Safe progE [] stmsE := by
  simp only [Safe]
  refine ⟨?_, ?_⟩
  · intro a ha hb; simp at ha; exact progE_ok (by simp) (by simp) (by simp) hb (.inl ha)
  · intro cd hc
    simp at hc; subst hc
    refine ⟨by simp, ?_, ?_, trivial⟩
    · intro a ha hb
      simp at ha; subst ha
      cases hb with
      | newName hn h => obtain ⟨cd, hc, rfl⟩ := hn; simp at hc; subst hc; simp at h
      | newBody hf _ _ => simpa [initName] using (progE_finds hf).1
    · intro a ha hb; simp at ha; exact progE_ok (by simp) (by simp) (by simp) hb (.inl ha)

theorem progE_guardC : GuardC progE stmsE where
  funs f b hb a ha := by
    by_cases h5 : f = 5
    · simp [h5] at hb; subst hb; simp at ha; rcases ha with rfl | rfl <;> trivial
    · by_cases h6 : f = 6
      · simp [h6] at hb; subst hb; simp at ha; subst ha; trivial
      · simp [h5, h6] at hb
  methods cd hc m b hb a ha := by
    simp at hc; subst hc; simp at hb; obtain ⟨_, rfl⟩ := hb; simp at ha; subst ha; trivial
  classes cd hc := by simp at hc; subst hc; intro cd' hc'; simp at hc'; subst hc'; simp
  main as ha c hc := by
    simp at ha
    rcases ha with rfl | rfl <;> simp at hc
    subst hc; exact ⟨_, rfl⟩

theorem progE_guard : Guard progE stmsE where
  funs f b hb a ha := by
    by_cases h5 : f = 5
    · simp [h5] at hb; subst hb; simp at ha; rcases ha with rfl | rfl
      · trivial
      · intro cd hc; simp at hc; subst hc; simp
    · by_cases h6 : f = 6
      · simp [h6] at hb; subst hb; simp at ha; subst ha; intro cd hc; simp at hc; subst hc; simp
      · simp [h5, h6] at hb
  methods cd hc m b hb a ha := by
    simp at hc; subst hc; simp at hb; obtain ⟨_, rfl⟩ := hb; simp at ha; subst ha
    intro cd hc; simp at hc; subst hc; simp
  classes cd hc := by simp at hc; subst hc; intro cd' hc'; simp at hc'; subst hc'; simp
  main as ha a hc := by
    simp at ha
    rcases ha with rfl | rfl <;> simp at hc <;> subst hc
    · intro cd hc; simp at hc; subst hc; simp
    · trivial

/-- The module is verified ... -/
theorem progE_verified : Verified progE [] stmsE := C127_partial progE_wf progE_guardC progE_safe

/-- ... and meets the hypotheses of `C126_partial`. -/
example : WF progE ∧ Guard progE stmsE ∧ Verified progE [] stmsE ∧ Safe progE [] stmsE :=
  ⟨progE_wf, progE_guard, progE_verified, C126_partial progE_wf progE_guard progE_verified⟩

/-- Without the variable, the second call is rejected. -/
example : ¬ Verified progE [] [.def_ 5, .def_ 6, .cls 0, .eval [.call 5]] := by
  intro h
  simp only [Verified] at h
  obtain ⟨_, h2, _⟩ := h progE.classes[0] rfl
  have h3 := (h2 (.call 5) (by simp)).2 ([0] ++ []) (.single 9)
    (.step (a := .meth 0 2) (e := ⟨none, [.read 9], [0]⟩) (by simp)
      (by simp [depsOf, subclasses, isSub, List.range, List.range.loop, lookup])
      (.direct (a := .read 9) (e := ⟨some (.single 9), [], []⟩) (by simp) (by simp [depsOf]) rfl))
    (by simp [className])
  simp at h3

end Nagini.GlobalNames
