import Verif.Lemmas.Coverage

/-!
C124: everything that has to be checked is given to Viper.  C125: what is selected is checked, and nothing else.
-/
set_option linter.unusedVariables false
namespace Nagini.Coverage

/-- C124, full claim: what has to be checked is checked when one of the modules is verified. -/
def C124_claim : Prop := ∀ p, WF p → ∀ o, Need p o → ∃ M ∈ p.mods, Checked p [] M o

/-- What is checked when one module is verified: all that is read, except that bodies of methods (not of functions,
getters and predicates) and inherited methods have to be in the module itself, and that the code of the module is
checked only if nothing is called `main`. -/
def Covered (p : Program) (M : Nat) : Obl → Prop
  | .body i => ∃ m, p.members[i]? = some m ∧ (m.mod = M ∨ m.kind = .function ∨ m.kind = .getter ∨ m.kind = .predicate)
  | .inherit _ i => ∃ m, p.members[i]? = some m ∧ m.mod = M
  | .override _ => True
  | .code _ => ¬ UsesMain p M

private theorem requests_main {p : Program} (w : WF p) (M : Nat) :
    (mainStr ∈ p.reserved ∨ mainStr ∈ (memberRequests p M ++ checkRequests p [] M).map Prod.snd) ↔ UsesMain p M := by
  have hu : (95 : Nat) ∉ mainStr := main_underscore
  constructor
  · rintro (h | h)
    · exact .inl h
    · simp only [memberRequests, checkRequests, List.map_append, List.map_map, List.mem_append, List.mem_map,
        Function.comp] at h
      rcases h with ((⟨c, hc, h⟩ | ⟨i, hi, h⟩) | ⟨n, hn, h⟩) | (⟨i, hi, h⟩ | ⟨q, hq, h⟩)
      · obtain ⟨cd, hcd, hl⟩ := loadedClasses_iff.1 hc
        simp only [hcd, Option.map_some, Option.getD_some] at h
        exact .inr (.inl ⟨cd, List.mem_of_getElem? hcd, hl, h⟩)
      · obtain ⟨m, hm, hl⟩ := loadedMembers_iff.1 hi
        simp only [hm, Option.map_some, Option.getD_some] at h
        have hmm := List.mem_of_getElem? hm
        cases hc : m.cls with
        | none =>
          refine .inr (.inr (.inl ⟨m, hmm, hl, hc, ?_⟩))
          simpa [baseName, hc, mainStr] using h
        | some c =>
          obtain ⟨cd, hcd, _⟩ := w.cmod m hmm c hc
          exfalso; apply hu; rw [← h]
          simp [baseName, hc, hcd]
      · simp only [List.mem_flatMap] at hn
        obtain ⟨d, hd, hn⟩ := hn
        have hn' : mainStr ∈ p.others d := (show n = mainStr from h) ▸ hn
        exact .inr (.inr (.inr ⟨d, hd, hn'⟩))
      · exfalso; apply hu; rw [← h]; simp
      · exfalso; apply hu; rw [← h]; simp
  · rintro (h | ⟨cd, hcd, hl, hn⟩ | ⟨m, hmm, hl, hc, hn⟩ | ⟨d, hd, hn⟩)
    · exact .inl h
    all_goals right; simp only [memberRequests, List.map_append, List.map_map, List.mem_append, List.mem_map,
      Function.comp]
    · obtain ⟨c, hc⟩ := List.getElem?_of_mem hcd
      exact .inl (.inl (.inl ⟨c, loadedClasses_iff.2 ⟨cd, hc, hl⟩, by simp [hc, hn, mainStr]⟩))
    · obtain ⟨i, hi⟩ := List.getElem?_of_mem hmm
      exact .inl (.inl (.inr ⟨i, loadedMembers_iff.2 ⟨m, hi, hl⟩, by simp [hi, baseName, hc, hn, mainStr]⟩))
    · exact .inl (.inr ⟨mainStr, List.mem_flatMap.2 ⟨d, hd, hn⟩, rfl⟩)

private theorem contractOnly_all {p M m} : contractOnly p [] M m = false ↔
    m.declOnly = false ∧ (m.mod = M ∨ m.kind = .function ∨ m.kind = .getter ∨ m.kind = .predicate) := by
  unfold contractOnly
  cases m.kind <;> simp [and_comm]

private theorem contractOnly_sel {p sel M i m} (hs : sel ≠ []) (hm : p.members[i]? = some m) (h : MemberSelected p sel i) :
    contractOnly p sel M m = false ↔ m.declOnly = false := by
  have he : sel.isEmpty = false := by cases sel <;> simp_all
  have := (isSelected_iff hm).2 h
  unfold contractOnly
  cases m.kind <;> simp [this, he]

private theorem contractOnly_decl {p sel M m} (h : contractOnly p sel M m = false) : m.declOnly = false := by
  unfold contractOnly at h
  cases hk : m.kind <;> simp [hk] at h <;> simp [h]

/-- C124, exact: what is checked when a module is verified.  Missing from the claim: methods inherited from a class
of another module are never checked for the class that inherits them, and module code is not checked if something is
called `main`. -/
theorem C124_partial {p : Program} (w : WF p) (M : Nat) (o : Obl) (hM : M ∈ p.mods) :
    Checked p [] M o ↔ Need p o ∧ Loaded p M o ∧ Covered p M o := by
  rw [checked_all]
  constructor
  · rintro ⟨k, hg, hk⟩
    rcases generated_iff.1 hg with ⟨i, m, rfl, rfl, hm, hl, h1, h2⟩ | ⟨i, rfl, rfl, h⟩ | ⟨c, i, rfl, rfl, h⟩ | ⟨rfl, rfl⟩
    · rw [contractOnly_all] at h2
      exact ⟨⟨m, hm, h2.1, h1⟩, ⟨m, hm, hl⟩, m, hm, h2.2⟩
    · have := (overrideChecks_iff w).1 h
      exact ⟨this.1, this.2, trivial⟩
    · obtain ⟨hl, m, hm, h1, h2, h3, h4, h5⟩ := (inheritChecks_iff w).1 h
      obtain ⟨_, cd, _, hcd, _⟩ := id hl
      rw [contractOnly_all] at h5
      refine ⟨⟨m, cd, hm, hcd, h1, h2, h5.1, h3, h4⟩, hl, m, hm, ?_⟩
      rcases h5.2 with h | h | h | h
      · exact h
      all_goals rw [h1] at h; cases h
    · refine ⟨hM, rfl, ?_⟩
      rcases hk with hk | hk
      · exact absurd hk main_not_all
      · have := (main_name p [] M).1 hk
        intro hu
        rcases (requests_main w M).2 hu with h | h
        · exact this.1 h
        · exact this.2 h
  · rintro ⟨hn, hl, hc⟩
    cases o with
    | body i =>
      obtain ⟨m, hm, h1, h2⟩ := hn
      obtain ⟨m', hm', hl⟩ := hl
      obtain ⟨m'', hm'', hc⟩ := hc
      cases hm.symm.trans hm'; cases hm.symm.trans hm''
      refine ⟨.mem i, generated_iff.2 (.inl ⟨i, m, rfl, rfl, hm, hl, h2, contractOnly_all.2 ⟨h1, hc⟩⟩), .inl ?_⟩
      simp only [allKeys, List.mem_append, List.mem_map]
      exact .inl (.inl (.inr ⟨i, loadedMembers_iff.2 ⟨m, hm, hl⟩, rfl⟩))
    | override i =>
      have hi := (overrideChecks_iff w).2 ⟨hn, hl⟩
      refine ⟨.ovr i, generated_iff.2 (.inr (.inl ⟨i, rfl, rfl, hi⟩)), .inl ?_⟩
      simp only [allKeys, List.mem_append, List.mem_map]
      exact .inl (.inr ⟨i, hi, rfl⟩)
    | inherit c i =>
      obtain ⟨m, cd, hm, hcd, h1, h2, h3, h4, h5⟩ := hn
      obtain ⟨m'', hm'', hc⟩ := hc
      cases hm.symm.trans hm''
      have hi := (inheritChecks_iff (sel := []) w).2 ⟨hl, m, hm, h1, h2, h4, h5, contractOnly_all.2 ⟨h3, .inl hc⟩⟩
      refine ⟨.inh c i, generated_iff.2 (.inr (.inr (.inl ⟨c, i, rfl, rfl, hi⟩))), .inl ?_⟩
      simp only [allKeys, List.mem_append, List.mem_map]
      exact .inr ⟨(c, i), hi, rfl⟩
    | code m =>
      cases hl
      refine ⟨.main, generated_iff.2 (.inr (.inr (.inr ⟨rfl, rfl⟩))), .inr ?_⟩
      rw [main_name]
      exact ⟨fun h => hc ((requests_main w _).1 (.inl h)), fun h => hc ((requests_main w _).1 (.inr h))⟩

/-- The part of C124 that holds: bodies and overriding methods are checked with their module, inherited methods if the
class is read there, and the code of modules in which nothing is called `main`. -/
theorem C124_own_partial {p : Program} (w : WF p) (o : Obl) (hn : Need p o)
    (hi : ∀ c i m, o = .inherit c i → p.members[i]? = some m → Loaded p m.mod (.inherit c i))
    (hc : ∀ M, o = .code M → ¬ UsesMain p M) : ∃ M ∈ p.mods, Checked p [] M o := by
  cases o with
  | body i =>
    obtain ⟨m, hm, h1, h2⟩ := id hn
    have hmm := w.mem m (List.mem_of_getElem? hm)
    exact ⟨m.mod, hmm, (C124_partial w _ _ hmm).2 ⟨hn, ⟨m, hm, w.self _ hmm⟩, m, hm, .inl rfl⟩⟩
  | override i =>
    obtain ⟨m, _, _, _, _, hm, _⟩ := id hn
    have hmm := w.mem m (List.mem_of_getElem? hm)
    exact ⟨m.mod, hmm, (C124_partial w _ _ hmm).2 ⟨hn, ⟨m, hm, w.self _ hmm⟩, trivial⟩⟩
  | inherit c i =>
    obtain ⟨m, _, hm, _⟩ := id hn
    have hmm := w.mem m (List.mem_of_getElem? hm)
    exact ⟨m.mod, hmm, (C124_partial w _ _ hmm).2 ⟨hn, hi c i m rfl hm, m, hm, rfl⟩⟩
  | code M => exact ⟨M, hn, (C124_partial w _ _ hn).2 ⟨hn, rfl, hc M rfl⟩⟩

/-- Module 0: `class A: def foo(self): ...` (class 0, member 0).  Module 1 imports it: `class B(A): def bar(self): ...`
(class 1, member 1), `class C(B): def bar(self): ...` (class 2, member 2), and a function with a parameter `main` in
module 2. -/
abbrev twoModules : Program where
  mods := [0, 1, 2]
  classes := [⟨[65], 0, none⟩, ⟨[66], 1, some 0⟩, ⟨[67], 1, some 1⟩]
  members := [⟨.method, [102], some 0, 0, false, false⟩, ⟨.method, [98], some 1, 1, false, false⟩,
    ⟨.method, [98], some 2, 1, false, false⟩, ⟨.getter, [112], some 1, 1, false, false⟩]
  loaded := fun M => if M = 1 then [0, 1] else [M]
  others := fun M => if M = 2 then [[109, 97, 105, 110]] else []
  reserved := []

private theorem twoModules_own {c n i} (h : Own twoModules c n i) :
    (c = 0 ∧ n = [102] ∧ i = 0) ∨ (c = 1 ∧ n = [98] ∧ i = 1) ∨ (c = 2 ∧ n = [98] ∧ i = 2) := by
  obtain ⟨m, hm, hc, hn, hk⟩ := h
  match i, hm with
  | 0, hm => cases hm; cases hc; exact .inl ⟨rfl, hn.symm, rfl⟩
  | 1, hm => cases hm; cases hc; exact .inr (.inl ⟨rfl, hn.symm, rfl⟩)
  | 2, hm => cases hm; cases hc; exact .inr (.inr ⟨rfl, hn.symm, rfl⟩)
  | 3, hm => cases hm; simp at hk
  | i + 4, hm => simp at hm

theorem twoModules_wf : WF twoModules where
  self := by decide
  mem := by decide
  cmod := by
    intro m hm c hc
    simp only [List.mem_cons, List.not_mem_nil, or_false] at hm
    rcases hm with rfl | rfl | rfl | rfl <;> cases hc
    · exact ⟨⟨[65], 0, none⟩, rfl, rfl⟩
    · exact ⟨⟨[66], 1, some 0⟩, rfl, rfl⟩
    · exact ⟨⟨[67], 1, some 1⟩, rfl, rfl⟩
    · exact ⟨⟨[66], 1, some 0⟩, rfl, rfl⟩
  sup := by
    intro c cd d h hs
    match c, h with
    | 0, h => cases h; cases hs
    | 1, h => cases h; cases hs; decide
    | 2, h => cases h; cases hs; decide
    | c + 3, h => simp at h
  once := by
    intro c n i j hi hj
    rcases twoModules_own hi with ⟨rfl, rfl, rfl⟩ | ⟨rfl, rfl, rfl⟩ | ⟨rfl, rfl, rfl⟩ <;>
      rcases twoModules_own hj with ⟨h1, h2, rfl⟩ | ⟨h1, h2, rfl⟩ | ⟨h1, h2, rfl⟩ <;> first | rfl | (cases h1)
  static := by decide

private theorem own0 : Own twoModules 0 [102] 0 := ⟨_, rfl, rfl, rfl, .inl rfl⟩

private theorem own1 : Own twoModules 1 [98] 1 := ⟨_, rfl, rfl, rfl, .inl rfl⟩

private theorem finds10 : Finds twoModules [102] 1 0 :=
  .up (fun j h => by rcases twoModules_own h with ⟨h, _⟩ | ⟨_, h, _⟩ | ⟨h, _⟩ <;> cases h) rfl rfl (.own own0)

/-- Class B has to be checked for the method it inherits from the imported class A. -/
theorem twoModules_need : Need twoModules (.inherit 1 0) :=
  ⟨_, _, rfl, rfl, rfl, (by decide), rfl, (by decide), finds10⟩

/-- The claim fails: a method inherited from an imported class is not checked for the inheriting class, in the run of
any module. -/
theorem C124_inherit_fails : ¬ C124_claim := by
  intro h
  obtain ⟨M, hM, hc⟩ := h twoModules twoModules_wf _ twoModules_need
  obtain ⟨_, ⟨_, cd, _, hcd, _, hl⟩, m, hm, hmod⟩ := (C124_partial twoModules_wf M _ hM).1 hc
  cases hm; cases hcd
  subst hmod
  simp at hl

/-- The claim also fails for the code of a module in which a parameter is called `main`. -/
theorem C124_main_fails : WF twoModules ∧ Need twoModules (.code 2) ∧ ∀ M ∈ twoModules.mods, ¬ Checked twoModules [] M (.code 2) := by
  refine ⟨twoModules_wf, by simp [Need], ?_⟩
  intro M hM hc
  obtain ⟨_, rfl, hu⟩ := (C124_partial twoModules_wf M _ hM).1 hc
  exact hu (.inr (.inr (.inr ⟨2, by simp, by simp⟩)))

/-- C124 applies: bodies, an overriding method and the code of module 1 are checked. -/
example : Checked twoModules [] 1 (.body 2) ∧ Checked twoModules [] 1 (.override 2) ∧ Checked twoModules [] 1 (.code 1) := by
  refine ⟨(C124_partial twoModules_wf 1 _ (by simp)).2 ⟨⟨_, rfl, rfl, rfl⟩, ⟨_, rfl, by simp⟩, _, rfl, .inl rfl⟩,
    (C124_partial twoModules_wf 1 _ (by simp)).2 ⟨⟨_, 2, _, 1, 1, rfl, rfl, rfl, rfl, .inl rfl, by decide, rfl, .own own1⟩,
      ⟨_, rfl, by simp⟩, trivial⟩,
    (C124_partial twoModules_wf 1 _ (by simp)).2 ⟨by simp [Need], rfl, ?_⟩⟩
  rintro (h | ⟨cd, h, _, hn⟩ | ⟨m, h, _, hn, _⟩ | ⟨d, hd, h⟩)
  · simp at h
  · simp at h; rcases h with rfl | rfl | rfl <;> simp at hn
  · simp at h; rcases h with rfl | rfl | rfl | rfl <;> simp at hn
  · simp at hd; rcases hd with rfl | rfl <;> simp at h

/-! ### C125 -/

/-- C125, full claim: with a selection, exactly what is selected, read and has to be checked is checked. -/
def C125_claim : Prop := ∀ p, WF p → ∀ sel, sel ≠ [] → ∀ M ∈ p.mods, ∀ o,
  Checked p sel M o ↔ Need p o ∧ Loaded p M o ∧ Selected p sel o

/-- What is left out although it is selected: properties, and methods that a selected class inherits from a class
that is not selected. -/
def Skipped (p : Program) (sel : List Str) : Obl → Prop
  | .body i => ∃ m, p.members[i]? = some m ∧ (m.kind = .getter ∨ m.kind = .setter)
  | .inherit _ i => ¬ MemberSelected p sel i
  | _ => False

/-- C125, exact: what is checked with a selection. -/
theorem C125_partial {p : Program} (w : WF p) (sel : List Str) (hs : sel ≠ []) (M : Nat) (hM : M ∈ p.mods) (o : Obl) :
    Checked p sel M o ↔ Need p o ∧ Loaded p M o ∧ Selected p sel o ∧ ¬ Skipped p sel o := by
  rw [checked_sel hs]
  constructor
  · rintro ⟨k, hg, hk⟩
    simp only [trackedKeys, List.mem_append, List.mem_map, List.mem_filter, loadedMembers_iff] at hk
    rcases generated_iff.1 hg with ⟨i, m, rfl, rfl, hm, hl, h1, h2⟩ | ⟨i, rfl, rfl, h⟩ | ⟨c, i, rfl, rfl, h⟩ | ⟨rfl, rfl⟩
    · have hk : m.kind ≠ .getter ∧ m.kind ≠ .setter ∧ isSelected p sel m = true := by
        rcases hk with ((⟨j, ⟨_, hj⟩, he⟩ | ⟨j, _, he⟩) | ⟨j, _, he⟩) | hk
        · cases he
          simp only [hm, Bool.and_eq_true, bne_iff_ne] at hj
          exact ⟨hj.1.1, hj.1.2, hj.2⟩
        · cases he
        · cases he
        · split at hk <;> simp at hk
      refine ⟨⟨m, hm, contractOnly_decl h2, h1⟩, ⟨m, hm, hl⟩, (isSelected_iff hm).1 hk.2.2, ?_⟩
      rintro ⟨m', hm', hg'⟩
      cases hm.symm.trans hm'
      rcases hg' with hg' | hg'
      · exact hk.1 hg'
      · exact hk.2.1 hg'
    · have hw := (overrideChecks_iff w).1 h
      refine ⟨hw.1, hw.2, ?_, id⟩
      obtain ⟨m, hm, _⟩ := hw.2
      rcases hk with ((⟨j, _, he⟩ | ⟨j, ⟨_, hj⟩, he⟩) | ⟨j, _, he⟩) | hk
      · cases he
      · cases he
        simp only [hm] at hj
        exact (isSelected_iff hm).1 hj
      · cases he
      · split at hk <;> simp at hk
    · obtain ⟨hl, m, hm, h1, h2, h3, h4, h5⟩ := (inheritChecks_iff w).1 h
      obtain ⟨_, cd, _, hcd, _⟩ := id hl
      have hsel : MemberSelected p sel i := by
        rcases hk with ((⟨j, _, he⟩ | ⟨j, _, he⟩) | ⟨q, ⟨_, hj⟩, he⟩) | hk
        · cases he
        · cases he
        · cases he
          simp only [hm] at hj
          exact (isSelected_iff hm).1 hj
        · split at hk <;> simp at hk
      exact ⟨⟨m, cd, hm, hcd, h1, h2, contractOnly_decl h5, h3, h4⟩, hl, .inl hsel, fun hn => hn hsel⟩
    · refine ⟨hM, rfl, ?_, id⟩
      rcases hk with ((⟨j, _, he⟩ | ⟨j, _, he⟩) | ⟨q, _, he⟩) | hk
      · cases he
      · cases he
      · cases he
      · split at hk
        · next h => exact (show dunderMain ∈ sel by simpa using h)
        · simp at hk
  · rintro ⟨hn, hl, hsel, hsk⟩
    cases o with
    | body i =>
      obtain ⟨m, hm, h1, h2⟩ := hn
      obtain ⟨m', hm', hl⟩ := hl
      cases hm.symm.trans hm'
      refine ⟨.mem i, generated_iff.2 (.inl ⟨i, m, rfl, rfl, hm, hl, h2, (contractOnly_sel hs hm hsel).2 h1⟩), ?_⟩
      simp only [trackedKeys, List.mem_append, List.mem_map, List.mem_filter, loadedMembers_iff]
      refine .inl (.inl (.inl ⟨i, ⟨⟨m, hm, hl⟩, ?_⟩, rfl⟩))
      simp only [hm, Bool.and_eq_true, bne_iff_ne]
      exact ⟨⟨fun h => hsk ⟨m, hm, .inl h⟩, fun h => hsk ⟨m, hm, .inr h⟩⟩, (isSelected_iff hm).2 hsel⟩
    | override i =>
      have hi := (overrideChecks_iff w).2 ⟨hn, hl⟩
      obtain ⟨m, hm, _⟩ := hl
      refine ⟨.ovr i, generated_iff.2 (.inr (.inl ⟨i, rfl, rfl, hi⟩)), ?_⟩
      simp only [trackedKeys, List.mem_append, List.mem_map, List.mem_filter]
      refine .inl (.inl (.inr ⟨i, ⟨hi, ?_⟩, rfl⟩))
      simp only [hm]
      exact (isSelected_iff hm).2 hsel
    | inherit c i =>
      obtain ⟨m, cd, hm, hcd, h1, h2, h3, h4, h5⟩ := hn
      have hms : MemberSelected p sel i := by
        by_cases h : MemberSelected p sel i
        · exact h
        · exact absurd h hsk
      have hi := (inheritChecks_iff w).2 ⟨hl, m, hm, h1, h2, h4, h5, (contractOnly_sel (M := M) hs hm hms).2 h3⟩
      refine ⟨.inh c i, generated_iff.2 (.inr (.inr (.inl ⟨c, i, rfl, rfl, hi⟩))), ?_⟩
      simp only [trackedKeys, List.mem_append, List.mem_map, List.mem_filter]
      refine .inl (.inr ⟨(c, i), ⟨hi, ?_⟩, rfl⟩)
      simp only [hm]
      exact (isSelected_iff hm).2 hms
    | code m =>
      cases hl
      refine ⟨.main, generated_iff.2 (.inr (.inr (.inr ⟨rfl, rfl⟩))), ?_⟩
      simp only [trackedKeys, List.mem_append]
      right
      rw [if_pos (by simpa using (show dunderMain ∈ sel from hsel))]
      simp

/-- The claim fails for a getter of a selected class. -/
theorem C125_property_fails : ¬ C125_claim := by
  intro h
  have hc := (h twoModules twoModules_wf [[66]] (by simp) 1 (by simp) (.body 3)).2
    ⟨⟨_, rfl, rfl, rfl⟩, ⟨_, rfl, by simp⟩, _, rfl, .inr ⟨1, _, rfl, rfl, .inl (by simp)⟩⟩
  exact ((C125_partial twoModules_wf _ (by simp) 1 (by simp) _).1 hc).2.2.2 ⟨_, rfl, .inl rfl⟩

/-- The claim also fails for a method that a selected class inherits. -/
theorem C125_inherit_fails : Need twoModules (.inherit 1 0) ∧ Loaded twoModules 1 (.inherit 1 0) ∧
    Selected twoModules [[66]] (.inherit 1 0) ∧ ¬ Checked twoModules [[66]] 1 (.inherit 1 0) := by
  refine ⟨twoModules_need, ⟨_, _, rfl, rfl, by simp, by simp⟩, .inr ⟨_, rfl, by simp⟩, ?_⟩
  intro hc
  refine ((C125_partial twoModules_wf _ (by simp) 1 (by simp) _).1 hc).2.2.2 ?_
  rintro ⟨m, hm, h | ⟨c, cd, h1, h2, h⟩⟩
  · cases hm; simp at h
  · cases hm; cases h1; cases h2; simp at h

/-- C125 applies: with `C.b` selected, the body and the override check are done; class A's method is not checked.
With `A` selected, the imported method is checked for class B too. -/
example : Checked twoModules [[67, 46, 98]] 1 (.body 2) ∧ Checked twoModules [[67, 46, 98]] 1 (.override 2) ∧
    ¬ Checked twoModules [[67, 46, 98]] 1 (.body 0) ∧ Checked twoModules [[65]] 1 (.inherit 1 0) := by
  have hsel : MemberSelected twoModules [[67, 46, 98]] 2 := ⟨_, rfl, .inr ⟨2, _, rfl, rfl, .inr (by simp)⟩⟩
  have hselA : MemberSelected twoModules [[65]] 0 := ⟨_, rfl, .inr ⟨0, _, rfl, rfl, .inl (by simp)⟩⟩
  refine ⟨(C125_partial twoModules_wf _ (by simp) 1 (by simp) _).2 ⟨⟨_, rfl, rfl, rfl⟩, ⟨_, rfl, by simp⟩, hsel, ?_⟩,
    (C125_partial twoModules_wf _ (by simp) 1 (by simp) _).2 ⟨⟨_, 2, _, 1, 1, rfl, rfl, rfl, rfl, .inl rfl, by decide, rfl,
      .own own1⟩, ⟨_, rfl, by simp⟩, hsel, id⟩, ?_,
    (C125_partial twoModules_wf _ (by simp) 1 (by simp) _).2 ⟨twoModules_need, ⟨_, _, rfl, rfl, by simp, by simp⟩,
      .inl hselA, fun h => h hselA⟩⟩
  · rintro ⟨m, hm, h | h⟩ <;> cases hm <;> cases h
  · intro hc
    obtain ⟨_, _, ⟨m, hm, h | ⟨c, cd, h1, h2, h⟩⟩, _⟩ := (C125_partial twoModules_wf _ (by simp) 1 (by simp) _).1 hc
    · cases hm; simp at h
    · cases hm; cases h1; cases h2; simp at h

end Nagini.Coverage
