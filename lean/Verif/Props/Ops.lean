import Verif.Lemmas.Ops

/-!
C29: the static type of a binary operation is the result type of the method that is called.
C56: that method is the one Python calls.
-/
set_option linter.unusedVariables false
namespace Nagini.Ops

open Classes

variable {H : Hier} {D : Members}

/-- Classes 1, 2(1), 3(2); all other numbers are classes without superclass. -/
def chain : Hier where
  sup := fun c => if c = 3 then some 2 else if c = 2 then some 1 else none
  depth := fun c => if c = 3 then 2 else if c = 2 then 1 else 0
  depth_lt := by
    intro c p h
    split at h
    · cases h; subst c; decide
    · split at h
      · cases h; subst c; decide
      · cases h

theorem chain_anc {c d : Nat} (h : Anc chain c d) : c = d ∨ c = 3 ∧ (d = 2 ∨ d = 1) ∨ c = 2 ∧ d = 1 := by
  induction h with
  | refl c => exact Or.inl rfl
  | @step c p d hs _ ih =>
    simp only [chain] at hs
    split at hs
    · cases hs; omega
    · split at hs
      · cases hs; omega
      · cases hs

theorem chain32 : Anc chain 3 2 := .step rfl (.refl 2)
theorem chain21 : Anc chain 2 1 := .step rfl (.refl 1)
theorem chain31 : Anc chain 3 1 := .step rfl chain21

/-- The method defined in class `c` itself is the nearest one. -/
theorem nearest_self {α : Type} {defs : Nat → Option α} {c : Nat} {x : α} (h : defs c = some x) :
    Nearest H defs c x :=
  ⟨c, .refl c, h, fun e h1 h2 hne => absurd (h2.antisymm h1) hne⟩

/-! ### C29 -/

/-- **C29** (full claim): the type computed for `a op b` is the result type of the method that the
translation calls. -/
def C29 : Prop :=
  ∀ (H : Hier) (D : Members), D.Wf → D.Unmixed H → ∀ (L R : Nat) (a b : Choice),
    typeChoice H D L R = some a → callChoice H D L R = some b → a.result = b.result

/-- Class 1 has `__add__(self, o: 2) -> 10`, class 4 has `__radd__(self, o: 1) -> 11`. -/
def both : Members where
  lfuncs := fun _ => none
  lmethods := fun c => if c = 1 then some ⟨1, [[1], [4]], 10, false⟩ else none
  rfuncs := fun _ => none
  rmethods := fun c => if c = 4 then some ⟨4, [[4], [1]], 11, false⟩ else none
  rother := fun _ => false

theorem both_wf : both.Wf where
  lf := by intro c m h; cases h
  rf := by intro c m h; cases h
  lm := by
    intro c m h
    simp only [both] at h
    split at h
    · subst c; cases h; exact ⟨rfl, _, rfl⟩
    · cases h
  rm := by
    intro c m h
    simp only [both] at h
    split at h
    · subst c; cases h; exact ⟨rfl, _, rfl⟩
    · cases h

theorem both_unmixed : both.Unmixed chain :=
  ⟨(fun c d _ f m h => by cases h.1), (fun c d _ f m h => by cases h.1)⟩

theorem both_left : compatible chain both.lfuncs both.lmethods 1 [1, 4] = some ⟨1, [[1], [4]], 10, false⟩ :=
  (compatible_iff both_unmixed.1 both_wf.lf both_wf.lm 1 1 4 (.refl 1) _).2
    ⟨nearest_self rfl, [1], [4], rfl, 4, by simp, .refl 4⟩

theorem both_right : compatible chain both.rfuncs both.rmethods 4 [4, 1] = some ⟨4, [[4], [1]], 11, false⟩ :=
  (compatible_iff both_unmixed.2 both_wf.rf both_wf.rm 4 4 1 (.refl 4) _).2
    ⟨nearest_self rfl, [4], [1], rfl, 1, by simp, .refl 1⟩

theorem both_call : callChoice chain both 1 4 = some (.left ⟨1, [[1], [4]], 10, false⟩) := by
  rw [callChoice_eq 1 4 (by decide), both_right, both_left]
  have hs : issubtype chain 4 1 = false := by
    rw [← Bool.not_eq_true, issubtype_iff]
    intro h
    have := chain_anc h
    omega
  have : rightFirst chain both 1 4 (some ⟨4, [[4], [1]], 11, false⟩) = none := by
    unfold rightFirst
    dsimp only
    simp [hs]
  rw [this]

/-- **C29 fails**: if the method of the left operand and the reflected method of the right operand
are both applicable, the left one is called and the type of the right one is used. -/
theorem C29_fails : ¬ C29 := by
  intro h
  have ht : typeChoice chain both 1 4 = some (.right ⟨4, [[4], [1]], 11, false⟩) := by
    rw [typeChoice_eq 1 4 (by decide), both_right]
  have := h chain both both_wf both_unmixed 1 4 _ _ ht both_call
  simp [Choice.result] at this

/-- **C29, exactly** (partial): typing and translation choose the same method if and only if it is
not the case that the operand classes differ, both methods are applicable and the reflected one has
no priority. -/
theorem C29_iff_partial (L R : Nat) :
    typeChoice H D L R = callChoice H D L R ↔
      ¬ (L ≠ R ∧ (compatible H D.lfuncs D.lmethods L [L, R]).isSome = true ∧
        ∃ m, compatible H D.rfuncs D.rmethods R [R, L] = some m ∧
          ¬ (Anc H R L ∧
            (overrides H D m = true ∨ compatible H D.rfuncs D.rmethods L [R, L] = none))) := by
  by_cases hne : L = R
  · subst hne
    exact ⟨fun _ h => h.1 rfl, fun _ => same_eq L⟩
  rw [typeChoice_eq L R hne, callChoice_eq L R hne]
  cases hr : compatible H D.rfuncs D.rmethods R [R, L] with
  | none =>
    simp only [rightFirst]
    cases compatible H D.lfuncs D.lmethods L [L, R] <;> simp
  | some m =>
    by_cases hp : Anc H R L ∧
        (overrides H D m = true ∨ compatible H D.rfuncs D.rmethods L [R, L] = none)
    · have hb : rightFirst H D L R (some m) = some m := by
        unfold rightFirst
        dsimp only
        rw [if_pos ((issubtype_iff R L).2 hp.1), if_pos]
        rcases hp.2 with h | h <;> simp [h]
      rw [hb]
      simp only [true_iff]
      rintro ⟨-, -, m', hm', hn⟩
      cases hm'
      exact hn hp
    · have hb : rightFirst H D L R (some m) = none := by
        unfold rightFirst
        dsimp only
        split
        · rename_i hs
          rw [if_neg]
          intro ho
          refine hp ⟨(issubtype_iff R L).1 hs, ?_⟩
          simpa [Bool.or_eq_true, Option.isNone_iff_eq_none] using ho
        · rfl
      rw [hb]
      cases hl : compatible H D.lfuncs D.lmethods L [L, R] with
      | none => simp
      | some ml =>
        simp only [Option.some.injEq, reduceCtorEq, false_iff, not_not]
        exact ⟨hne, rfl, m, rfl, hp⟩

/-- **C29**: typing succeeds exactly when the translation finds a method. -/
theorem C29_defined (L R : Nat) : (typeChoice H D L R).isSome = (callChoice H D L R).isSome := by
  by_cases hne : L = R
  · subst hne; rw [same_eq]
  rw [typeChoice_eq L R hne, callChoice_eq L R hne]
  cases hr : compatible H D.rfuncs D.rmethods R [R, L] with
  | none =>
    simp only [rightFirst]
    cases compatible H D.lfuncs D.lmethods L [L, R] <;> rfl
  | some m =>
    cases rightFirst H D L R (some m) with
    | some _ => rfl
    | none => cases compatible H D.lfuncs D.lmethods L [L, R] <;> rfl

/-! ### C56 -/

/-- **C56** (full claim): whenever Python gets the value of `a op b` from a method, the translation
calls that method. -/
def C56 : Prop :=
  ∀ (H : Hier) (D : Members), D.Wf → D.Unmixed H → ∀ (L R : Nat) (x : Choice),
    PyCalls H D L R x → callChoice H D L R = some x

/-- The reflected method `m` counts as overriding: the direct superclass of its class has a member of
that name. -/
def CountsAsOverriding (H : Hier) (D : Members) (m : Meth) : Prop :=
  m.interface = false ∧ ∃ p, H.sup m.cls = some p ∧
    (D.rfuncs p ≠ none ∨ D.rmethods p ≠ none ∨ D.rother p = true)

theorem overrides_iff (m : Meth) : overrides H D m = true ↔ CountsAsOverriding H D m := by
  unfold overrides CountsAsOverriding
  cases hs : H.sup m.cls with
  | none => simp
  | some p => simp [Option.isSome_iff_ne_none, or_assoc]

/-- The translation gives the right operand priority. -/
def NaginiPriority (H : Hier) (D : Members) (L : Nat) (m : Meth) : Prop :=
  CountsAsOverriding H D m ∨ ∀ m', RightOp H D L m' → ¬ Takes H m' L

/-- **C56, exactly** (partial: no class mixes functions and methods of the same name): the method
called is Python's if and only if it is not the case that both operands have an applicable method, the
right one is of a proper subclass, and its reflected method gets priority although it is the same as
the one of the left operand's class, or does not get it although it is a different one. -/
theorem C56_iff_partial (hw : D.Wf) (hu : D.Unmixed H) (L R : Nat) (x : Choice)
    (hx : PyCalls H D L R x) :
    callChoice H D L R = some x ↔
      ¬ (L ≠ R ∧ Anc H R L ∧ ∃ ml mr, LeftOp H D L ml ∧ Takes H ml R ∧ RightOp H D R mr ∧
        Takes H mr L ∧ ¬ (NaginiPriority H D L mr ↔ ¬ RightOp H D L mr)) := by
  have hcl : ∀ m, compatible H D.lfuncs D.lmethods L [L, R] = some m ↔ LeftOp H D L m ∧ Takes H m R :=
    compatible_iff hu.1 hw.lf hw.lm L L R (.refl L)
  have hcr : ∀ m, compatible H D.rfuncs D.rmethods R [R, L] = some m ↔ RightOp H D R m ∧ Takes H m L :=
    compatible_iff hu.2 hw.rf hw.rm R R L (.refl R)
  by_cases hne : L = R
  · subst hne
    refine ⟨fun _ h => h.1 rfl, fun _ => ?_⟩
    cases hx with
    | left hm ht hr =>
      unfold callChoice
      rw [if_pos rfl, called_eq, (look_iff _ _ hu.1 _ _).2 hm]
      rfl
    | right hne => exact absurd rfl hne
  rw [callChoice_eq L R hne]
  cases hr : compatible H D.rfuncs D.rmethods R [R, L] with
  | none =>
    have hno : ∀ m, RightOp H D R m → ¬ Takes H m L := by
      intro m h1 h2
      rw [(hcr m).2 ⟨h1, h2⟩] at hr
      cases hr
    cases hx with
    | left hm ht _ =>
      rw [(hcl _).2 ⟨hm, ht⟩]
      simp only [rightFirst, true_iff]
      rintro ⟨-, -, ml, mr, -, -, h3, h4, -⟩
      exact hno mr h3 h4
    | right _ hm ht _ => exact absurd ht (hno _ hm)
  | some mr =>
    obtain ⟨hmr, htr⟩ := (hcr mr).1 hr
    have hbase : Anc H R L →
        (compatible H D.rfuncs D.rmethods L [R, L] = none ↔ ∀ m', RightOp H D L m' → ¬ Takes H m' L) := by
      intro ha
      have := compatible_iff hu.2 hw.rf hw.rm L R L ha
      constructor
      · intro h m' h1 h2
        rw [(this m').2 ⟨h1, h2⟩] at h
        cases h
      · intro h
        cases hc : compatible H D.rfuncs D.rmethods L [R, L] with
        | none => rfl
        | some m' => exact absurd ((this m').1 hc).2 (h m' ((this m').1 hc).1)
    have hfirst : rightFirst H D L R (some mr) = some mr ∧ Anc H R L ∧ NaginiPriority H D L mr ∨
        rightFirst H D L R (some mr) = none ∧ ¬ (Anc H R L ∧ NaginiPriority H D L mr) := by
      by_cases ha : Anc H R L
      · by_cases hp : NaginiPriority H D L mr
        · left
          refine ⟨?_, ha, hp⟩
          unfold rightFirst
          dsimp only
          rw [if_pos ((issubtype_iff R L).2 ha), if_pos]
          rcases hp with h | h
          · simp [(overrides_iff mr).2 h]
          · simp [(hbase ha).2 h]
        · right
          refine ⟨?_, fun h => hp h.2⟩
          unfold rightFirst
          dsimp only
          rw [if_pos ((issubtype_iff R L).2 ha), if_neg]
          intro ho
          rw [Bool.or_eq_true] at ho
          rcases ho with h | h
          · exact hp (Or.inl ((overrides_iff mr).1 h))
          · exact hp (Or.inr ((hbase ha).1 (Option.isNone_iff_eq_none.1 h)))
      · right
        refine ⟨?_, fun h => ha h.1⟩
        unfold rightFirst
        dsimp only
        rw [if_neg (fun h => ha ((issubtype_iff R L).1 h))]
    have hprio : RightPriority H D L R ↔ Anc H R L ∧ ¬ RightOp H D L mr := by
      constructor
      · rintro ⟨-, h1, m, h2, h3⟩
        rw [h2.unique hmr] at h3
        exact ⟨h1, h3⟩
      · rintro ⟨h1, h2⟩; exact ⟨hne, h1, mr, hmr, h2⟩
    cases hl : compatible H D.lfuncs D.lmethods L [L, R] with
    | none =>
      have hno : ∀ m, LeftOp H D L m → ¬ Takes H m R := by
        intro m h1 h2
        rw [(hcl m).2 ⟨h1, h2⟩] at hl
        cases hl
      cases hx with
      | left hm ht _ => exact absurd ht (hno _ hm)
      | @right m _ hm ht _ =>
        obtain rfl := hm.unique hmr
        constructor
        · rintro - ⟨-, -, ml, mr, h1, h2, -⟩
          exact hno ml h1 h2
        · intro _
          rcases hfirst with h | h <;> rw [h.1] <;> rfl
    | some ml =>
      obtain ⟨hml, htl⟩ := (hcl ml).1 hl
      have hbad : (L ≠ R ∧ Anc H R L ∧ ∃ ml mr, LeftOp H D L ml ∧ Takes H ml R ∧ RightOp H D R mr ∧
          Takes H mr L ∧ ¬ (NaginiPriority H D L mr ↔ ¬ RightOp H D L mr)) ↔
          Anc H R L ∧ ¬ (NaginiPriority H D L mr ↔ ¬ RightOp H D L mr) := by
        constructor
        · rintro ⟨-, h1, ml', mr', -, -, h5, -, h7⟩
          rw [h5.unique hmr] at h7
          exact ⟨h1, h7⟩
        · rintro ⟨h1, h2⟩; exact ⟨hne, h1, ml, mr, hml, htl, hmr, htr, h2⟩
      rw [hbad]
      cases hx with
      | @left m hm ht hq =>
        obtain rfl := hm.unique hml
        have hnp : ¬ RightPriority H D L R := fun h => hq h mr hmr htr
        rw [hprio] at hnp
        rcases hfirst with ⟨h, ha, hp⟩ | ⟨h, hp⟩
        · rw [h]
          simp only [Option.some.injEq, reduceCtorEq, false_iff, not_not]
          exact ⟨ha, fun hi => hnp ⟨ha, hi.1 hp⟩⟩
        · rw [h]
          simp only [true_iff]
          rintro ⟨ha, hi⟩
          apply hi
          exact ⟨fun h' => absurd ⟨ha, h'⟩ hp, fun h' => absurd ⟨ha, h'⟩ hnp⟩
      | @right m _ hm ht hq =>
        obtain rfl := hm.unique hmr
        have hpr : RightPriority H D L R := hq.resolve_right (fun h => h ml hml htl)
        rw [hprio] at hpr
        rcases hfirst with ⟨h, ha, hp⟩ | ⟨h, hp⟩
        · rw [h]
          simp only [true_iff]
          rintro ⟨-, hi⟩
          exact hi ⟨fun _ => hpr.2, fun _ => hp⟩
        · rw [h]
          simp only [Option.some.injEq, reduceCtorEq, false_iff, not_not]
          exact ⟨hpr.1, fun hi => hp ⟨hpr.1, hi.2 hpr.2⟩⟩

/-- **C56** (partial): the right operand's class is not a proper subclass of the left operand's
class. -/
theorem C56_unrelated_partial (hw : D.Wf) (hu : D.Unmixed H) (L R : Nat) (h : L ≠ R → ¬ Anc H R L)
    (x : Choice) (hx : PyCalls H D L R x) : callChoice H D L R = some x :=
  (C56_iff_partial hw hu L R x hx).2 (fun hb => h hb.1 hb.2.1)

/-- **C56** (partial): the right operand's class is a direct subclass that defines the reflected
method itself, while the superclass defines it or has none at all. -/
theorem C56_direct_partial (hw : D.Wf) (hu : D.Unmixed H) (L R : Nat) (hs : H.sup R = some L)
    (m : Meth) (hm : own D.rfuncs D.rmethods R = some m) (hi : m.interface = false)
    (hL : own D.rfuncs D.rmethods L ≠ none ∨ ∀ m', ¬ RightOp H D L m')
    (x : Choice) (hx : PyCalls H D L R x) : callChoice H D L R = some x := by
  refine (C56_iff_partial hw hu L R x hx).2 ?_
  rintro ⟨hne, ha, ml, mr, -, -, hr, -, hb⟩
  obtain rfl := hr.unique (nearest_self (H := H) hm)
  apply hb
  have hcls := (own_wf hw.rf hw.rm hm).1
  constructor
  · rintro - h
    obtain ⟨d, hd, hod, -⟩ := h
    have : mr.cls = d := (own_wf hw.rf hw.rm hod).1
    have hdR : d = R := by omega
    subst hdR
    exact hne (hd.antisymm ha)
  · intro _
    rcases hL with h | h
    · left
      refine ⟨hi, L, by rw [hcls]; exact hs, ?_⟩
      unfold own at h
      split at h
      · rename_i m' hm'; right; left; rw [hm']; simp
      · left; exact h
    · right
      intro m' h'
      exact absurd h' (h m')

/-- Class 1 and class 2 define `__radd__`, class 2 `__add__`; class 3 inherits both. -/
def inherited : Members where
  lfuncs := fun _ => none
  lmethods := fun c => if c = 2 then some ⟨2, [[2], [1]], 10, false⟩ else none
  rfuncs := fun _ => none
  rmethods := fun c => if c = 1 then some ⟨1, [[1], [1]], 11, false⟩
    else if c = 2 then some ⟨2, [[2], [1]], 12, false⟩ else none
  rother := fun _ => false

theorem inherited_wf : inherited.Wf where
  lf := by intro c m h; cases h
  rf := by intro c m h; cases h
  lm := by
    intro c m h
    simp only [inherited] at h
    split at h
    · subst c; cases h; exact ⟨rfl, _, rfl⟩
    · cases h
  rm := by
    intro c m h
    simp only [inherited] at h
    split at h
    · subst c; cases h; exact ⟨rfl, _, rfl⟩
    · split at h
      · subst c; cases h; exact ⟨rfl, _, rfl⟩
      · cases h

theorem inherited_right : RightOp chain inherited 3 ⟨2, [[2], [1]], 12, false⟩ := by
  refine ⟨2, chain32, rfl, ?_⟩
  intro e h1 h2 hne
  have := chain_anc h1
  have := chain_anc h2
  have : e = 3 := by omega
  subst this
  rfl

/-- **C56 fails**: `B() + C()` where `C` inherits from `B` and `B` overrides `__radd__` of its
superclass: Python calls `B.__add__`, the translation `B.__radd__`. -/
theorem C56_fails : ¬ C56 := by
  intro h
  have hu : inherited.Unmixed chain :=
    ⟨(fun c d _ f m h => by cases h.1), (fun c d _ f m h => by cases h.1)⟩
  have hx : PyCalls chain inherited 2 3 (.left ⟨2, [[2], [1]], 10, false⟩) := by
    refine .left (nearest_self rfl) ⟨_, _, rfl, 1, by simp, chain31⟩ ?_
    rintro ⟨-, -, m, h1, h2⟩
    rw [h1.unique inherited_right] at h2
    exact (h2 (nearest_self rfl)).elim
  have hc := h chain inherited inherited_wf hu 2 3 _ hx
  refine (C56_iff_partial inherited_wf hu 2 3 _ hx).1 hc
    ⟨by decide, chain32, _, _, nearest_self rfl, ⟨_, _, rfl, 1, by simp, chain31⟩, inherited_right,
      ⟨_, _, rfl, 1, by simp, chain21⟩, ?_⟩
  intro hi
  exact hi.1 (Or.inl ⟨rfl, 1, rfl, Or.inr (Or.inl (by simp [inherited]))⟩) (nearest_self rfl)

/-- Class 1 defines `__add__` and `__radd__`, class 3 redefines `__radd__`, class 2 nothing. -/
def skipped : Members where
  lfuncs := fun _ => none
  lmethods := fun c => if c = 1 then some ⟨1, [[1], [1]], 10, false⟩ else none
  rfuncs := fun _ => none
  rmethods := fun c => if c = 1 then some ⟨1, [[1], [1]], 11, false⟩
    else if c = 3 then some ⟨3, [[3], [1]], 12, false⟩ else none
  rother := fun _ => false

/-- **C56 fails** also the other way round: `A() + C()` where `C` redefines `__radd__` of `A`, but is
not a direct subclass: Python calls `C.__radd__`, the translation `A.__add__`. -/
theorem C56_skipped_fails :
    ∃ x, PyCalls chain skipped 1 3 x ∧ x = .right ⟨3, [[3], [1]], 12, false⟩ ∧
      callChoice chain skipped 1 3 ≠ some x := by
  have hw : skipped.Wf :=
    { lf := by intro c m h; cases h
      rf := by intro c m h; cases h
      lm := by
        intro c m h
        simp only [skipped] at h
        split at h
        · subst c; cases h; exact ⟨rfl, _, rfl⟩
        · cases h
      rm := by
        intro c m h
        simp only [skipped] at h
        split at h
        · subst c; cases h; exact ⟨rfl, _, rfl⟩
        · split at h
          · subst c; cases h; exact ⟨rfl, _, rfl⟩
          · cases h }
  have hu : skipped.Unmixed chain :=
    ⟨(fun c d _ f m h => by cases h.1), (fun c d _ f m h => by cases h.1)⟩
  have h1 : RightOp chain skipped 1 ⟨1, [[1], [1]], 11, false⟩ := nearest_self rfl
  have h3 : RightOp chain skipped 3 ⟨3, [[3], [1]], 12, false⟩ := nearest_self rfl
  have hno : ¬ RightOp chain skipped 1 ⟨3, [[3], [1]], 12, false⟩ := by
    intro h
    have := h.unique h1
    cases this
  have hx : PyCalls chain skipped 1 3 (.right ⟨3, [[3], [1]], 12, false⟩) :=
    .right (by decide) h3 ⟨_, _, rfl, 1, by simp, .refl 1⟩ (Or.inl ⟨by decide, chain31, _, h3, hno⟩)
  refine ⟨_, hx, rfl, fun hc => ?_⟩
  refine (C56_iff_partial hw hu 1 3 _ hx).1 hc
    ⟨by decide, chain31, _, _, nearest_self rfl, ⟨_, _, rfl, 1, by simp, chain31⟩, h3,
      ⟨_, _, rfl, 1, by simp, .refl 1⟩, ?_⟩
  intro hi
  rcases hi.2 hno with ⟨-, p, hp, hq⟩ | hq
  · cases hp
    simp [skipped] at hq
  · exact hq _ h1 ⟨_, _, rfl, 1, by simp, .refl 1⟩

/-- Not vacuous: in `both`, `a + b` with unrelated classes calls the left method, as in Python. -/
example : PyCalls chain both 1 4 (.left ⟨1, [[1], [4]], 10, false⟩) ∧
    callChoice chain both 1 4 = some (.left ⟨1, [[1], [4]], 10, false⟩) := by
  refine ⟨.left (nearest_self rfl) ⟨_, _, rfl, 4, by simp, .refl 4⟩ ?_, both_call⟩
  rintro ⟨-, h, -⟩
  have := chain_anc h
  omega

/-- Not vacuous: in `inherited`, `A() + B()` calls `B.__radd__`, as in Python. -/
example : PyCalls chain inherited 1 2 (.right ⟨2, [[2], [1]], 12, false⟩) := by
  refine .right (by decide) (nearest_self rfl) ⟨_, _, rfl, 1, by simp, .refl 1⟩ (Or.inr ?_)
  rintro m' ⟨d, hd, ho, -⟩
  have := chain_anc hd
  have : d = 1 := by omega
  subst this
  cases ho

end Nagini.Ops
