import Verif.Lemmas.WaitLevel
import Mathlib.Tactic.NormNum
import Mathlib.Algebra.Order.Field.Basic
/-!
C34: wait levels and deadlock.
-/
set_option linter.unusedSimpArgs false

namespace Nagini.WaitLevel

/-- **C34, full claim**: no deadlock is reachable by steps that pass the checks. -/
def C34 : Prop := ∀ (L : Obj → Rat) (σ : Sys) (D : List Nat), Reach L σ → ¬ Deadlock σ D

/-- **C34, proved part**: no deadlock is reachable in which every thread that somebody joins waits
for something above its own level, and in which nobody joins from inside of a loop. -/
theorem C34_deadlock_partial (L : Obj → Rat) (σ : Sys) (D : List Nat) (hr : Reach L σ)
    (hown : ∀ i ∈ D, ∀ t ∈ D, (σ i).wait = .on (.thread t) →
      ∀ x, (σ t).wait = .on x → L (.thread t) < L x)
    (hloop : ∀ i ∈ D, ∀ t, (σ i).wait = .on (.thread t) → ¬ InLoop σ i) :
    ¬ Deadlock σ D := by
  rintro ⟨hne, hd⟩
  let w : Nat → Rat := fun i => match (σ i).wait with
    | .none => 0
    | .on x => L x
  have hw : ∀ i x, (σ i).wait = .on x → w i = L x := by
    intro i x h
    simp only [w, h]
  have hon : ∀ i ∈ D, ∃ x, (σ i).wait = .on x := by
    intro i hi
    rcases hd i hi with ⟨l, hl, _⟩ | ⟨t, ht, _⟩
    · exact ⟨_, hl⟩
    · exact ⟨_, ht⟩
  obtain ⟨i, hi, hmax⟩ := exists_max w D hne
  rcases hd i hi with ⟨l, hl, j, hj, f, hf, hlf⟩ | ⟨t, ht, htD⟩
  · obtain ⟨x, hx⟩ := hon j hj
    have hg := (reach_good hr j).2
    unfold WaitOk at hg
    rw [hx] at hg
    rcases hg with ⟨⟨n, rfl⟩, hlp⟩ | hg
    · exact hloop j hj n hx hlp
    · have h1 := hg f hf l hlf
      have h2 := hmax j hj
      rw [hw i _ hl, hw j _ hx] at h2
      exact absurd h1 (not_lt.2 h2)
  · obtain ⟨x, hx⟩ := hon t htD
    have h1 := hown i hi t htD ht x hx
    have h2 := hmax t htD
    rw [hw i _ ht, hw t _ hx] at h2
    exact absurd h1 (not_lt.2 h2)

/-- **C34, locks**: threads that wait for locks only never deadlock, whatever calls, loops and
thread starts happened before. -/
theorem C34_locks (L : Obj → Rat) (σ : Sys) (D : List Nat) (hr : Reach L σ)
    (hl : ∀ i ∈ D, ∀ t, (σ i).wait ≠ .on (.thread t)) : ¬ Deadlock σ D :=
  C34_deadlock_partial L σ D hr (fun i hi t _ h => absurd h (hl i hi t))
    (fun i hi t h => absurd h (hl i hi t))

/-- **C34, ownership**: whenever a thread waits for a lock, in whatever nesting of calls and
loops, all locks it owns have smaller levels (so it does not own that lock). -/
theorem C34_owned_below (L : Obj → Rat) (σ : Sys) (hr : Reach L σ) (i l x : Nat)
    (hw : (σ i).wait = .on (.lock l)) (ho : Owns σ i x) : L (.lock x) < L (.lock l) := by
  have hg := (reach_good hr i).2
  unfold WaitOk at hg
  rw [hw] at hg
  rcases hg with ⟨⟨n, hn⟩, _⟩ | hg
  · cases hn
  · obtain ⟨f, hf, hx⟩ := ho
    exact hg f hf x hx

/-- **C34, contracts**: what a body assumes about its residue is justified by what is checked at
the call, for the residue that bounds everything the thread owns outside of the callee. -/
theorem C34_precondition_sound (L : Obj → Rat) (rest : List Nat) (residue : Rat) (es : List Obj)
    (h : preCheck L rest residue es = true) :
    ∃ r, preAssume L r es = true ∧ residue ≤ r ∧ ∀ l ∈ rest, L (.lock l) ≤ r := by
  refine ⟨maxLevel L rest residue, ?_, (maxLevel_ge L rest residue).1, (maxLevel_ge L rest residue).2⟩
  simp only [preCheck, preAssume, List.all_eq_true, decide_eq_true_eq] at h ⊢
  exact fun e he => maxLevel_lt L rest residue _ (h e he)

/-- **C34, contracts**: what the caller assumes after the call is justified by what is checked at
the end of the body for that residue, and everything the caller kept is then below the
constraints. -/
theorem C34_postcondition_sound (L : Obj → Rat) (rest kept : List Nat) (residue : Rat)
    (es : List Obj) (h : postCheck L rest (maxLevel L kept residue) es = true) :
    (∃ cwl, postAssume L kept residue cwl es = true) ∧
      ∀ cwl, postAssume L kept residue cwl es = true →
        ∀ e ∈ es, residue < L e ∧ ∀ l ∈ kept, L (.lock l) < L e := by
  constructor
  · refine ⟨maxLevel L kept residue, ?_⟩
    simp only [postAssume, Bool.and_eq_true, List.all_eq_true, decide_eq_true_eq]
    refine ⟨levelBelowEq_iff.2 ⟨(maxLevel_ge L kept residue).2, (maxLevel_ge L kept residue).1⟩, ?_⟩
    intro e he
    simp only [postCheck, List.all_eq_true] at h
    exact (levelBelow_iff.1 (h e he)).2
  · intro cwl hc e he
    simp only [postAssume, Bool.and_eq_true, List.all_eq_true, decide_eq_true_eq] at hc
    obtain ⟨h1, h2⟩ := levelBelowEq_iff.1 hc.1
    exact ⟨lt_of_le_of_lt h2 (hc.2 e he), fun l hl => lt_of_le_of_lt (h1 l hl) (hc.2 e he)⟩

/-- **C34, new locks**: a level is allowed for a new lock exactly when it is above `above` (above
everything the creator waits for, if no `above` is given) and below `below`. -/
theorem C34_lock_level_exact (L : Obj → Rat) (held : List Nat) (residue : Rat)
    (above below : Option Rat) (q : Rat) :
    lockEnsures L held residue above below q = true ↔
      (∀ a, above = some a → a < q) ∧ (∀ b, below = some b → q < b) ∧
        (above = none → residue < q ∧ ∀ l ∈ held, L (.lock l) < q) := by
  cases above <;> cases below <;>
    simp [lockEnsures, levelBelow_iff, and_comm, and_left_comm]

/-- A lock above level 3 and below level 5 may get level 4, and not level 2. -/
example : lockEnsures (fun _ => 0) [1] 7 (some 3) (some 5) 4 = true ∧
    lockEnsures (fun _ => 0) [1] 7 (some 3) (some 5) 2 = false := by decide +kernel

/-- **C34, new locks**: whenever the requirements of `Lock.__init__` hold there is a level that
meets its guarantees. -/
theorem C34_lock_level_exists (L : Obj → Rat) (held : List Nat) (residue : Rat)
    (above below : Option Rat) (h : lockRequires L held residue above below = true) :
    ∃ q, lockEnsures L held residue above below q = true := by
  cases above with
  | none =>
    cases below with
    | none =>
      refine ⟨maxLevel L held residue + 1, ?_⟩
      simp only [lockEnsures, Bool.and_true]
      obtain ⟨h1, h2⟩ := maxLevel_ge L held residue
      exact levelBelow_iff.2 ⟨fun l hl => lt_of_le_of_lt (h2 l hl) (lt_add_one _),
        lt_of_le_of_lt h1 (lt_add_one _)⟩
    | some b =>
      obtain ⟨q, hq1, hq2⟩ := exists_between (maxLevel_lt L held residue b h)
      refine ⟨q, ?_⟩
      simp only [lockEnsures, Bool.and_eq_true, decide_eq_true_eq]
      obtain ⟨h1, h2⟩ := maxLevel_ge L held residue
      exact ⟨levelBelow_iff.2 ⟨fun l hl => lt_of_le_of_lt (h2 l hl) hq1, lt_of_le_of_lt h1 hq1⟩, hq2⟩
  | some a =>
    cases below with
    | none => exact ⟨a + 1, by simp [lockEnsures, lt_add_one]⟩
    | some b =>
      obtain ⟨q, hq1, hq2⟩ := exists_between (of_decide_eq_true h)
      exact ⟨q, by simp [lockEnsures, hq1, hq2]⟩

/-! ### Where the full claim fails -/

/-- Levels used in the counterexamples: lock 0 below thread 1. -/
def exL : Obj → Rat
  | .lock n => n
  | .thread n => n

/-- Lock 0 is owned by thread 0, which joins thread 1, which waits for lock 0. -/
def stuck (r : Rat) (f : List Frame) : Sys := fun i =>
  if i = 1 then ⟨[⟨[], r, r, false⟩], .on (.lock 0), true⟩
  else if i = 0 then ⟨f, .on (.thread 1), true⟩ else ⟨[], .none, false⟩

theorem stuck_deadlock (r : Rat) (f : List Frame) (h : ∃ g ∈ f, 0 ∈ g.held) :
    Deadlock (stuck r f) [0, 1] := by
  refine ⟨by simp, fun i hi => ?_⟩
  rcases List.mem_cons.1 hi with rfl | hi
  · exact Or.inr ⟨1, rfl, by simp⟩
  · rcases List.mem_cons.1 hi with rfl | hi
    · exact Or.inl ⟨0, rfl, 0, by simp, h⟩
    · cases hi

theorem reach_trans {L : Obj → Rat} {σ τ τ' : Sys} (h : Reach L σ) (hs : Step L σ τ) (e : τ = τ') :
    Reach L τ' := e ▸ h.step hs

/-- The state in which thread 0 owns lock 0 and has started thread 1. -/
def forked (r s : Rat) : Sys := fun i =>
  if i = 1 then ⟨[⟨[], s, s, false⟩], .none, true⟩
  else if i = 0 then ⟨[⟨[0], r, r, false⟩], .none, true⟩ else ⟨[], .none, false⟩

theorem reach_forked (L : Obj → Rat) (r s : Rat) (h1 : r < L (.lock 0)) (h2 : r < L (.thread 1))
    (h3 : L (.lock 0) < L (.thread 1)) (h4 : s < L (.lock 0)) : Reach L (forked r s) := by
  have a := Reach.init (L := L) r
  have b := a.step (Step.acquire 0 ⟨[], r, r, false⟩ [] 0 rfl
    (by simp [acquireCheck, preCheck, levelBelow, h1]))
  have c := b.step (Step.grant 0 ⟨[], r, r, false⟩ [] 0 rfl (by
    rintro j ⟨f, hf, hl⟩
    unfold Sys.set initial at hf
    split at hf
    · simp only [List.mem_singleton] at hf
      subst hf
      cases hl
    · rename_i hj
      simp [hj] at hf))
  refine reach_trans c (Step.fork 0 ⟨[0], r, r, false⟩ [] [] [0] 1 [.lock 0] s rfl (by decide) rfl
    (List.Perm.refl _) (by simp [forkAssume, levelBelow, h2, h3]) (by simp [preAssume, h4])) ?_
  funext i
  unfold Sys.set forked initial
  by_cases h1 : i = 1
  · simp [h1]
  · by_cases h0 : i = 0
    · simp [h1, h0]
    · simp [h1, h0]

theorem reach_stuck (L : Obj → Rat) (r s : Rat) (h1 : r < L (.lock 0)) (h2 : r < L (.thread 1))
    (h3 : L (.lock 0) < L (.thread 1)) (h4 : s < L (.lock 0)) :
    Reach L (stuck s [⟨[0], r, r, false⟩]) := by
  have a := reach_forked L r s h1 h2 h3 h4
  have b := a.step (Step.acquire 1 ⟨[], s, s, false⟩ [] 0 rfl
    (by simp [acquireCheck, preCheck, levelBelow, h4]))
  refine reach_trans b (Step.join 0 ⟨[0], r, r, false⟩ [] 1 rfl rfl
    (by simp [joinCheck, levelBelow, h2, h3])) ?_
  funext i
  unfold Sys.set forked stuck
  by_cases h1 : i = 1
  · simp [h1]
  · by_cases h0 : i = 0
    · simp [h1, h0]
    · simp [h1, h0]

/-- **C34 fails**: a thread acquires a lock, starts another thread that acquires the same lock, and
joins it: all checks pass. -/
theorem C34_fails : ¬ C34 := by
  intro h
  exact h exL _ [0, 1] (reach_stuck exL (-1) (-1) (by norm_num [exL]) (by norm_num [exL])
    (by norm_num [exL]) (by norm_num [exL])) (stuck_deadlock _ _ ⟨_, List.mem_singleton.2 rfl, by simp⟩)

/-- **C34 fails in the same way for every assignment of levels that the encoding admits**: the
assumption made when the thread is started never excludes it. -/
theorem C34_fails_always (L : Obj → Rat) (h : L (.lock 0) < L (.thread 1)) :
    ∃ σ, Reach L σ ∧ Deadlock σ [0, 1] :=
  ⟨_, reach_stuck L (L (.lock 0) - 1) (L (.lock 0) - 1) (sub_one_lt _)
    (lt_trans (sub_one_lt _) h) h (sub_one_lt _),
    stuck_deadlock _ _ ⟨_, List.mem_singleton.2 rfl, by simp⟩⟩

/-- Levels for the second counterexample: thread 1 is below lock 0. -/
def exL' : Obj → Rat
  | .lock n => n + 1
  | .thread _ => 0

/-- The state in which thread 0 owns lock 0, which it acquired after starting thread 1, and is
inside of a loop that does not take the obligation. -/
def inLoop : Sys := stuck (-1) [⟨[], 1, -1, true⟩, ⟨[0], -1, -1, false⟩]

/-- **C34 fails also if every thread only waits for locks above its own level**: inside of a loop
`join` does not consider the locks that stay outside of the loop. -/
theorem C34_loop_fails : ∃ (L : Obj → Rat) (σ : Sys) (D : List Nat), Reach L σ ∧ Deadlock σ D ∧
    ∀ i ∈ D, ∀ t ∈ D, (σ i).wait = .on (.thread t) →
      ∀ x, (σ t).wait = .on x → L (.thread t) < L x := by
  refine ⟨exL', inLoop, [0, 1], ?_, stuck_deadlock _ _ ⟨_, List.mem_cons_of_mem _ List.mem_cons_self, by simp⟩, ?_⟩
  · have a := Reach.init (L := exL') (-1)
    have b := a.step (Step.fork 0 ⟨[], -1, -1, false⟩ [] [] [] 1 [.lock 0] (-1) rfl (by decide) rfl
      (List.Perm.refl _) (by norm_num [forkAssume, levelBelow, exL'])
      (by norm_num [preAssume, exL']))
    have c := b.step (Step.acquire 0 ⟨[], -1, -1, false⟩ [] 0 rfl
      (by norm_num [acquireCheck, preCheck, levelBelow, exL']))
    have d := c.step (Step.grant 0 ⟨[], -1, -1, false⟩ [] 0 rfl (by
      rintro j ⟨f, hf, hl⟩
      unfold Sys.set initial at hf
      by_cases h0 : j = 0
      · simp [h0] at hf
        subst hf
        cases hl
      · by_cases h1 : j = 1
        · simp [h1] at hf
          subst hf
          cases hl
        · simp [h0, h1] at hf))
    have e := d.step (Step.loop 0 ⟨[0], -1, -1, false⟩ [] [] [0] rfl (List.Perm.refl _))
    have f := e.step (Step.acquire 1 ⟨[], -1, -1, false⟩ [] 0 rfl
      (by norm_num [acquireCheck, preCheck, levelBelow, exL']))
    refine reach_trans f (Step.join 0 ⟨[], maxLevel exL' [0] (-1), -1, true⟩
      [⟨[0], -1, -1, false⟩] 1 rfl rfl (by norm_num [joinCheck, levelBelow, exL'])) ?_
    funext i
    unfold Sys.set inLoop stuck initial
    by_cases h1 : i = 1
    · simp [h1]
    · by_cases h0 : i = 0
      · simp [h1, h0, maxLevel, exL']
      · simp [h1, h0]
  · intro i hi t ht hw x hx
    rcases List.mem_cons.1 hi with rfl | hi
    · cases hw
      cases hx
      norm_num [exL']
    · rcases List.mem_cons.1 hi with rfl | hi
      · cases hw
      · cases hi

/-! ### C54: the constraints of all contracts are generated -/

/-- **C54, full claim**: for every program, every wait-level constraint of a method contract is
generated. -/
def C54 : Prop := ∀ ms : List Meth, emitted ms = ms.flatMap (·.constraints)

/-- **C54 fails**: after a statically bound call (which is inlined) the constraints of the
contracts translated later are lost. -/
theorem C54_fails : ¬ C54 := fun h =>
  absurd (h [⟨[], [.inline]⟩, ⟨[7], []⟩]) (by decide)

/-- **C54, exact condition**: for every program, the constraints generated are those of the methods
before whose translation no inlined call happened since the last thread start or join. -/
theorem C54_emitted_partial (ms : List Meth) : emitted ms = kept [] ms := emittedFrom_kept ms []

/-- **C54, without inlining**: in programs without statically bound calls, `@Inline` methods and
inherited methods all constraints are generated. -/
theorem C54_no_inlining (ms : List Meth) (h : ∀ m ∈ ms, Ev.inline ∉ m.body) :
    emitted ms = ms.flatMap (·.constraints) := by
  rw [C54_emitted_partial]
  have key : ∀ (ms : List Meth) (es : List Ev), Ev.inline ∉ es → (∀ m ∈ ms, Ev.inline ∉ m.body) →
      kept es ms = ms.flatMap (·.constraints) := by
    intro ms
    induction ms with
    | nil => intros; rfl
    | cons m ms ih =>
      intro es he h
      have hl : ¬ Lost es := by
        rintro ⟨before, after, rfl, _⟩
        simp at he
      rw [kept, if_neg hl, List.flatMap_cons, ih]
      · rw [List.mem_append, not_or]
        exact ⟨he, h m List.mem_cons_self⟩
      · exact fun m' hm => h m' (List.mem_cons_of_mem _ hm)
  exact key ms [] (by simp) h

/-- Non-vacuity: a program in which constraints are lost until a thread start resets the flag. -/
example : emitted [⟨[1], [.inline]⟩, ⟨[2], [.fork 1]⟩, ⟨[3], [.join 0]⟩] = [1, 3] ∧
    Lost [.fork 1, .inline, .fork 0] :=
  ⟨by decide, [.fork 1], [.fork 0], rfl, by
    rintro e he ⟨n, hn, h | h⟩ <;> simp at he <;> subst he <;> cases h
    exact absurd hn (by decide)⟩

/-- Non-vacuity of the other theorems: the state in which both threads run is reachable. -/
example : Reach exL (forked (-1) (-1)) :=
  reach_forked exL (-1) (-1) (by norm_num [exL]) (by norm_num [exL]) (by norm_num [exL])
    (by norm_num [exL])

end Nagini.WaitLevel
