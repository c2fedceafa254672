import Verif.Lemmas.Termination
/-!
C32: recursion under a termination promise.  C33: loops with a termination promise.
-/
namespace Nagini.Termination

/-! ### C32 -/

/-- **C32, full claim**: in a verified program there is no infinite chain of calls that starts
in a method that promised to terminate. -/
def NoInfiniteRecursion : Prop :=
  ∀ (ct : Nat) (f : Nat → Frame), (∀ i ∈ (f 0).insts, i.wf ct = true) → Active (f 0).insts →
    ¬ ∀ n, Calls ct (f n) (f (n + 1))

/-- C32 is violated: the body of an inherited method is verified with measures increased by
one, so that it may call itself with the same measure. -/
theorem C32_recursion_fails : ¬ NoInfiniteRecursion := by
  intro h
  refine h 0 (fun _ => ⟨[⟨true, false, 0, true, 1⟩], true⟩) (by decide)
    ⟨_, List.mem_singleton.2 rfl, rfl, rfl⟩ (fun n => ?_)
  exact ⟨1, true, [⟨true, false, 0, true, 1⟩], Site.body _, by decide, by decide, by decide,
    .refl _⟩

/-- **C32, proved part**: in every infinite chain of calls that starts in a method that
promised to terminate, from some point on all bodies are those of inherited methods.  (All
other bodies decrease the measure, also through overriding methods and inside of loops.)
Missing: inherited bodies, where the claim is false. -/
theorem C32_recursion_partial (ct : Nat) (f : Nat → Frame)
    (hw : ∀ i ∈ (f 0).insts, i.wf ct = true) (ha : Active (f 0).insts)
    (hc : ∀ n, Calls ct (f n) (f (n + 1))) : ∃ N, ∀ n, N ≤ n → (f n).inherited = true :=
  chain_inherited _ f hw ha (Nat.le_refl _) hc

/-- **C32, programs without inheritance of bodies**: no infinite chain. -/
theorem C32_no_inherited_bodies (ct : Nat) (f : Nat → Frame)
    (hw : ∀ i ∈ (f 0).insts, i.wf ct = true) (ha : Active (f 0).insts)
    (hi : ∀ n, (f n).inherited = false) : ¬ ∀ n, Calls ct (f n) (f (n + 1)) := by
  intro hc
  obtain ⟨N, hN⟩ := C32_recursion_partial ct f hw ha hc
  have := hN N (Nat.le_refl _)
  rw [hi N] at this
  cases this

/-- **C32, depth**: without inherited bodies a chain of calls is no longer than any of the
measures promised at its beginning. -/
theorem C32_depth (ct : Nat) (f : Nat → Frame) (hw : ∀ i ∈ (f 0).insts, i.wf ct = true)
    (k : Nat) (hi : ∀ n, n < k → (f n).inherited = false)
    (hc : ∀ n, n < k → Calls ct (f n) (f (n + 1))) (p : Inst) (hp : p ∈ (f 0).insts)
    (ht : p.term = true) (hg : p.guard = true) : (k : Int) ≤ max p.value 0 := by
  have all : ∀ n, n ≤ k → (∀ i ∈ (f n).insts, i.wf ct = true) ∧ Active (f n).insts ∧
      low (f n).insts + n ≤ low (f 0).insts := by
    intro n
    induction n with
    | zero => intro _; exact ⟨hw, ⟨p, hp, ht, hg⟩, Nat.le_refl _⟩
    | succ n ih =>
      intro hn
      obtain ⟨h1, h2, h3⟩ := ih (by omega)
      obtain ⟨h4, h5, h6⟩ := calls_low (hc n (by omega)) h1 h2
      simp only [hi n (by omega), Bool.false_eq_true, if_false] at h6
      exact ⟨h4, h5, by omega⟩
  have h1 := (all k (Nat.le_refl _)).2.2
  have h2 := low_le hp ht hg
  omega

/-- **C32, promises are kept along calls**: the method executed by any call made under an active
promise (anywhere, also in loops) has an active promise itself. -/
theorem C32_promise_propagates (ct : Nat) (f g : Frame) (hw : ∀ i ∈ f.insts, i.wf ct = true)
    (ha : Active f.insts) (h : Calls ct f g) : Active g.insts := (calls_low h hw ha).2.1

/-- **C32, builtins**: a method with an active promise calls no method of the resources that is
not marked as terminating, and needs measures above 1 to call one that is. -/
theorem C32_builtins (ct : Nat) (f : Frame) (hw : ∀ i ∈ f.insts, i.wf ct = true)
    (ha : Active f.insts) (held : Nat)
    (hs : Site ct (inhaled f.insts) held) (lf t : Bool)
    (h : callCheck (initMap f.inherited f.insts) ct held lf (.interface t) = true) :
    t = true ∧ (f.inherited = false → ∀ i ∈ f.insts, i.term = true → i.guard = true → 1 < i.value) := by
  cases t with
  | true =>
    refine ⟨rfl, fun hf i hi ht hg => ?_⟩
    have h1 := check_iff.1 h
    have h2 := hw i hi
    simp only [Inst.wf, ht, Bool.not_true, Bool.false_or, Bool.and_eq_true, beq_iff_eq,
      Bool.not_eq_true'] at h2
    exact h1 ⟨i.guard, i.key, i.value⟩
      (List.mem_map.2 ⟨i, List.mem_filter.2 ⟨hi, by simp [h2.1]⟩, by simp [hf]⟩) hg h2.2
  | false =>
    have := site_held hs (inhaled_pos.2 ha)
    simp only [callCheck, Bool.and_eq_true, beq_iff_eq] at h
    omega

/-- Non-vacuity: a call with decreasing measure from inside of a loop, to an overriding method. -/
example : Calls 0 ⟨[⟨true, false, 0, true, 5⟩], false⟩ ⟨[⟨true, false, 0, true, 4⟩], false⟩ := by
  let l : LoopRun 0 1 := ⟨⟨true, [⟨true, false, 0, true, 3⟩]⟩, [⟨true, [⟨true, false, 0, true, 2⟩]⟩],
    true, by decide, by decide, by decide, by simp [List.isChain_cons_cons]; decide⟩
  have hs : Site 0 (inhaled [⟨true, false, 0, true, 5⟩]) 1 := Site.loop l (Site.body _)
  exact ⟨1, true, [⟨true, false, 0, true, 4⟩], hs, by decide, by decide, by decide,
    .step true (.refl _) (by decide) (by decide)⟩

/-! ### C33 -/

/-- **C33**: a loop that promised to terminate (before its first iteration) and passes the
checks in every iteration does not run forever. -/
theorem C33_loop_terminates (ct : Nat) (s : Nat → LoopState)
    (hw : ∀ n, ∀ i ∈ (s n).insts, i.wf ct = true) (hflag : loopFlag ct (s 0) = true)
    (hpos : ∀ n, loopPositive (s n) = true)
    (hend : ∀ n, loopEnd ct (loopFlag ct (s 0)) (s n) (s (n + 1)) = true) :
    ∃ n, (s n).cond = false := by
  refine Classical.byContradiction fun hno => ?_
  have hc : ∀ n, (s n).cond = true := by
    intro n
    cases h : (s n).cond with
    | true => rfl
    | false => exact absurd ⟨n, h⟩ hno
  have hstep : ∀ n, tcond false (initMap false (s n).insts) ct (s (n + 1)).insts = true := by
    intro n
    have := hend n
    simpa only [loopEnd, hflag, hc (n + 1), Bool.not_true, Bool.false_or] using this
  have all : ∀ n, Active (s n).insts ∧ low (s n).insts + n ≤ low (s 0).insts := by
    intro n
    induction n with
    | zero => exact ⟨tcond_ignore_iff.1 hflag, Nat.le_refl _⟩
    | succ n ih =>
      have hp := hpos (n + 1)
      simp only [loopPositive, hc (n + 1), Bool.not_true, Bool.false_or] at hp
      obtain ⟨h1, h2⟩ := tcond_low (hw n) ih.1 (hw (n + 1)) hp (hstep n)
      simp only [Bool.false_eq_true, if_false] at h2
      exact ⟨h1, by have := ih.2; omega⟩
  have := (all (low (s 0).insts + 1)).2
  omega

/-- **C33, the promise is demanded**: a loop whose condition holds initially, entered with a
termination promise of the surrounding code, has promised to terminate, and the promise is
active in every iteration. -/
theorem C33_promise_demanded (ct held : Nat) (hh : 0 < held) (l : LoopRun ct held) :
    loopFlag ct l.first = true ∧ ∀ s ∈ l.first :: l.later, Active s.insts := by
  have hflag : loopFlag ct l.first = true := by
    have := l.entry
    simp only [loopEntry, l.cond l.first (by simp), Bool.not_true, Bool.or_false, Bool.or_eq_true,
      Bool.and_eq_true, beq_iff_eq] at this
    rcases this with h1 | ⟨h1, _⟩
    · exact h1
    · omega
  exact ⟨hflag, loop_active hflag (tcond_ignore_iff.1 hflag) l.later
    (fun s hs => l.cond s (by simp [hs])) l.ends⟩

/-- **C33, bound**: such a loop makes at most as many further iterations as any of the measures
active before it. -/
theorem C33_iterations (ct : Nat) (s : Nat → LoopState)
    (hw : ∀ n, ∀ i ∈ (s n).insts, i.wf ct = true) (k : Nat) (hc : ∀ n, n ≤ k → (s n).cond = true)
    (hpos : ∀ n, loopPositive (s n) = true)
    (hend : ∀ n, n < k → loopEnd ct (loopFlag ct (s 0)) (s n) (s (n + 1)) = true)
    (p : Inst) (hp : p ∈ (s 0).insts) (ht : p.term = true) (hg : p.guard = true) :
    (k : Int) < p.value := by
  have ha : Active (s 0).insts := ⟨p, hp, ht, hg⟩
  have hflag : loopFlag ct (s 0) = true := tcond_ignore_iff.2 ha
  have all : ∀ n, n ≤ k → Active (s n).insts ∧ low (s n).insts + n ≤ low (s 0).insts := by
    intro n
    induction n with
    | zero => intro _; exact ⟨ha, Nat.le_refl _⟩
    | succ n ih =>
      intro hn
      have hp := hpos (n + 1)
      simp only [loopPositive, hc (n + 1) hn, Bool.not_true, Bool.false_or] at hp
      have hs := hend n (by omega)
      simp only [loopEnd, hflag, hc (n + 1) hn, Bool.not_true, Bool.false_or] at hs
      obtain ⟨h1, h2⟩ := tcond_low (hw n) (ih (by omega)).1 (hw (n + 1)) hp hs
      simp only [Bool.false_eq_true, if_false] at h2
      exact ⟨h1, by have := (ih (by omega)).2; omega⟩
  obtain ⟨h1, h2⟩ := all k (Nat.le_refl _)
  obtain ⟨i, hi, hti, hgi, hl⟩ := low_mem h1
  have hpk := hpos k
  simp only [loopPositive, hc k (Nat.le_refl _), Bool.not_true, Bool.false_or] at hpk
  have := positive_iff.1 hpk i hi hgi (wf_term (hw k i hi) hti).1
  have := low_le hp ht hg
  omega

/-- **C33, the surrounding obligation**: after a loop the amount of `MustTerminate` is the one
before it, whatever the invariant contributes. -/
theorem C33_amount_restored (orig more : Nat) : resetAmount orig more = orig := by
  dsimp only [resetAmount]
  split <;> omega

/-- Non-vacuity: a loop counting down from 2, with a second, inactive promise. -/
example : let s : Nat → LoopState := fun n =>
      ⟨decide (n < 2), [⟨true, false, 0, true, 2 - n⟩, ⟨true, false, 0, false, 7⟩]⟩
    (∀ n, ∀ i ∈ (s n).insts, i.wf 0 = true) ∧ loopFlag 0 (s 0) = true ∧
    (∀ n, loopPositive (s n) = true) ∧
    (∀ n, loopEnd 0 (loopFlag 0 (s 0)) (s n) (s (n + 1)) = true) := by
  intro s
  refine ⟨fun n i hi => ?_, by decide, fun n => ?_, fun n => ?_⟩
  · simp only [s, List.mem_cons, List.not_mem_nil, or_false] at hi
    rcases hi with rfl | rfl <;> rfl
  · by_cases h : n < 2
    · simp [loopPositive, positive, s]; omega
    · simp [loopPositive, s, h]
  · by_cases h : n + 1 < 2
    · have : n = 0 := by omega
      subst this
      decide
    · simp [loopEnd, s, h]

end Nagini.Termination
