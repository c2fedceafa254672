import Verif.Spec.Termination
import Mathlib.Order.Nat
import Mathlib.Order.Lattice.Nat
set_option linter.unusedVariables false
set_option linter.unusedSimpArgs false
namespace Nagini.Termination

theorem check_iff {map : List Entry} {k : Nat} {v : Int} :
    check map k v = true ↔ ∀ e ∈ map, e.guard = true → e.key = k → v < e.value := by
  unfold check
  rw [List.all_eq_true]
  constructor
  · intro h e he hg hk
    have := h e he
    simp only [hg, hk, beq_self_eq_true, Bool.and_self, Bool.not_true, Bool.false_or,
      decide_eq_true_eq] at this
    exact this
  · intro h e he
    by_cases hc : e.guard = true ∧ e.key = k
    · simp [h e he hc.1 hc.2]
    · cases hg : e.guard with
      | false => simp
      | true =>
        have : (e.key == k) = false := by
          cases hb : e.key == k with
          | false => rfl
          | true => exact absurd ⟨hg, by simpa using hb⟩ hc
        simp [this]

theorem wf_term {ct : Nat} {i : Inst} (h : i.wf ct = true) (ht : i.term = true) :
    i.fresh = false ∧ i.key = ct := by
  simpa [Inst.wf, ht] using h

theorem tcond_iff {map : List Entry} {ct : Nat} {is : List Inst} :
    tcond false map ct is = true ↔
      ∃ i ∈ is, i.term = true ∧ i.guard = true ∧ check map ct i.value = true := by
  simp only [tcond, List.any_eq_true, List.mem_filter, Bool.false_or, Bool.and_eq_true]
  constructor
  · rintro ⟨i, ⟨h1, h2⟩, h3, h4⟩; exact ⟨i, h1, h2, h3, h4⟩
  · rintro ⟨i, h1, h2, h3, h4⟩; exact ⟨i, ⟨h1, h2⟩, h3, h4⟩

theorem tcond_ignore_iff {map : List Entry} {ct : Nat} {is : List Inst} :
    tcond true map ct is = true ↔ Active is := by
  simp only [tcond, List.any_eq_true, List.mem_filter, Bool.true_or, Bool.and_true, Active]
  constructor
  · rintro ⟨i, ⟨h1, h2⟩, h3⟩; exact ⟨i, h1, h2, h3⟩
  · rintro ⟨i, h1, h2, h3⟩; exact ⟨i, ⟨h1, h2⟩, h3⟩

theorem inhaled_pos {is : List Inst} : 0 < inhaled is ↔ Active is := by
  unfold inhaled Active
  rw [List.length_pos_iff_exists_mem]
  simp only [List.mem_filter, Bool.and_eq_true]

theorem positive_iff {is : List Inst} : positive is = true ↔
    ∀ i ∈ is, i.guard = true → i.fresh = false → 0 < i.value := by
  unfold positive
  rw [List.all_eq_true]
  constructor
  · intro h i hi hg hf
    simpa [hg, hf] using h i hi
  · intro h i hi
    cases hg : i.guard <;> cases hf : i.fresh <;> simp
    exact h i hi hg hf

/-- The smallest measure among the active termination promises. -/
noncomputable def low (is : List Inst) : Nat :=
  sInf {n | ∃ i ∈ is, i.term = true ∧ i.guard = true ∧ i.value.toNat = n}

theorem low_le {is : List Inst} {i : Inst} (hi : i ∈ is) (ht : i.term = true) (hg : i.guard = true) :
    low is ≤ i.value.toNat := Nat.sInf_le ⟨i, hi, ht, hg, rfl⟩

theorem low_mem {is : List Inst} (h : Active is) :
    ∃ i ∈ is, i.term = true ∧ i.guard = true ∧ i.value.toNat = low is := by
  obtain ⟨i, hi, ht, hg⟩ := h
  exact Nat.sInf_mem (s := {n | ∃ i ∈ is, i.term = true ∧ i.guard = true ∧ i.value.toNat = n})
    ⟨_, i, hi, ht, hg, rfl⟩

/-- What the termination condition means. -/
theorem tcond_low {ct : Nat} {slack : Bool} {is js : List Inst} (hw : ∀ i ∈ is, i.wf ct = true)
    (ha : Active is) (hw' : ∀ i ∈ js, i.wf ct = true) (hp : positive js = true)
    (h : tcond false (initMap slack is) ct js = true) :
    Active js ∧ low js + (if slack then 0 else 1) ≤ low is := by
  obtain ⟨j, hj, ht, hg, hc⟩ := tcond_iff.1 h
  refine ⟨⟨j, hj, ht, hg⟩, ?_⟩
  obtain ⟨i, hi, hti, hgi, hl⟩ := low_mem ha
  obtain ⟨hfi, hki⟩ := wf_term (hw i hi) hti
  have hpos := positive_iff.1 hp j hj hg (wf_term (hw' j hj) ht).1
  have hlt := check_iff.1 hc ⟨i.guard, i.key, if slack then i.value + 1 else i.value⟩
    (List.mem_map.2 ⟨i, List.mem_filter.2 ⟨hi, by simp [hfi]⟩, rfl⟩) hgi hki
  simp only at hlt
  have := low_le hj ht hg
  cases slack with
  | true => simp only [if_true] at hlt ⊢; omega
  | false => simp only [Bool.false_eq_true, if_false] at hlt ⊢; omega

/-- The call check, for a caller that holds the obligation. -/
theorem callCheck_tcond {map : List Entry} {ct held : Nat} {lf : Bool} {js : List Inst}
    (hh : 0 < held) (h : callCheck map ct held lf (.python js) = true) :
    tcond false map ct js = true := by
  simp only [callCheck, Bool.or_eq_true, Bool.and_eq_true, beq_iff_eq] at h
  rcases h with h | ⟨h, _⟩
  · exact h
  · omega

/-! ### Loops -/

theorem loop_active {ct : Nat} {first : LoopState} {flag : Bool} (hf : flag = true)
    (h0 : Active first.insts) : ∀ (later : List LoopState),
    (∀ s ∈ later, s.cond = true) →
    List.IsChain (fun s s' => loopEnd ct flag s s' = true) (first :: later) →
    ∀ s ∈ first :: later, Active s.insts := by
  intro later
  induction later generalizing first with
  | nil => intro _ _ s hs; simp only [List.mem_singleton] at hs; rw [hs]; exact h0
  | cons a t ih =>
    intro hc hch s hs
    rcases List.mem_cons.1 hs with rfl | hs
    · exact h0
    · rw [List.isChain_cons_cons] at hch
      have ha : Active a.insts := by
        have := hch.1
        simp only [loopEnd, hf, hc a (by simp), Bool.not_true, Bool.false_or] at this
        obtain ⟨j, hj, ht, hg, _⟩ := tcond_iff.1 this
        exact ⟨j, hj, ht, hg⟩
      exact ih ha (fun x hx => hc x (by simp [hx])) hch.2 s hs

theorem loopRun_held {ct h : Nat} (hh : 0 < h) (l : LoopRun ct h) : 0 < l.held := by
  have hflag : loopFlag ct l.first = true := by
    have := l.entry
    simp only [loopEntry, l.cond l.first (by simp), Bool.not_true, Bool.or_false, Bool.or_eq_true,
      Bool.and_eq_true, beq_iff_eq] at this
    rcases this with h1 | ⟨h1, _⟩
    · exact h1
    · omega
  rw [LoopRun.held, inhaled_pos]
  exact loop_active hflag (tcond_ignore_iff.1 hflag) l.later
    (fun s hs => l.cond s (by simp [hs])) l.ends _ (List.getLast_mem _)

theorem site_held {ct h h' : Nat} (s : Site ct h h') (hh : 0 < h) : 0 < h' := by
  induction s with
  | body => exact hh
  | loop l _ ih => exact ih (loopRun_held hh l)

/-! ### Chains -/

theorem overrides_low {ct : Nat} {a c : List Inst} (h : Overrides ct a c)
    (hw : ∀ i ∈ a, i.wf ct = true) (ha : Active a) :
    (∀ i ∈ c, i.wf ct = true) ∧ Active c ∧ low c ≤ low a := by
  induction h with
  | refl => exact ⟨hw, ha, Nat.le_refl _⟩
  | step lf _ hwc hc ih =>
    obtain ⟨h1, h2, h3⟩ := ih
    simp only [overrideCheck, Bool.and_eq_true] at hc
    have := tcond_low h1 h2 hwc hc.2 (callCheck_tcond (inhaled_pos.2 h2) hc.1)
    exact ⟨hwc, this.1, by have := this.2; simp only [if_true] at this; omega⟩

theorem calls_low {ct : Nat} {f g : Frame} (h : Calls ct f g) (hw : ∀ i ∈ f.insts, i.wf ct = true)
    (ha : Active f.insts) :
    (∀ i ∈ g.insts, i.wf ct = true) ∧ Active g.insts ∧
      low g.insts + (if f.inherited then 0 else 1) ≤ low f.insts := by
  obtain ⟨held, lf, stat, hs, hws, hc, hp, ho⟩ := h
  have hh := site_held hs (inhaled_pos.2 ha)
  obtain ⟨h1, h2⟩ := tcond_low hw ha hws hp (callCheck_tcond hh hc)
  obtain ⟨h3, h4, h5⟩ := overrides_low ho hws h1
  exact ⟨h3, h4, by omega⟩

theorem chain_inherited {ct : Nat} : ∀ (k : Nat) (f : Nat → Frame),
    (∀ i ∈ (f 0).insts, i.wf ct = true) → Active (f 0).insts → low (f 0).insts ≤ k →
    (∀ n, Calls ct (f n) (f (n + 1))) → ∃ N, ∀ n, N ≤ n → (f n).inherited = true := by
  intro k
  induction k with
  | zero =>
    intro f hw ha hl hc
    refine ⟨0, fun n _ => ?_⟩
    have all : ∀ n, (∀ i ∈ (f n).insts, i.wf ct = true) ∧ Active (f n).insts ∧ low (f n).insts ≤ 0 := by
      intro n
      induction n with
      | zero => exact ⟨hw, ha, hl⟩
      | succ n ih =>
        obtain ⟨h1, h2, h3⟩ := calls_low (hc n) ih.1 ih.2.1
        exact ⟨h1, h2, by omega⟩
    have := (calls_low (hc n) (all n).1 (all n).2.1).2.2
    have h0 := (all n).2.2
    cases hi : (f n).inherited with
    | true => rfl
    | false => simp only [hi, Bool.false_eq_true, if_false] at this; omega
  | succ k ih =>
    intro f hw ha hl hc
    by_cases hall : ∀ n, (f n).inherited = true
    · exact ⟨0, fun n _ => hall n⟩
    · have hex : ∃ n, (f n).inherited = false := by
        refine Classical.byContradiction fun hn => hall fun n => ?_
        cases hi : (f n).inherited with
        | true => rfl
        | false => exact absurd ⟨n, hi⟩ hn
      obtain ⟨n, hn⟩ := hex
      have all : ∀ n, (∀ i ∈ (f n).insts, i.wf ct = true) ∧ Active (f n).insts ∧
          low (f n).insts ≤ k + 1 := by
        intro n
        induction n with
        | zero => exact ⟨hw, ha, hl⟩
        | succ n ih =>
          obtain ⟨h1, h2, h3⟩ := calls_low (hc n) ih.1 ih.2.1
          exact ⟨h1, h2, by have := ih.2.2; omega⟩
      obtain ⟨h1, h2, h3⟩ := calls_low (hc n) (all n).1 (all n).2.1
      have h4 := (all n).2.2
      simp only [hn, Bool.false_eq_true, if_false] at h3
      obtain ⟨N, hN⟩ := ih (fun m => f (n + 1 + m)) h1 h2 (by simp only [Nat.add_zero]; omega)
        (fun m => hc (n + 1 + m))
      refine ⟨n + 1 + N, fun m hm => ?_⟩
      have := hN (m - (n + 1)) (by omega)
      rwa [show n + 1 + (m - (n + 1)) = m by omega] at this

end Nagini.Termination
