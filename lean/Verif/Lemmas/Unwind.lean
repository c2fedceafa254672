import Verif.Model.Unwind
import Mathlib.Data.List.Sort
import Mathlib.Tactic.Linarith

set_option linter.unusedVariables false
set_option linter.unusedSimpArgs false
namespace Nagini.Unwind

variable {Ty : Type}

def Frame.skipped : Frame Ty → Bool
  | .tryOther _ true => true
  | .withBody _ => true
  | _ => false

theorem Frame.skipped_false {f : Frame Ty} (h : f.skipped = false) :
    f.lostFinally = false ∧ f.isWith = false := by
  cases f with
  | tryOther i b => cases b <;> simp_all [Frame.skipped, Frame.lostFinally, Frame.isWith]
  | _ => simp_all [Frame.skipped, Frame.lostFinally, Frame.isWith]

/-- Number of clean-ups a return skips. -/
theorem afterReturn_sub (fs : List (Frame Ty)) :
    (afterReturn fs).cleanups.length + (fs.filter Frame.skipped).length
      = (pyReturn fs).cleanups.length ∧ (afterReturn fs).target = (pyReturn fs).target := by
  induction fs with
  | nil => simp [afterReturn, pyReturn]
  | cons f fs ih =>
    obtain ⟨ih1, ih2⟩ := ih
    cases hf : f.skipped with
    | true =>
      rw [List.filter_cons_of_pos hf]
      cases f with
      | tryOther i b =>
        cases b
        · simp [Frame.skipped] at hf
        · simp [afterReturn, pyReturn, Trace.cons, ih2]; omega
      | withBody i => simp [afterReturn, pyReturn, Trace.cons, ih2]; omega
      | _ => simp [Frame.skipped] at hf
    | false =>
      rw [List.filter_cons_of_neg (by simp [hf])]
      cases f with
      | tryOther i b =>
        cases b
        · simp [afterReturn, pyReturn, ih2]; omega
        · simp [Frame.skipped] at hf
      | withBody i => simp [Frame.skipped] at hf
      | tryBody i b hs => cases b <;> simp [afterReturn, pyReturn, Trace.cons, ih2] <;> omega
      | _ => simp [afterReturn, pyReturn, ih2]; omega

theorem afterReturn_eq (fs : List (Frame Ty))
    (h : ∀ f ∈ fs, f.lostFinally = false ∧ f.isWith = false) : afterReturn fs = pyReturn fs := by
  induction fs with
  | nil => rfl
  | cons f fs ih =>
    have ih := ih (fun g hg => h g (by simp [hg]))
    have hf := h f (by simp)
    cases f with
    | tryBody i b hs => cases b <;> simp [afterReturn, pyReturn, ih]
    | tryOther i b => cases b <;> simp_all [afterReturn, pyReturn, Frame.lostFinally]
    | withBody i => simp [Frame.isWith] at hf
    | _ => simpa [afterReturn, pyReturn] using ih

theorem jumpReturn_eq (fs : List (Frame Ty)) (h1 : ∀ f ∈ fs, f.lostFinally = false)
    (h2 : ∀ f ∈ afterFirst fs, f.isWith = false) : jumpReturn fs = pyReturn fs := by
  induction fs with
  | nil => rfl
  | cons f fs ih =>
    have h1' : ∀ g ∈ fs, g.lostFinally = false := fun g hg => h1 g (by simp [hg])
    have hf := h1 f (by simp)
    cases f with
    | tryBody i b hs =>
      cases b
      · simpa [jumpReturn, pyReturn] using ih h1' (by simpa [afterFirst, Frame.hasCleanup] using h2)
      · have h2 : ∀ f ∈ fs, f.isWith = false := by simpa [afterFirst, Frame.hasCleanup] using h2
        simp [jumpReturn, pyReturn, afterReturn_eq fs (fun f hf => ⟨h1' f hf, h2 f hf⟩)]
    | tryOther i b =>
      cases b
      · simpa [jumpReturn, pyReturn] using ih h1' (by simpa [afterFirst, Frame.hasCleanup] using h2)
      · simp [Frame.lostFinally] at hf
    | withBody i =>
      have h2 : ∀ f ∈ fs, f.isWith = false := by simpa [afterFirst, Frame.hasCleanup] using h2
      simp [jumpReturn, pyReturn, afterReturn_eq fs (fun f hf => ⟨h1' f hf, h2 f hf⟩)]
    | _ => simpa [jumpReturn, pyReturn] using ih h1' (by simpa [afterFirst, Frame.hasCleanup] using h2)

theorem jumpReturn_conv (fs : List (Frame Ty)) (h : jumpReturn fs = pyReturn fs) :
    (∀ f ∈ fs, f.lostFinally = false) ∧ (∀ f ∈ afterFirst fs, f.isWith = false) := by
  have key : ∀ gs : List (Frame Ty), afterReturn gs = pyReturn gs →
      ∀ f ∈ gs, f.lostFinally = false ∧ f.isWith = false := by
    intro gs hgs f hf
    have := (afterReturn_sub gs).1
    rw [hgs] at this
    have h0 : gs.filter Frame.skipped = [] := by
      apply List.eq_nil_of_length_eq_zero; omega
    exact Frame.skipped_false (by simpa using List.filter_eq_nil_iff.1 h0 f hf)
  have len : ∀ gs : List (Frame Ty), (jumpReturn gs).cleanups.length ≤ (pyReturn gs).cleanups.length := by
    intro gs
    induction gs with
    | nil => simp [jumpReturn, pyReturn]
    | cons f gs ih =>
      have hs := (afterReturn_sub gs).1
      cases f with
      | tryBody i b hs' =>
        cases b
        · simpa [jumpReturn, pyReturn] using ih
        · simp [jumpReturn, pyReturn, Trace.cons]; omega
      | tryOther i b =>
        cases b
        · simpa [jumpReturn, pyReturn] using ih
        · simp [jumpReturn, pyReturn, Trace.cons]; omega
      | withBody i => simp [jumpReturn, pyReturn, Trace.cons]; omega
      | _ => simpa [jumpReturn, pyReturn] using ih
  have consinj : ∀ (i : Nat) (a b : Trace), a.cons i = b.cons i → a = b := by
    intro i a b h
    cases a; cases b; simp [Trace.cons] at h; simp [h]
  induction fs with
  | nil => simp [afterFirst]
  | cons f fs ih =>
    cases f with
    | tryBody i b hs =>
      cases b
      · have ih := ih (by simpa [jumpReturn, pyReturn] using h)
        simpa [afterFirst, Frame.hasCleanup, Frame.lostFinally] using ih
      · have := key fs (consinj i _ _ (by simpa [jumpReturn, pyReturn] using h))
        simp only [afterFirst, Frame.hasCleanup, if_true]
        refine ⟨?_, fun f hf => (this f hf).2⟩
        intro f hf
        rcases List.mem_cons.1 hf with rfl | hf
        · rfl
        · exact (this f hf).1
    | tryOther i b =>
      cases b
      · have ih := ih (by simpa [jumpReturn, pyReturn] using h)
        simpa [afterFirst, Frame.hasCleanup, Frame.lostFinally] using ih
      · have hl := len fs
        have := congrArg (fun t => t.cleanups.length) h
        simp [jumpReturn, pyReturn, Trace.cons] at this
        omega
    | withBody i =>
      have := key fs (consinj i _ _ (by simpa [jumpReturn, pyReturn] using h))
      simp only [afterFirst, Frame.hasCleanup, if_true]
      refine ⟨?_, fun f hf => (this f hf).2⟩
      intro f hf
      rcases List.mem_cons.1 hf with rfl | hf
      · rfl
      · exact (this f hf).1
    | _ =>
      have ih := ih (by simpa [jumpReturn, pyReturn] using h)
      simpa [afterFirst, Frame.hasCleanup, Frame.lostFinally] using ih

/-! ### break / continue -/

theorem parentLoop_pre (pre : List (Frame Ty)) (l : Nat) (post : List (Frame Ty))
    (h : ∀ f ∈ pre, f.isLoop = false ∧ f.isLoopElse = false) :
    parentLoop (pre ++ .loop l :: post) = some l := by
  induction pre with
  | nil => rfl
  | cons f pre ih =>
    have ih := ih (fun g hg => h g (by simp [hg]))
    have hf := h f (by simp)
    cases f <;> simp_all [parentLoop, Frame.isLoop, Frame.isLoopElse]

/-- Guard for the frames up to the loop, after the first clean-up. -/
theorem afterLoopJump_eq (stop : Nat → Target) (pre : List (Frame Ty)) (l : Nat) (post : List (Frame Ty))
    (h : ∀ f ∈ pre, f.lostFinally = false ∧ f.isWith = false ∧ f.isLoop = false ∧ f.isLoopElse = false)
    (blk : Nat) :
    some (afterLoopJump stop blk (pre ++ .loop l :: post)) = pyLoopJump stop (pre ++ .loop l :: post) := by
  induction pre generalizing blk with
  | nil => simp [afterLoopJump, pyLoopJump]
  | cons f pre ih =>
    have ih := ih (fun g hg => h g (by simp [hg]))
    have hf := h f (by simp)
    have hk := parentLoop_pre pre l post (fun g hg => ⟨(h g (by simp [hg])).2.2.1, (h g (by simp [hg])).2.2.2⟩)
    cases f with
    | loop i => simp [Frame.isLoop] at hf
    | loopElse i => simp [Frame.isLoopElse] at hf
    | withBody i => simp [Frame.isWith] at hf
    | tryBody i b hs =>
      cases b
      · simpa [afterLoopJump, pyLoopJump] using ih blk
      · simp only [List.cons_append, afterLoopJump, hk, pyLoopJump, ← ih i]
        simp
    | tryOther i b =>
      cases b
      · simpa [afterLoopJump, pyLoopJump] using ih blk
      · simp [Frame.lostFinally] at hf
    | tryFinal i => simpa [afterLoopJump, pyLoopJump] using ih blk

theorem firstFinally_none (fs : List (Frame Ty)) (h : ∀ f ∈ fs, f.hasCleanup = false) :
    firstFinally fs = none := by
  induction fs with
  | nil => rfl
  | cons f fs ih =>
    have ih := ih (fun g hg => h g (by simp [hg]))
    have hf := h f (by simp)
    cases f with
    | tryBody i b hs => cases b <;> simp_all [firstFinally, Frame.hasCleanup]
    | withBody i => simp [Frame.hasCleanup] at hf
    | _ => simpa [firstFinally] using ih

theorem pyLoopJump_none (stop : Nat → Target) (pre : List (Frame Ty)) (l : Nat) (post : List (Frame Ty))
    (h : ∀ f ∈ pre, f.lostFinally = false ∧ f.hasCleanup = false ∧ f.isLoop = false) :
    pyLoopJump stop (pre ++ .loop l :: post) = some ⟨[], stop l⟩ := by
  induction pre with
  | nil => rfl
  | cons f pre ih =>
    have ih := ih (fun g hg => h g (by simp [hg]))
    have hf := h f (by simp)
    cases f with
    | loop i => simp [Frame.isLoop] at hf
    | tryBody i b hs => cases b <;> simp_all [pyLoopJump, Frame.hasCleanup]
    | tryOther i b => cases b <;> simp_all [pyLoopJump, Frame.lostFinally]
    | withBody i => simp [Frame.hasCleanup] at hf
    | _ => simpa [pyLoopJump] using ih

theorem jumpLoop_eq (stop : Nat → Target) (pre : List (Frame Ty)) (l : Nat) (post : List (Frame Ty))
    (h : ∀ f ∈ pre, f.lostFinally = false ∧ f.isLoop = false ∧ f.isLoopElse = false)
    (hw : ∀ f ∈ afterFirst pre, f.isWith = false)
    (ho : (∃ f ∈ pre, f.hasCleanup = true) ∨ ∀ f ∈ post, f.hasCleanup = false) :
    jumpLoop stop (pre ++ .loop l :: post) = pyLoopJump stop (pre ++ .loop l :: post) := by
  have hpl := parentLoop_pre pre l post (fun f hf => ⟨(h f hf).2.1, (h f hf).2.2⟩)
  simp only [jumpLoop, hpl]
  by_cases hc : ∃ f ∈ pre, f.hasCleanup = true
  · clear ho hpl
    induction pre with
    | nil => simp at hc
    | cons f pre ih =>
      have h' : ∀ f ∈ pre, f.lostFinally = false ∧ f.isLoop = false ∧ f.isLoopElse = false :=
        fun g hg => h g (by simp [hg])
      have hf := h f (by simp)
      by_cases hcf : f.hasCleanup = true
      · have hw' : ∀ f ∈ pre, f.isWith = false := by simpa [afterFirst, hcf] using hw
        have hk := afterLoopJump_eq stop pre l post
          (fun g hg => ⟨(h' g hg).1, hw' g hg, (h' g hg).2.1, (h' g hg).2.2⟩)
        cases f with
        | tryBody i b hs =>
          simp only [Frame.hasCleanup] at hcf
          subst hcf
          simp [firstFinally, pyLoopJump, ← hk i]
        | withBody i => simp [firstFinally, pyLoopJump, ← hk i]
        | _ => simp [Frame.hasCleanup] at hcf
      · have hc' : ∃ g ∈ pre, g.hasCleanup = true := by
          obtain ⟨g, hg, hgc⟩ := hc
          rcases List.mem_cons.1 hg with rfl | hg
          · exact absurd hgc hcf
          · exact ⟨g, hg, hgc⟩
        have ih := ih h' (by simpa [afterFirst, hcf] using hw) hc'
        cases f with
        | loop i => simp [Frame.isLoop] at hf
        | loopElse i => simp [Frame.isLoopElse] at hf
        | tryBody i b hs =>
          cases b
          · simpa [firstFinally, pyLoopJump] using ih
          · simp [Frame.hasCleanup] at hcf
        | tryOther i b =>
          cases b
          · simpa [firstFinally, pyLoopJump] using ih
          · simp [Frame.lostFinally] at hf
        | withBody i => simp [Frame.hasCleanup] at hcf
        | tryFinal i => simpa [firstFinally, pyLoopJump] using ih
  · have hpre : ∀ f ∈ pre, f.hasCleanup = false := by
      intro f hf
      cases hh : f.hasCleanup
      · rfl
      · exact absurd ⟨f, hf, hh⟩ hc
    have hpost := ho.resolve_left hc
    rw [firstFinally_none, pyLoopJump_none]
    · intro f hf
      exact ⟨(h f hf).1, hpre f hf, (h f hf).2.1⟩
    · intro f hf
      rcases List.mem_append.1 hf with hf | hf
      · exact hpre f hf
      · rcases List.mem_cons.1 hf with rfl | hf
        · rfl
        · exact hpost f hf

/-! ### exceptions -/

section exc
variable {Exc : Type} (isinst : Exc → Ty → Bool)

theorem catcher_plain (e : Exc) (fs : List (Frame Ty)) (h : ∀ f ∈ fs, f.plain = true) :
    (pyRaise isinst e fs) =
      (match catcher isinst e fs with
       | some (i, k) => ⟨[], .handler i k⟩
       | none => ⟨[], .caller⟩) := by
  induction fs with
  | nil => rfl
  | cons f fs ih =>
    have ih := ih (fun g hg => h g (by simp [hg]))
    have hf := h f (by simp)
    cases f with
    | tryBody i b hs =>
      cases b
      · simp only [pyRaise, catcher]
        cases hm : firstMatch isinst e hs with
        | some k => simp
        | none => simpa using ih
      · simp [Frame.plain] at hf
    | tryOther i b => cases b <;> simp_all [pyRaise, catcher, Frame.plain]
    | withBody i => simp [Frame.plain] at hf
    | _ => simpa [pyRaise, catcher] using ih

theorem afterRaise_plain (errs : Nat → Exc) (blk : Nat) (fs : List (Frame Ty))
    (h : ∀ f ∈ fs, f.plain = true) :
    (afterRaise isinst errs blk fs).trace = pyRaise isinst (errs blk) fs := by
  induction fs with
  | nil => rfl
  | cons f fs ih =>
    have ih := ih (fun g hg => h g (by simp [hg]))
    have hf := h f (by simp)
    cases f with
    | tryBody i b hs =>
      cases b
      · simp only [pyRaise, afterRaise]
        cases hm : firstMatch isinst (errs blk) hs with
        | some k => simp
        | none => simpa using ih
      · simp [Frame.plain] at hf
    | tryOther i b => cases b <;> simp_all [pyRaise, afterRaise, Frame.plain]
    | withBody i => simp [Frame.plain] at hf
    | _ => simpa [pyRaise, afterRaise] using ih

theorem afterRaise_bound (errs : Nat → Exc) (blk : Nat) (fs : List (Frame Ty))
    (h : ∀ f ∈ fs, f.plain = true)
    (ht : (afterRaise isinst errs blk fs).trace.target = .caller) :
    (afterRaise isinst errs blk fs).bound = errs blk := by
  induction fs with
  | nil => rfl
  | cons f fs ih =>
    have ih := ih (fun g hg => h g (by simp [hg]))
    have hf := h f (by simp)
    cases f with
    | tryBody i b hs =>
      cases b
      · simp only [afterRaise] at ht ⊢
        cases hm : firstMatch isinst (errs blk) hs with
        | some k => simp [hm] at ht
        | none => simp only [hm] at ht ⊢; simpa using ih (by simpa using ht)
      · simp [Frame.plain] at hf
    | tryOther i b => simpa [afterRaise] using ih (by simpa [afterRaise] using ht)
    | withBody i => simp [Frame.plain] at hf
    | _ => simpa [afterRaise] using ih (by simpa [afterRaise] using ht)

theorem firstFinally_plain (fs : List (Frame Ty)) (h : ∀ f ∈ fs, f.plain = true) :
    firstFinally fs = none := by
  apply firstFinally_none
  intro f hf
  have := h f hf
  cases f <;> simp_all [Frame.plain, Frame.hasCleanup]

end exc

/-! ### sorting by rank -/

theorem rank_pairwise (outer : Nat → List Nat) (P blocks : List Nat) (hp : blocks.Perm P)
    (ho : ∀ pre b post, P = pre ++ b :: post → P.filter (fun c => (outer b).contains c) = post) :
    P.Pairwise (fun a b => rank outer blocks a < rank outer blocks b) := by
  have hr : ∀ pre b post, P = pre ++ b :: post → rank outer blocks b = - (post.length : Int) := by
    intro pre b post h
    unfold rank
    have := (hp.filter (fun c => (outer b).contains c)).length_eq
    rw [this, ho pre b post h]
  have gen : ∀ (suf pre : List Nat), P = pre ++ suf →
      suf.Pairwise (fun a b => rank outer blocks a < rank outer blocks b) := by
    intro suf
    induction suf with
    | nil => intro pre h; exact List.Pairwise.nil
    | cons a suf ih =>
      intro pre h
      refine List.Pairwise.cons ?_ (ih (pre ++ [a]) (by simp [h]))
      intro b hb
      obtain ⟨s, t, rfl⟩ := List.append_of_mem hb
      rw [hr pre a _ h, hr (pre ++ a :: s) b t (by simp [h])]
      simp
      omega
  exact gen P [] rfl

theorem sortedByRank_eq (outer : Nat → List Nat) (P blocks : List Nat) (hp : blocks.Perm P)
    (ho : ∀ pre b post, P = pre ++ b :: post → P.filter (fun c => (outer b).contains c) = post) :
    sortedByRank outer blocks = P := by
  have h1 := rank_pairwise outer P blocks hp ho
  have hs : (sortedByRank outer blocks).Pairwise
      (fun a b => rank outer blocks a ≤ rank outer blocks b) := by
    have := List.pairwise_mergeSort (le := fun a b => decide (rank outer blocks a ≤ rank outer blocks b))
      (by intro a b c; simp; omega) (by intro a b; simp; omega) blocks
    simpa [sortedByRank] using this
  have hperm : (sortedByRank outer blocks).Perm P := (List.mergeSort_perm _ _).trans hp
  refine List.Perm.eq_of_pairwise ?_ hs (h1.imp (fun h => Int.le_of_lt h)) hperm
  intro a b ha hb hab hba
  have hb' : b ∈ P := hb
  have ha' : a ∈ P := hperm.mem_iff.1 ha
  have heq : rank outer blocks a = rank outer blocks b := Int.le_antisymm hab hba
  by_contra hne
  have : ∀ (x y : Nat), x ∈ P → y ∈ P → x ≠ y →
      rank outer blocks x < rank outer blocks y ∨ rank outer blocks y < rank outer blocks x := by
    intro x y hx hy hxy
    obtain ⟨i, hi, rfl⟩ := List.getElem_of_mem hx
    obtain ⟨j, hj, rfl⟩ := List.getElem_of_mem hy
    have hpw := List.pairwise_iff_getElem.1 h1
    rcases Nat.lt_trichotomy i j with h | h | h
    · exact Or.inl (hpw i j hi hj h)
    · subst h; exact absurd rfl hxy
    · exact Or.inr (hpw j i hj hi h)
  rcases this a b ha' hb' hne with h | h <;> omega

end Nagini.Unwind
