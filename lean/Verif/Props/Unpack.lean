import Verif.Lemmas.Unpack

/-!
C05, C06: assignment to tuples, several targets and starred targets.
-/
namespace Nagini.Unpack

/-! ### C05 -/

/-- **C05, full claim** (star-free targets): running the emitted statements has
the effect of Python's assignment, for every target list, right-hand side and
store (failure of the emitted checks iff Python raises). -/
def AssignmentFaithful : Prop :=
  ∀ (targets : List Target) (rhs : RExpr) (σ : Store), (∀ t ∈ targets, t.starFree = true) →
    execAll σ (transAssign targets rhs) = pyAssignStmt targets rhs σ

/-- `a, b = b, a` with `a` = 1 and `b` = 2. -/
def swapTargets : List Target := [.tuple [.name 0, .name 1]]
def swapRhs : RExpr := .pair (.var 1) (.var 0)
def swapStore : Store := fun x => if x = 0 then .atom 1 else .atom 2

/-- C05 is violated by the swap `a, b = b, a`: Python gives a = 2, b = 1, the
encoding gives a = 2, b = 2. -/
theorem C05_swap_fails : ¬ AssignmentFaithful := by
  intro h
  have h := h swapTargets swapRhs swapStore (by simp [swapTargets, Target.starFree, Target.starFreeList])
  have h := congrArg (Option.map (fun σ : Store => σ 1)) h
  change some (Val.atom 2) = some (Val.atom 1) at h
  simp at h

/-- Already plain variable targets go wrong: in `a = b = (a, a)` the right-hand
side is evaluated again for `b`, after `a` was overwritten. -/
theorem C05_chained_targets_fail :
    ∃ (targets : List Target) (rhs : RExpr) (σ : Store),
      (∀ t ∈ targets, ∃ x, t = .name x) ∧
      execAll σ (transAssign targets rhs) ≠ pyAssignStmt targets rhs σ := by
  refine ⟨[.name 0, .name 1], .pair (.var 0) (.var 0), fun _ => .atom 7, by simp, ?_⟩
  intro h
  have h := congrArg (Option.map (fun σ : Store => σ 1)) h
  simp [transAssign, assignTo, execAll, TStmt.exec, RExpr.eval, pyAssignStmt, pyAssignAll, pyAssign, Store.set] at h

/-- **C05, proved part.** If no variable read by the right-hand side is assigned,
the statement has Python's effect for every (arbitrarily nested, star-free) list
of targets, including failing exactly when Python raises.  Missing: right-hand
sides that read an assigned variable, where the claim is false. -/
theorem C05_assignment_partial (targets : List Target) (rhs : RExpr) (σ : Store)
    (hs : ∀ t ∈ targets, t.starFree = true)
    (hd : ∀ t ∈ targets, ∀ x ∈ t.vars, x ∉ rhs.vars) (hv : rhs.eval σ ≠ none) :
    execAll σ (transAssign targets rhs) = pyAssignStmt targets rhs σ := by
  obtain ⟨v, hv⟩ := Option.ne_none_iff_exists'.1 hv
  rw [pyAssignStmt, hv, transAssign_ok targets rhs v σ hs hd hv]
  rfl

/-- A single variable target needs no guard (`x = f(x)`). -/
theorem C05_single_target (x : Nat) (rhs : RExpr) (σ : Store) :
    execAll σ (transAssign [.name x] rhs) = pyAssignStmt [.name x] rhs σ := by
  cases h : rhs.eval σ <;>
    simp [transAssign, assignTo, execAll, TStmt.exec, pyAssignStmt, pyAssignAll, pyAssign, h]

/-- Non-vacuity: `(a, (b, c)) = x` with x = (1, (2, 3)) assigns three variables. -/
example :
    let t : List Target := [.tuple [.name 0, .tuple [.name 1, .name 2]]]
    let σ : Store := fun _ => .seq [.atom 1, .seq [.atom 2, .atom 3]]
    (execAll σ (transAssign t (.var 9))).map (fun σ => (σ 0, σ 1, σ 2)) =
      some (.atom 1, .atom 2, .atom 3) := by
  intro t σ
  rw [C05_assignment_partial t (.var 9) σ (by simp [t, Target.starFree, Target.starFreeList])
    (by simp [t, Target.vars, Target.varsList, RExpr.vars]) (by simp [RExpr.eval])]
  rfl

/-! ### C06 -/

/-- `x1, ..., *s, y1, ..., yk` over local variables. -/
def starTarget (pre : List Nat) (s : Nat) (post : List Nat) : Target :=
  .tuple (pre.map .name ++ .star s :: post.map .name)

/-- **C06, full claim.** -/
def StarredFaithful : Prop :=
  ∀ (pre : List Nat) (s : Nat) (post : List Nat) (e : RExpr) (vs : List Val) (σ : Store),
    (pre ++ s :: post).Nodup → (∀ x ∈ pre ++ s :: post, x ∉ e.vars) → e.eval σ = some (.seq vs) →
    execAll σ (assignTo (starTarget pre s post) e) = pyAssign (starTarget pre s post) (.seq vs) σ

/-- C06 is violated by `*a, b = (1, 2, 3)`: Python assigns b = 3, the encoding 2. -/
theorem C06_starred_fails : ¬ StarredFaithful := by
  intro h
  have h := h [] 0 [1] (.const (.seq [.atom 1, .atom 2, .atom 3])) _ (fun _ => .atom 0) (by decide)
    (by simp [RExpr.vars]) rfl
  have h := congrArg (Option.map (fun σ : Store => σ 1)) h
  simp [starTarget, assignTo, assignElems, isStar, execAll, TStmt.exec, RExpr.eval, pyAssign, pyAssignStar,
    pySplit, pyAssignList, Store.set] at h

/-- C06 is also violated by a spurious failure: when the star matches nothing and
targets follow it, Python succeeds but the encoding always fails. -/
theorem C06_spurious_failure (pre : List Nat) (s : Nat) (post : List Nat) (e : RExpr) (vs : List Val)
    (σ : Store) (hd : ∀ x ∈ pre ++ s :: post, x ∉ e.vars) (hv : e.eval σ = some (.seq vs))
    (hpost : post ≠ []) (hl : vs.length = pre.length + post.length) :
    execAll σ (assignTo (starTarget pre s post) e) = none ∧
      (pyAssign (starTarget pre s post) (.seq vs) σ).isSome := by
  constructor
  · rw [starTarget, exec_star pre s post e vs σ hd hv, if_pos (by omega), if_neg]
    simp [hpost]; omega
  · have : (pre.map Target.name ++ Target.star s :: post.map Target.name).any isStar = true := by simp [isStar]
    simp only [starTarget, pyAssign, this, if_true, pyAssignStar_names]
    rw [if_pos (by omega)]; rfl

example : execAll (fun _ => .atom 0) (assignTo (starTarget [1] 2 [3]) (.const (.seq [.atom 1, .atom 2]))) = none :=
  (C06_spurious_failure [1] 2 [3] _ [.atom 1, .atom 2] _ (by simp [RExpr.vars]) rfl (by simp) rfl).1

/-- **C06, proved part.** Python's effect (including failure on too short
sequences) when the star is last or the sequence has exactly as many elements as
there are targets.  Missing: targets after the star with any other length. -/
theorem C06_starred_partial (pre : List Nat) (s : Nat) (post : List Nat) (e : RExpr) (vs : List Val)
    (σ : Store) (hd : ∀ x ∈ pre ++ s :: post, x ∉ e.vars) (hv : e.eval σ = some (.seq vs))
    (hl : post = [] ∨ vs.length = pre.length + 1 + post.length) :
    execAll σ (assignTo (starTarget pre s post) e) = pyAssign (starTarget pre s post) (.seq vs) σ := by
  have : (pre.map Target.name ++ Target.star s :: post.map Target.name).any isStar = true := by simp [isStar]
  simp only [starTarget, pyAssign, this, if_true, pyAssignStar_names]
  rw [exec_star pre s post e vs σ hd hv]
  by_cases h : pre.length + post.length ≤ vs.length
  · rw [if_pos h, if_pos h]
    rcases hl with rfl | hl
    · simp [setMany]
    · rw [if_pos (by omega), hl]
      congr 3; omega
  · rw [if_neg h, if_neg h]

/-- Non-vacuity: `a, *s = (1, 2, 3)` gives s = [2, 3]; and a too short sequence. -/
example :
    (execAll (fun _ => .atom 0) (assignTo (starTarget [0] 1 []) (.const (.seq [.atom 1, .atom 2, .atom 3])))).map
      (fun σ => (σ 0, σ 1)) = some (.atom 1, .seq [.atom 2, .atom 3]) ∧
    execAll (fun _ => .atom 0) (assignTo (starTarget [0] 1 []) (.const (.seq []))) = none := by
  constructor
  · rw [C06_starred_partial [0] 1 [] _ [.atom 1, .atom 2, .atom 3] _ (by simp [RExpr.vars]) rfl (Or.inl rfl)]
    simp [starTarget, pyAssign, pyAssignStar, pySplit, pyAssignList, Store.set, isStar]
  · rw [C06_starred_partial [0] 1 [] _ [] _ (by simp [RExpr.vars]) rfl (Or.inl rfl)]
    simp [starTarget, pyAssign, pyAssignStar, isStar]

/-- The length check itself is Python's: if the sequence is shorter than the
number of unstarred targets both fail. -/
theorem C06_length_check (pre : List Nat) (s : Nat) (post : List Nat) (e : RExpr) (vs : List Val)
    (σ : Store) (hd : ∀ x ∈ pre ++ s :: post, x ∉ e.vars) (hv : e.eval σ = some (.seq vs))
    (hl : vs.length < pre.length + post.length) :
    execAll σ (assignTo (starTarget pre s post) e) = none ∧
    pyAssign (starTarget pre s post) (.seq vs) σ = none := by
  have : (pre.map Target.name ++ Target.star s :: post.map Target.name).any isStar = true := by simp [isStar]
  simp only [starTarget, pyAssign, this, if_true, pyAssignStar_names]
  rw [exec_star pre s post e vs σ hd hv, if_neg (by omega), if_neg (by omega)]
  simp

example : execAll (fun _ => .atom 0) (assignTo (starTarget [1, 2] 3 [4]) (.const (.seq [.atom 1]))) = none :=
  (C06_length_check [1, 2] 3 [4] _ [.atom 1] _ (by simp [RExpr.vars]) rfl (by simp)).1

/-- When the encoding succeeds, the targets before the star and the starred
target hold Python's values, whatever follows the star. -/
theorem C06_prefix_and_star_partial (pre : List Nat) (s : Nat) (post : List Nat) (e : RExpr) (vs : List Val)
    (σ σ1 σ2 : Store) (hn : (pre ++ s :: post).Nodup)
    (hd : ∀ x ∈ pre ++ s :: post, x ∉ e.vars) (hv : e.eval σ = some (.seq vs))
    (h1 : execAll σ (assignTo (starTarget pre s post) e) = some σ1)
    (h2 : pyAssign (starTarget pre s post) (.seq vs) σ = some σ2) :
    ∀ x ∈ pre ++ [s], σ1 x = σ2 x := by
  have hany : (pre.map Target.name ++ Target.star s :: post.map Target.name).any isStar = true := by simp [isStar]
  simp only [starTarget, pyAssign, hany, if_true, pyAssignStar_names] at h2
  rw [starTarget, exec_star pre s post e vs σ hd hv] at h1
  intro x hx
  have hxp : x ∉ post := by
    intro hp
    rw [List.nodup_append] at hn
    rcases List.mem_append.1 hx with h | h
    · exact hn.2.2 x h x (by simp [hp]) rfl
    · simp at h; subst h
      exact (List.nodup_cons.1 hn.2.1).1 hp
  split at h1
  · split at h1
    · split at h2
      · simp only [Option.some.injEq] at h1 h2
        rw [← h1, ← h2, setMany_frame _ _ _ _ hxp, setMany_frame _ _ _ _ hxp]
      · omega
    · simp at h1
  · simp at h1

example : ∃ σ1 σ2, execAll (fun _ => .atom 0) (assignTo (starTarget [0] 1 [2])
      (.const (.seq [.atom 1, .atom 2, .atom 3, .atom 4]))) = some σ1 ∧
    pyAssign (starTarget [0] 1 [2]) (.seq [.atom 1, .atom 2, .atom 3, .atom 4]) (fun _ => .atom 0) = some σ2 ∧
    σ1 1 = .seq [.atom 2, .atom 3] ∧ σ1 2 = .atom 3 ∧ σ2 2 = .atom 4 := by
  refine ⟨_, _, rfl, rfl, ?_, ?_, ?_⟩ <;> simp [Store.set]

end Nagini.Unpack
