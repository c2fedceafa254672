import Verif.Model.LoopTypes

/-!
C153: loops keep the types of the variables that they assign.
-/
namespace Nagini.LoopTypes

/-- A loop with the given body in a function: `before` and `after` are the writes before and after those of the body. -/
structure Loop where
  args : List String
  before : List (String × Nat)
  body : S
  after : List (String × Nat)
  distinct : ((before ++ (body.writes ++ after)).map (·.2)).Nodup

/-- The writes of the function. -/
def Loop.writes (l : Loop) : List (String × Nat) := l.before ++ (l.body.writes ++ l.after)

/-- The variable is changed by the loop and has existed before. -/
def Loop.Changes (l : Loop) (x : String) : Prop :=
  x ∈ l.body.assigned ∧ (x ∈ l.args ∨ ∃ w ∈ l.before, w.1 = x)

/-- The full claim: exactly the types of variables that have existed before, and are assigned in the body of the loop, are
part of its invariant. -/
def C153_types : Prop := ∀ (l : Loop) (x : String), x ∈ havocked l.args l.writes l.body ↔ l.Changes x

theorem track_names (t : Target) : t.track = t.names := by
  induction t with
  | name => rfl
  | other => rfl
  | cons a b iha ihb => rw [Target.track, Target.names, iha, ihb]
  | starred t ih => rw [Target.track, Target.names, ih]

theorem writes_names (t : Target) : t.writes.map (·.1) = t.names := by
  induction t with
  | name => rfl
  | other => rfl
  | cons a b iha ihb => rw [Target.writes, Target.names, List.map_append, iha, ihb]
  | starred t ih => rw [Target.writes, Target.names, ih]

theorem assigned_writes (s : S) : s.writes.map (·.1) = s.assigned := by
  induction s <;> simp_all [S.writes, S.assigned, writes_names]

theorem collect_assigned {x : String} (s : S) (h : x ∈ s.collect) : x ∈ s.assigned := by
  induction s <;> simp_all [S.collect, S.assigned, track_names] <;> grind

theorem assigned_collect {x : String} (s : S) (h : x ∈ s.assigned) (h1 : x ∉ s.bound) (h2 : x ∉ s.captured) :
    x ∈ s.collect := by
  induction s <;> simp_all only [S.collect, S.assigned, S.bound, S.captured, track_names, List.mem_append, not_or] <;>
    grind

theorem writes_nodes {w : String × Nat} (s : S) (h : w ∈ s.writes) (h2 : w.1 ∉ s.captured) : w.2 ∈ s.nodes := by
  induction s <;>
    simp_all only [S.writes, S.nodes, S.captured, List.mem_append, not_or, List.not_mem_nil] <;>
    grind

theorem nodes_writes {i : Nat} (s : S) (h : i ∈ s.nodes) : ∃ w ∈ s.writes, w.2 = i := by
  induction s <;> simp_all only [S.writes, S.nodes, List.mem_append, List.not_mem_nil] <;> grind

/-- What is before the loop is not in it. -/
theorem before_nodes (l : Loop) {w : String × Nat} (h : w ∈ l.before) : w.2 ∉ l.body.nodes := by
  intro hn
  obtain ⟨v, hv, hvw⟩ := nodes_writes _ hn
  have hd := l.distinct
  rw [List.map_append, List.nodup_append] at hd
  exact hd.2.2 w.2 (List.mem_map_of_mem h) v.2 (List.mem_map_of_mem (List.mem_append_left _ hv)) hvw.symm

/-- For variables that no pattern in the loop binds: the first write is before the loop exactly if they existed before. -/
theorem first_write (l : Loop) {x : String} (ha : x ∈ l.body.assigned) (hc : x ∉ l.body.captured) :
    (match l.writes.find? (fun w => w.1 = x) with
      | none => false
      | some w => decide (w.2 ∉ l.body.nodes)) = true ↔ ∃ w ∈ l.before, w.1 = x := by
  rw [Loop.writes, List.find?_append, List.find?_append]
  cases hb : l.before.find? (fun w => w.1 = x) with
  | some w =>
    have hm := List.mem_of_find?_eq_some hb
    have hx := List.find?_some hb
    simp only [decide_eq_true_eq] at hx
    simp only [Option.some_or, decide_eq_true_eq]
    exact ⟨fun _ => ⟨w, hm, hx⟩, fun _ => before_nodes l hm⟩
  | none =>
    rw [List.find?_eq_none] at hb
    have hno : ¬ ∃ w ∈ l.before, w.1 = x := by
      rintro ⟨w, hw, hx⟩
      exact hb w hw (by simp [hx])
    cases hw : l.body.writes.find? (fun w => w.1 = x) with
    | some w =>
      have hm := List.mem_of_find?_eq_some hw
      have hx := List.find?_some hw
      simp only [decide_eq_true_eq] at hx
      have := writes_nodes l.body hm (by rw [hx]; exact hc)
      simp [this, hno]
    | none =>
      rw [← assigned_writes, List.mem_map] at ha
      obtain ⟨w, hw', hx⟩ := ha
      rw [List.find?_eq_none] at hw
      exact absurd (by simp [hx]) (hw w hw')

/-- Proved part: the claim holds for all variables that are not bound by `for`, `with` or patterns in the loop. -/
theorem C153_partial (l : Loop) (x : String) (hb : x ∉ l.body.bound) (hc : x ∉ l.body.captured) :
    x ∈ havocked l.args l.writes l.body ↔ l.Changes x := by
  unfold havocked Loop.Changes
  rw [List.mem_filter, Bool.or_eq_true, decide_eq_true_eq]
  constructor
  · rintro ⟨h1, h2⟩
    have ha := collect_assigned _ h1
    exact ⟨ha, h2.imp id (first_write l ha hc).1⟩
  · rintro ⟨h1, h2⟩
    exact ⟨assigned_collect _ h1 hb hc, h2.imp id (first_write l h1 hc).2⟩

/-- Types are never assumed for variables that did not exist before, except for those bound by patterns. -/
theorem C153_existed (l : Loop) (x : String) (hc : x ∉ l.body.captured)
    (h : x ∈ havocked l.args l.writes l.body) : l.Changes x := by
  unfold havocked at h
  rw [List.mem_filter, Bool.or_eq_true, decide_eq_true_eq] at h
  have ha := collect_assigned _ h.1
  exact ⟨ha, h.2.imp id (first_write l ha hc).1⟩

/-! ### Where the code violates the claim -/

/-- The target `x` of a loop in the loop: `def f(x: A): while c: for x in xs: pass`.  The type of `x` is lost. -/
theorem C153_for_fails (x : String) (i : Nat) :
    ∃ l : Loop, l.body = .for_ (.name x i) .other .other ∧ l.Changes x ∧ x ∉ havocked l.args l.writes l.body := by
  refine ⟨⟨[x], [], .for_ (.name x i) .other .other, [], by simp [S.writes, Target.writes]⟩, rfl, ?_, ?_⟩
  · simp [Loop.Changes, S.assigned, Target.names]
  · simp [havocked, S.collect]

/-- `while c: match e: case x: pass; x = 1`, where `x` does not exist before: the invariant states the type of `x`. -/
theorem C153_match_fails (x : String) :
    ∃ l : Loop, l.body = .seq (.mat [(x, 0)] .other) (.assign (.name x 1)) ∧ ¬ l.Changes x ∧
      x ∈ havocked l.args l.writes l.body := by
  refine ⟨⟨[], [], .seq (.mat [(x, 0)] .other) (.assign (.name x 1)), [], by simp [S.writes, Target.writes]⟩, rfl, ?_, ?_⟩
  · simp [Loop.Changes]
  · simp [havocked, S.collect, Target.track, Loop.writes, S.writes, Target.writes, S.nodes]

/-- The claim does not hold. -/
theorem C153_fails : ¬ C153_types := by
  intro h
  obtain ⟨l, _, h1, h2⟩ := C153_for_fails "x" 0
  exact h2 ((h l "x").2 h1)

/-! ### Examples -/

/-- `def f(p): y = 0; while c: (y, z), *p = ..; for w in ..: y += 1`. -/
def exLoop : Loop where
  args := ["p"]
  before := [("y", 0)]
  body := .seq (.assign (.cons (.cons (.name "y" 1) (.name "z" 2)) (.starred (.name "p" 3))))
    (.for_ (.name "w" 4) (.aug (.name "y" 5)) .other)
  after := [("z", 6)]
  distinct := by decide

example : "y" ∉ exLoop.body.bound ∧ "y" ∉ exLoop.body.captured ∧ exLoop.Changes "y" ∧ ¬ exLoop.Changes "z" := by
  refine ⟨by decide, by decide, ⟨by decide, .inr ⟨("y", 0), by simp [exLoop], rfl⟩⟩, ?_⟩
  rintro ⟨_, h | ⟨w, hw, hx⟩⟩
  · simp [exLoop] at h
  · simp [exLoop] at hw
    subst hw
    simp at hx

example : havocked exLoop.args exLoop.writes exLoop.body = ["y", "p", "y"] := by decide

end Nagini.LoopTypes
