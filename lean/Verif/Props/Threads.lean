import Verif.Lemmas.Threads
import Mathlib.Tactic.NormNum
set_option linter.unusedSimpArgs false
/-!
C66, C67: starting and joining threads.
-/
namespace Nagini.Threads

/-- A thread with target `m`, started in a method that has a result or not. -/
structure Task where
  m : Method
  b : Bool
  L : Life
  E : VEnv
  eqs : List (Term × VT)
  v : VA
  joins : joinAssertion m = some v
  starts : remember b m = some eqs
  agrees : Agrees m L E eqs

/-- What other threads see of a task.  Joins take place in states with old heap `ho`, and see the heap in which the
thread ended. -/
noncomputable def Task.thr (k : Task) (W : World) (ho : Heap) : Thr where
  give := permPosts W (k.m.params.zip k.L.args) k.L.res k.L.start k.L.fin k.m.posts
  inh p := gainV W k.E ho k.L.fin p k.v
  exc := k.m.exc

/-! ### C66 -/

/-- However threads with targets in `ok` are started and joined, no more than the full permission to anything is
held by all threads together. -/
def Conserves (ok : Method → Prop) : Prop :=
  ∀ (W : World) (ho : Nat → Heap) (tasks : Nat → Task), (∀ t, ok (tasks t).m) →
    ∀ s, Reach (fun t => (tasks t).thr W (ho t)) s → ∀ l, s.total l ≤ 1

/-- C66 for targets without declared exceptions, whose postconditions contain permissions only to fields and
predicates, and `Old` only around expressions without bound variables, `Result()` and `Old`.  The full claim is
`Conserves fun _ => True`. -/
theorem C66_joins_conserve_permissions_partial :
    Conserves fun m => m.exc = false ∧ ∀ a ∈ m.posts, scalable a = true ∧ oldOkA a = true := by
  intro W ho tasks hok s hs l
  refine (reach_le (fun t l => permPosts_nonneg fun a ha => ((hok t).2 a ha).1) (fun t => (hok t).1)
    (fun t p l _ => ?_) hs l).2
  exact join_gain (tasks t).agrees (tasks t).starts (ho t) W (tasks t).joins (fun a ha => ((hok t).2 a ha).2) p
    (fun a ha => .inr ((hok t).2 a ha).1) l

/-- A join with the full permission to `ThreadPost` adds exactly the permissions that the thread gave up, also to
global variables and threads; `MaySet` is left out. -/
theorem C66_full_join_partial (k : Task) (W : World) (ho : Heap)
    (h : ∀ a ∈ k.m.posts, noMaySet a = true ∧ oldOkA a = true) : (k.thr W ho).inh 1 = (k.thr W ho).give := by
  funext l
  refine (join_gain k.agrees k.starts ho W k.joins (fun a ha => (h a ha).2) 1 (fun a ha => .inl ⟨rfl, (h a ha).1⟩)
    l).trans ?_
  rw [one_mul]
  rfl

/-- A join with a part of the permission to `ThreadPost` adds that part of the permissions to fields and
predicates. -/
theorem C66_partial_join_partial (k : Task) (W : World) (ho : Heap) (p : ℚ) (l : Loc)
    (h : ∀ a ∈ k.m.posts, scalable a = true ∧ oldOkA a = true) :
    (k.thr W ho).inh p l = p * (k.thr W ho).give l :=
  join_gain k.agrees k.starts ho W k.joins (fun a ha => (h a ha).2) p (fun a ha => .inr (h a ha).1) l

/-- Threads with target `m`, which has a parameter `t`, all started with the argument 2. -/
def Task.two (m : Method) (v : VA) (hp : m.params = ["t"]) (hj : joinAssertion m = some v)
    (hs : remember true m = some []) (h : Heap) : Task where
  m := m
  b := true
  L := ⟨[2], 0, h, h, h⟩
  E := ⟨fun _ => 2, 0, 0, fun _ => 0, fun _ _ => True⟩
  eqs := []
  v := v
  joins := hj
  starts := hs
  agrees := ⟨by simp [hp], by intro i v hi; cases i <;> simp_all, rfl, by simp⟩

/-- A target with the only postcondition `a`. -/
def single (exc : Bool) (a : Asn) : Method := ⟨["t"], ["g"], exc, [a]⟩

/-- A heap. -/
def zero : Heap := ⟨fun _ _ => 0, fun _ => 0⟩

/-- Permissions that joins do not scale, and what they are permissions to. -/
def unscaled : List (Asn × Loc) :=
  [(.glob "g" 1, .glob "g"), (.start (.var "t") 1, .start 2), (.post (.var "t") 1, .post 2),
    (.mayCreate (.var "t") "f", .maySet 2 "f")]

/-- Permissions to global variables, to start or join other threads and to create attributes are duplicated if two
threads with half of the permission to `ThreadPost` join the same thread. -/
theorem C66_unscaled_fails (a : Asn) (l : Loc) (h : (a, l) ∈ unscaled) (W : World) :
    ∃ tasks : Nat → Task, (∀ t, (tasks t).m = single false a) ∧
      ∃ s, Reach (fun t => (tasks t).thr W zero) s ∧ s.total l = 2 := by
  have hs : remember true (single false a) = some [] := by
    simp only [unscaled, List.mem_cons, Prod.mk.injEq, List.not_mem_nil, or_false] at h
    rcases h with ⟨rfl, rfl⟩ | ⟨rfl, rfl⟩ | ⟨rfl, rfl⟩ | ⟨rfl, rfl⟩ <;> rfl
  have hj : ∃ v, joinAssertion (single false a) = some v ∧
      ∀ E : VEnv, E.param 0 = 2 → gainV W E zero zero (1 / 2) v l = 1 := by
    simp only [unscaled, List.mem_cons, Prod.mk.injEq, List.not_mem_nil, or_false] at h
    rcases h with ⟨rfl, rfl⟩ | ⟨rfl, rfl⟩ | ⟨rfl, rfl⟩ | ⟨rfl, rfl⟩ <;>
      exact ⟨_, rfl, fun E hE => by simp [gainV, evalL, evalP, evalV, hE]⟩
  obtain ⟨v, hv, hgain⟩ := hj
  refine ⟨fun _ => .two (single false a) v rfl hv hs zero, fun _ => rfl, dup _ l ?_ ?_ ?_⟩
  · simp only [unscaled, List.mem_cons, Prod.mk.injEq, List.not_mem_nil, or_false] at h
    rcases h with ⟨rfl, rfl⟩ | ⟨rfl, rfl⟩ | ⟨rfl, rfl⟩ | ⟨rfl, rfl⟩ <;> simp
  · intro l'
    by_cases h' : l' = l <;>
    simp only [unscaled, List.mem_cons, Prod.mk.injEq, List.not_mem_nil, or_false] at h <;>
    rcases h with ⟨rfl, rfl⟩ | ⟨rfl, rfl⟩ | ⟨rfl, rfl⟩ | ⟨rfl, rfl⟩ <;>
      simp [Task.thr, Task.two, single, permPosts, permA, evalT, List.lookup, h']
  · exact hgain _ rfl

/-- C66 does not hold, already without exceptions. -/
theorem C66_fails : ¬ Conserves fun m => m.exc = false ∧ ∀ a ∈ m.posts, oldOkA a = true := by
  intro h
  obtain ⟨tasks, h1, s, h2, h3⟩ := C66_unscaled_fails (.glob "g" 1) (.glob "g") (by simp [unscaled])
    ⟨fun _ => True, fun _ _ => True⟩
  have := h _ (fun _ => zero) tasks (fun t => by rw [h1]; simp [single, oldOkA]) s h2 (.glob "g")
  rw [h3] at this
  norm_num at this

/-- A thread that ends with a declared exception gives up nothing, but joining it adds the permissions in its normal
postconditions. -/
theorem C66_exceptions_fail : ¬ Conserves fun m => ∀ a ∈ m.posts, scalable a = true ∧ oldOkA a = true := by
  intro h
  let k : Task := .two (single true (.field (.var "t") "f" 1)) _ rfl rfl rfl zero
  let W : World := ⟨fun _ => True, fun _ _ => True⟩
  let s1 : St := { (init.set 0 fun l => init.hold 0 l + if l = .post init.n then 1 else 0).set init.n fun _ => 0
    with n := init.n + 1 }
  have r1 : Reach (fun _ => k.thr W zero) s1 := .step .init (.start init 0 (by decide))
  have r2 := Reach.step r1 (.raise s1 1 (by decide) (fun h => h) rfl)
  have hp : s1.hold 0 (.post 1) = 1 := by simp [s1, init, St.set]
  have r3 := Reach.step r2 (.join _ 0 1 (by decide) (by decide) (.inl rfl)
    (by show 0 < s1.hold 0 (.post 1); rw [hp]; norm_num))
  have := h W (fun _ => zero) (fun _ => k) (fun _ => by simp [k, Task.two, single, scalable, oldOkA, oldOkT]) _ r3 (.field 2 "f")
  simp only [St.total, St.set, s1, init, Finset.sum_range_succ, Finset.sum_range_zero] at this
  norm_num [Task.thr, k, Task.two, gainV, evalL, evalP, evalV, scale, joinCtx] at this

/-- `def work(t): Ensures(Acc(t.f) and t.f > Old(t.f)); Ensures(Result() == t.f)`. -/
def work : Method := ⟨["t"], ["g"], false,
  [.and (.field (.var "t") "f" 1) (.pure (.lt (.old (.field (.var "t") "f")) (.field (.var "t") "f"))),
    .pure (.eq .res (.field (.var "t") "f"))]⟩

/-- A thread with target `work` that increases the field from 0 to 3. -/
noncomputable def workTask : Task where
  m := work
  b := false
  L := ⟨[2], 3, zero, zero, ⟨fun _ _ => 3, fun _ => 0⟩⟩
  E := ⟨fun _ => 2, 3, 0, fun _ => 0, fun _ _ => True⟩
  eqs := _
  v := _
  joins := rfl
  starts := rfl
  agrees := ⟨rfl, by intro i v hi; cases i <;> simp_all, rfl, by
    intro e he; simp at he; subst he; rfl⟩

example : ∀ W ho, (∀ s, Reach (fun _ => workTask.thr W ho) s → ∀ l, s.total l ≤ 1) ∧
    (workTask.thr W ho).inh (1 / 2) (.field 2 "f") = 1 / 2 := by
  intro W ho
  have hk : ∀ a ∈ work.posts, scalable a = true ∧ oldOkA a = true := by decide +kernel
  refine ⟨C66_joins_conserve_permissions_partial W (fun _ => ho) (fun _ => workTask) (fun _ => ⟨rfl, hk⟩), ?_⟩
  rw [C66_partial_join_partial workTask W ho _ _ hk]
  simp [Task.thr, workTask, work, permPosts, permA, evalT, List.lookup]

example (W : World) : ∃ k : Task, k.m = single false (.glob "g" 1) ∧ (k.thr W zero).inh 1 (.glob "g") = 1 := by
  let k : Task := .two (single false (.glob "g" 1)) _ rfl rfl rfl zero
  refine ⟨k, rfl, ?_⟩
  rw [C66_full_join_partial k W zero (by simp [k, Task.two, single, noMaySet, oldOkA])]
  simp [Task.thr, k, Task.two, single, permPosts, permA]

/-! ### C67 -/

/-- The facts assumed at a join are true: if the thread ended as its contract says, the inhaled facts hold in the
state in which it ended. -/
def JoinAssumesTruth (ok : Method → Prop) : Prop :=
  ∀ (W : World) (k : Task) (ho : Heap), ok k.m → Ended W k.m k.L → factsV W k.E ho k.L.fin k.v

/-- C67 for targets without declared exceptions, with `Old` only around expressions without bound variables,
`Result()` and `Old`.  The full claim is `JoinAssumesTruth fun _ => True`. -/
theorem C67_join_assumes_truth_partial :
    JoinAssumesTruth fun m => m.exc = false ∧ ∀ a ∈ m.posts, oldOkA a = true := by
  intro W k ho hok he
  rcases he with he | he
  · exact (join_facts k.agrees k.starts ho W k.joins hok.2).2 he
  · rw [hok.1] at he; cases he

/-- Under the same conditions on `Old`, a join assumes everything that the thread promised. -/
theorem C67_join_assumes_all_partial (W : World) (k : Task) (ho : Heap) (hok : ∀ a ∈ k.m.posts, oldOkA a = true)
    (h : factsV W k.E ho k.L.fin k.v) :
    holdsPosts W (k.m.params.zip k.L.args) k.L.res k.L.start k.L.fin k.m.posts :=
  (join_facts k.agrees k.starts ho W k.joins hok).1 h

/-- The equations inhaled at a start are consistent: whatever the arguments and the states are, there are values for
the remembered expressions that satisfy them. -/
theorem C67_start_consistent (b : Bool) (m : Method) (eqs : List (Term × VT)) (h : remember b m = some eqs)
    (E : VEnv) (co st : Heap) :
    ∃ old : Term → Int, ∀ e ∈ eqs, old e.1 = evalV { E with old := old } [] co st e.2 := by
  obtain ⟨old, ho⟩ := eqs_consistent h E co st
  refine ⟨old, fun e he => ?_⟩
  obtain ⟨d, _, _, hd⟩ := rememberAll_of_mem h he
  rw [ho e he]
  exact evalV_old hd rfl (by cases b <;> simp [forkCtx]) st

/-- The claim fails for the target `m`. -/
def Violates (m : Method) : Prop := ∃ (W : World) (k : Task) (ho : Heap),
  k.m = m ∧ Ended W m k.L ∧ ¬ factsV W k.E ho k.L.fin k.v

/-- `Ensures(False)` on a method that always raises a declared exception. -/
def raises : Method := single true (.pure (.eq (.lit 0) (.lit 1)))

theorem C67_exceptions_fail : Violates raises := by
  refine ⟨⟨fun _ => True, fun _ _ => True⟩, .two raises _ rfl rfl rfl zero, zero, rfl, .inr rfl, ?_⟩
  simp [factsV, truthV, evalV, Task.two]

/-- `Ensures(Forall(int, lambda g: Old(g) == g))`, where `g` is also a global variable. -/
def bound : Method := ⟨["t"], ["g"], false, [.pure (.all "g" (.eq (.old (.var "g")) (.var "g")))]⟩

/-- `Ensures(Old(Old(t.f)) == Old(t.f))`. -/
def nested : Method :=
  ⟨["t"], ["g"], false, [.pure (.eq (.old (.old (.field (.var "t") "f"))) (.old (.field (.var "t") "f")))]⟩

/-- `Ensures(Old(Result()) == Result())`. -/
def oldResult : Method := ⟨["t"], ["g"], false, [.pure (.eq (.old .res) .res)]⟩

theorem C67_bound_fails : Violates bound := by
  let k : Task := ⟨bound, false, ⟨[2], 0, zero, zero, zero⟩, ⟨fun _ => 2, 0, 0, fun _ => 0, fun _ _ => True⟩, _, _,
    rfl, rfl, ⟨rfl, by intro i v hi; cases i <;> simp_all, rfl, by intro e he; simp at he; subst he; rfl⟩⟩
  refine ⟨⟨fun _ => True, fun _ _ => True⟩, k, zero, rfl, .inl ?_, ?_⟩
  · simp [holdsPosts, bound, holdsA, holdsC, evalT]
  · intro h
    have := h.2 1
    simp [truthV, evalV, k, List.lookup] at this

theorem C67_nested_fails : Violates nested := by
  let one : Heap := ⟨fun _ _ => 1, fun _ => 0⟩
  let k : Task := ⟨nested, false, ⟨[2], 0, zero, one, zero⟩,
    ⟨fun _ => 2, 0, 0, fun t => match t with | .old _ => 1 | _ => 0, fun _ _ => True⟩, _, _,
    rfl, rfl, ⟨rfl, by intro i v hi; cases i <;> simp_all, rfl, by
      intro e he; simp at he; rcases he with rfl | rfl <;> rfl⟩⟩
  refine ⟨⟨fun _ => True, fun _ _ => True⟩, k, zero, rfl, .inl ?_, ?_⟩
  · simp [holdsPosts, nested, holdsA, holdsC, evalT]
  · intro h
    have := h.2
    simp [factsV, truthV, evalV, k, norm] at this

theorem C67_result_fails : Violates oldResult := by
  let k : Task := ⟨oldResult, true, ⟨[2], 0, zero, zero, zero⟩, ⟨fun _ => 2, 0, 5, fun _ => 5, fun _ _ => True⟩, _, _,
    rfl, rfl, ⟨rfl, by intro i v hi; cases i <;> simp_all, rfl, by intro e he; simp at he; subst he; rfl⟩⟩
  refine ⟨⟨fun _ => True, fun _ _ => True⟩, k, zero, rfl, .inl ?_, ?_⟩
  · simp [holdsPosts, oldResult, holdsA, holdsC, evalT]
  · intro h
    have := h.2
    simp [factsV, truthV, evalV, k, norm] at this

/-- C67 does not hold, already without exceptions. -/
theorem C67_fails : ¬ JoinAssumesTruth fun m => m.exc = false := by
  intro h
  obtain ⟨W, k, ho, hm, he, hn⟩ := C67_bound_fails
  exact hn (h W k ho (by rw [hm]; rfl) (by rw [hm]; exact he))

example (W : World) (ho : Heap) : factsV W workTask.E ho workTask.L.fin workTask.v := by
  refine C67_join_assumes_truth_partial W workTask ho ⟨rfl, by decide +kernel⟩ (.inl ?_)
  simp [holdsPosts, workTask, work, holdsA, holdsC, evalT, List.lookup, zero]

example (E : VEnv) (st : Heap) : ∃ eqs old, remember false work = some eqs ∧ eqs ≠ [] ∧
    ∀ e ∈ eqs, old e.1 = evalV { E with old := old } [] zero st e.2 := by
  obtain ⟨old, h⟩ := C67_start_consistent false work _ rfl E zero st
  exact ⟨_, old, rfl, by simp, h⟩

end Nagini.Threads
