import Verif.Lemmas.Aug

/-!
C97: augmented assignments have Python's effect.
-/
set_option linter.unusedVariables false
namespace Nagini.Aug

/-- **C97** (full claim): whenever Python executes `t op= e`, the translation has the same effect on
variables and heap. -/
def C97 : Prop :=
  ∀ (W : World) (t : Target) (op : Op) (e : Env → Heap → Val × Heap) (ρ ρ' : Env) (h h' : Heap),
    pyAug W t op e ρ h = some (ρ', h') → nagAug W t op e ρ h = some (ρ', h')

/-- The target has the same place and value in both heaps. -/
def Unaffected (t : Target) (ρ : Env) (h h' : Heap) : Prop :=
  t.loc ρ h' = t.loc ρ h ∧ ∀ l, t.loc ρ h = some l → l.read ρ h' = l.read ρ h

/-- **C97** (partial: the target is not a list, evaluating the right-hand side changes neither the place
nor the value of the target, and the operator does not change the place). -/
theorem C97_aug_partial (W : World) (t : Target) (op : Op) (e : Env → Heap → Val × Heap) (ρ : Env) (h : Heap)
    (hl : ∀ l a, t.loc ρ h = some l → l.read ρ h ≠ some (.list a))
    (he : Unaffected t ρ h (e ρ h).2)
    (ho : ∀ l v r, t.loc ρ h = some l → l.read ρ h = some v →
      pyOp W op v (e ρ h).1 (e ρ h).2 = some r → t.loc ρ r.2 = t.loc ρ h) :
    nagAug W t op e ρ h = pyAug W t op e ρ h := by
  simp only [nagAug, pyAug, he.1]
  cases hloc : t.loc ρ h with
  | none => rfl
  | some l =>
    simp only [Option.bind_some, he.2 l hloc]
    cases hread : l.read ρ h with
    | none => rfl
    | some v =>
      simp only [Option.bind_some]
      rw [op_eq W op v _ _ fun a hv => hl l a hloc (by rw [hread, hv])]
      cases hop : pyOp W op v (e ρ h).1 (e ρ h).2 with
      | none => rfl
      | some r =>
        simp only [Option.bind_some]
        rw [ho l v r hloc hread hop, hloc]
        rfl

/-- **C97, local variables, exactly** (partial: the variable does not hold a list): for a variable that
holds an integer or an object there are no further conditions; for a list that existed before, the effects
differ whenever the statement can be executed. -/
theorem C97_local_iff_partial (W : World) (x : Nat) (op : Op) (e : Env → Heap → Val × Heap) (ρ : Env)
    (h : Heap) (hold : ∀ a, ρ x = .list a → a < (e ρ h).2.next)
    (hdef : (pyAug W (.name x) op e ρ h).isSome) :
    nagAug W (.name x) op e ρ h = pyAug W (.name x) op e ρ h ↔ ∀ a, ρ x ≠ .list a := by
  constructor
  · intro heq a ha
    have hlt := hold a ha
    simp only [nagAug, pyAug, Target.loc, Option.bind_some, Loc.read, ha] at heq hdef
    have key : ∀ b : Nat, b ≠ a → ∀ h1 h2 : Heap,
        Loc.write ρ h1 (.list b) (.name x) ≠ Loc.write ρ h2 (.list a) (.name x) := by
      intro b hb h1 h2 hw
      simp only [Loc.write, Option.some.injEq, Prod.mk.injEq] at hw
      have := congrFun hw.1 x
      simp at this
      exact hb this
    cases hw : (e ρ h).1 with
    | obj c b => simp [pyOp, hw] at hdef
    | list b =>
      cases op with
      | add =>
        simp only [nagOp, inplaceFunc, operator, pyOp, hw, newList, Option.bind_some] at heq
        exact key _ (by omega) _ _ heq
      | mul => simp [pyOp, hw] at hdef
      | other k => simp [pyOp, hw] at hdef
    | int n =>
      cases op with
      | mul =>
        simp only [nagOp, inplaceFunc, operator, pyOp, hw, newList, Option.bind_some] at heq
        exact key _ (by omega) _ _ heq
      | add => simp [pyOp, hw] at hdef
      | other k => simp [pyOp, hw] at hdef
  · intro hx
    refine C97_aug_partial W (.name x) op e ρ h ?_ ⟨rfl, ?_⟩ (fun _ _ _ _ _ _ => rfl)
    · intro l a hl hr
      cases hl
      exact hx a (by simpa [Loc.read] using hr)
    · intro l hl
      cases hl
      rfl

/-- **C97, contents of lists**: although another list is created, the variable's list has the contents
that it has in Python. -/
theorem C97_list_contents (W : World) (x : Nat) (op : Op) (e : Env → Heap → Val × Heap) (ρ ρ1 ρ2 : Env)
    (h h1 h2 : Heap) (a : Nat) (hx : ρ x = .list a)
    (hp : pyAug W (.name x) op e ρ h = some (ρ1, h1)) (hn : nagAug W (.name x) op e ρ h = some (ρ2, h2)) :
    ∃ a1 a2, ρ1 x = .list a1 ∧ ρ2 x = .list a2 ∧ h1.lists a1 = h2.lists a2 := by
  simp only [nagAug, pyAug, Target.loc, Option.bind_some, Loc.read, hx] at hp hn
  cases hw : (e ρ h).1 with
  | obj c b => simp [pyOp, hw] at hp
  | list b =>
    cases op with
    | add =>
      simp only [nagOp, inplaceFunc, operator, pyOp, hw, newList, Option.bind_some, Loc.write,
        Option.some.injEq, Prod.mk.injEq] at hp hn
      obtain ⟨rfl, rfl⟩ := hp
      obtain ⟨rfl, rfl⟩ := hn
      exact ⟨_, _, if_pos rfl, if_pos rfl, by simp [Heap.setList]⟩
    | mul => simp [pyOp, hw] at hp
    | other k => simp [pyOp, hw] at hp
  | int n =>
    cases op with
    | mul =>
      simp only [nagOp, inplaceFunc, operator, pyOp, hw, newList, Option.bind_some, Loc.write,
        Option.some.injEq, Prod.mk.injEq] at hp hn
      obtain ⟨rfl, rfl⟩ := hp
      obtain ⟨rfl, rfl⟩ := hn
      exact ⟨_, _, if_pos rfl, if_pos rfl, by simp [Heap.setList]⟩
    | add => simp [pyOp, hw] at hp
    | other k => simp [pyOp, hw] at hp

/-- Integers are added; classes define no operators. -/
def plain : World := ⟨fun _ _ => none, fun _ _ => none, fun _ i j => i + j⟩

/-- Variables 0 and 1 hold the same list `[1]`, variable 2 holds the list `[2]`. -/
def env0 : Env := fun x => if x = 2 then .list 1 else .list 0
def heap0 : Heap := ⟨fun _ _ => .int 0, fun a => if a = 0 then [.int 1] else [.int 2], 2⟩

/-- **C97, where it fails**: after `b = a; b += [2]`, `a` is `[1, 2]`, but for the verifier it is still
`[1]`. -/
theorem C97_shared_list_fails :
    (pyAug plain (.name 1) .add (fun ρ h => (ρ 2, h)) env0 heap0).map
      (fun s => (s.1 0, s.2.lists 0)) = some (.list 0, [.int 1, .int 2]) ∧
    (nagAug plain (.name 1) .add (fun ρ h => (ρ 2, h)) env0 heap0).map
      (fun s => (s.1 0, s.2.lists 0)) = some (.list 0, [.int 1]) := by
  decide

/-- Variable 0 holds an object whose field 0 is 10. -/
def env1 : Env := fun _ => .obj 5 0
def heap1 : Heap := ⟨fun _ _ => .int 10, fun _ => [], 1⟩

/-- A call that sets the field to 20 and returns 1. -/
def setsField : Env → Heap → Val × Heap := fun _ h => (.int 1, { h with fields := fun _ _ => .int 20 })

/-- **C97, where it fails**: `x.f += x.m()`, where the call changes `x.f` from 10 to 20 and returns 1,
gives 11, but 21 for the verifier. -/
theorem C97_order_fails :
    (pyAug plain (.attr (.var 0) 0) .add setsField env1 heap1).map (fun s => s.2.fields 0 0) = some (.int 11) ∧
    (nagAug plain (.attr (.var 0) 0) .add setsField env1 heap1).map (fun s => s.2.fields 0 0) =
      some (.int 21) := by
  decide

/-- **C97**: the full claim fails. -/
theorem C97_fails : ¬ C97 := by
  intro h
  cases hp : pyAug plain (.attr (.var 0) 0) .add setsField env1 heap1 with
  | none => exact absurd C97_order_fails.1 (by simp [hp])
  | some s =>
    have hn := h plain (.attr (.var 0) 0) .add setsField env1 s.1 heap1 s.2 hp
    have h1 := C97_order_fails.1
    have h2 := C97_order_fails.2
    rw [hp] at h1
    rw [hn] at h2
    simp only [Option.map_some] at h1 h2
    exact absurd (h1.symm.trans h2) (by decide)

/-- `x.f += 1` where the right-hand side has no effect. -/
example : nagAug plain (.attr (.var 0) 0) .add (fun _ h => (.int 1, h)) env1 heap1 =
    pyAug plain (.attr (.var 0) 0) .add (fun _ h => (.int 1, h)) env1 heap1 := by
  refine C97_aug_partial _ _ _ _ _ _ ?_ ⟨rfl, fun _ _ => rfl⟩ ?_
  · intro l a hl
    cases hl
    simp [Loc.read, heap1]
  · intro l v r hl hv hr
    rfl

/-- `x += x` for an object whose class defines `__iadd__` by setting a field. -/
example :
    let W : World := ⟨fun _ _ => some fun v _ h => (v, { h with fields := fun _ _ => .int 7 }),
      fun _ _ => none, fun _ i j => i + j⟩
    nagAug W (.name 0) .add (fun ρ h => (ρ 0, h)) env1 heap1 =
      pyAug W (.name 0) .add (fun ρ h => (ρ 0, h)) env1 heap1 := by
  refine (C97_local_iff_partial _ _ _ _ _ _ ?_ rfl).2 ?_
  · intro a ha; cases ha
  · intro a ha; cases ha

end Nagini.Aug
