import Verif.Lemmas.Match

/-!
C11: match statements select the case Python selects and bind the names Python binds.
-/
set_option linter.unusedVariables false
namespace Nagini.Match

/-- **C11** (full claim): if the Viper code for a match statement is not rejected, it reaches the body
Python reaches, with the same variables. -/
def C11 : Prop :=
  ∀ (P : Py) (Γ : Info) (W : World) (hasTy : Val → Nat → Prop), Sees P Γ W hasTy →
    ∀ (ty : Nat) (cases : List Case) (b : VBlock), nested Γ ty 0 cases = .ok b →
    (∀ cs ∈ cases, (binds cs.pat).Nodup) →
    ∀ (vars : Nat → Val) (defd : Nat → Bool) (v : Val), hasTy v ty → runMatch W vars defd v b ≠ .err →
      Same (fun _ => []) (runMatch W vars defd v b) (select P v 0 (view vars defd) cases)

/-- **C11** (partial, sound): if the Viper code is not rejected, it reaches the body Python reaches, and
all variables have Python's values except for names bound by an earlier case whose guard failed.
(Missing: alternatives that bind names, guards that read a name bound in an attribute or by an earlier
case with a guard, and attributes that have not been assigned to; the claim is false for all of them.) -/
theorem C11_sound_partial (P : Py) (Γ : Info) (W : World) (hasTy : Val → Nat → Prop) (hs : Sees P Γ W hasTy)
    (ha : Assigned P Γ W) (ty : Nat) (cases : List Case) (b : VBlock) (ht : nested Γ ty 0 cases = .ok b)
    (hok : Ok [] cases) (vars : Nat → Val) (defd : Nat → Bool) (v : Val) (hv : hasTy v ty)
    (hr : runMatch W vars defd v b ≠ .err) :
    Same (hidden [] cases) (runMatch W vars defd v b) (select P v 0 (view vars defd) cases) := by
  have h := nested_rel (hs.agrees ha) cases [] 0 b ⟨vars, defd, v⟩ (view vars defd) ht hok hv (fun _ _ => rfl)
  unfold runMatch at *
  rcases h with ⟨h, _⟩ | ⟨j, s', σ', h1, h2, h3⟩ | ⟨s', σ', h1, h2, h3⟩
  · exact absurd h hr
  · rw [h1, h2]
    simp only [Nat.zero_add]
    exact ⟨rfl, h3⟩
  · rw [h1, h2]
    exact h3

/-- **C11** (partial, exact): if all fields may be read and all functions are defined where Python's
operations are, the Viper code is rejected only if Python raises an exception.  (Missing: as above.) -/
theorem C11_exact_partial (P : Py) (Γ : Info) (W : World) (hasTy : Val → Nat → Prop) (hs : Sees P Γ W hasTy)
    (ha : Assigned P Γ W) (hc : Complete P Γ W hasTy) (ty : Nat) (cases : List Case) (b : VBlock)
    (ht : nested Γ ty 0 cases = .ok b) (hok : Ok [] cases) (vars : Nat → Val) (defd : Nat → Bool) (v : Val)
    (hv : hasTy v ty) :
    Same (hidden [] cases) (runMatch W vars defd v b) (select P v 0 (view vars defd) cases) := by
  have h := nested_rel (hs.agrees ha) cases [] 0 b ⟨vars, defd, v⟩ (view vars defd) ht hok hv (fun _ _ => rfl)
  unfold runMatch at *
  rcases h with ⟨h1, h2⟩ | ⟨j, s', σ', h1, h2, h3⟩ | ⟨s', σ', h1, h2, h3⟩
  · have h2 := h2 hc
    simp only at h2
    rw [h1, h2]
    trivial
  · rw [h1, h2]
    simp only [Nat.zero_add]
    exact ⟨rfl, h3⟩
  · rw [h1, h2]
    exact h3

/-- Without guards no name is lost. -/
theorem hidden_unguarded (cases : List Case) (hg : ∀ cs ∈ cases, cs.guard = none) (k : Option Nat) :
    hidden [] cases k = [] := by
  induction cases generalizing k with
  | nil => rfl
  | cons cs rest ih =>
    have h0 : cs.guard = none := hg cs List.mem_cons_self
    have ih := fun k => ih (fun c hc => hg c (List.mem_cons_of_mem _ hc)) k
    cases k with
    | none => simp only [hidden, h0]; exact ih _
    | some k =>
      cases k with
      | zero => rfl
      | succ k => simp only [hidden, h0]; exact ih _

/-- **C11** (partial): without guards, all variables have Python's values.  (Missing: guards, and as
above.) -/
theorem C11_unguarded_partial (P : Py) (Γ : Info) (W : World) (hasTy : Val → Nat → Prop) (hs : Sees P Γ W hasTy)
    (ha : Assigned P Γ W) (ty : Nat) (cases : List Case) (b : VBlock) (ht : nested Γ ty 0 cases = .ok b)
    (hok : Ok [] cases) (hg : ∀ cs ∈ cases, cs.guard = none) (vars : Nat → Val) (defd : Nat → Bool) (v : Val)
    (hv : hasTy v ty) (hr : runMatch W vars defd v b ≠ .err) :
    Same (fun _ => []) (runMatch W vars defd v b) (select P v 0 (view vars defd) cases) := by
  have h := C11_sound_partial P Γ W hasTy hs ha ty cases b ht hok vars defd v hv hr
  rwa [show hidden [] cases = fun _ => [] from funext fun k => hidden_unguarded cases hg k] at h

/-! A match statement with all kinds of patterns:
```
match v:
    case None | True: ...
    case C(f=False, g=x) as y if not y: ...
    case C(f=x): ...
    case 7: ...
    case y: ...
```
Class `C` is number 0; objects below 10 are its instances. -/

/-- Fields of class 0. -/
private def exΓ : Info where
  isLocal := fun _ => true
  field := fun c a => if c = 0 then some (a, a) else none

/-- `f` of object 3 is `False`, `f` of other objects is the next object. -/
private def exHeap : Val → Nat → Val
  | .obj 3, 0 => .bool false
  | .obj n, _ => .obj (n + 1)
  | _, _ => .none

private def exW : World where
  heap := exHeap
  perm := fun _ _ => true
  inst := fun v c => match v with | .obj n => c = 0 && n < 10 | _ => false
  eq := fun _ v c => some (v = .obj c)
  op := fun _ _ => some (.bool false)
  truth := fun v => some (v ≠ .bool false)

private def exP : Py where
  get := fun v a => some (exHeap v a)
  inst := exW.inst
  eq := fun v c => some (v = .obj c)
  op := fun _ _ => some (.bool false)
  truth := fun v => some (v ≠ .bool false)

private def exCases : List Case :=
  [⟨.or (.single .none) (.cons (.single (.bool true)) .nil), none⟩,
   ⟨.as (.cls 0 (.cons 0 (.single (.bool false)) (.cons 1 (.any (some 0)) .nil))) 1, some (.op 0 [.var 1])⟩,
   ⟨.cls 0 (.cons 0 (.any (some 0)) .nil), none⟩,
   ⟨.value 17, none⟩,
   ⟨.any (some 1), none⟩]

private theorem exSees : Sees exP exΓ exW (fun _ _ => True) where
  inst := fun _ _ => rfl
  get := fun v c a f ty hi hf _ => by
    simp only [exΓ] at hf
    split at hf
    · cases hf; exact ⟨rfl, trivial⟩
    · cases hf
  eq := fun ty v c b _ h => h
  op := fun _ _ _ h => h
  truth := fun _ _ h => h

private theorem exAssigned : Assigned exP exΓ exW := fun v c a f ty _ _ h => by cases h

private theorem exOk : Ok [] exCases := by
  have no : ∀ {p : Pat} {H : List Nat} (g : Expr), (none : Option Expr) = some g →
      ∀ x ∈ reads g, x ∈ whole p ∨ (x ∉ H ∧ x ∉ binds p) := fun g h => by cases h
  refine ⟨⟨rfl, rfl⟩, List.nodup_nil, no, ⟨trivial, trivial, trivial⟩, by decide, ?_, ⟨trivial, trivial⟩, by decide,
    no, trivial, by decide, no, trivial, by decide, no, trivial⟩
  intro g hg x hx
  cases hg
  simp only [reads, readsL, List.append_nil, List.mem_singleton] at hx
  subst hx
  exact .inl (by decide)

/-- The code of the example is generated, and object 3 reaches the third body after the guard failed. -/
example : ∃ b, nested exΓ 0 0 exCases = .ok b ∧
    ∃ s, runMatch exW (fun _ => .none) (fun _ => false) (.obj 3) b = .body 2 s ∧ s.vars 0 = .bool false ∧
      s.defd 0 = true ∧ s.defd 1 = false := ⟨_, rfl, _, rfl, rfl, rfl, rfl⟩

/-- The theorem applies to the example. -/
example (b : VBlock) (h : nested exΓ 0 0 exCases = .ok b) (v : Val)
    (hr : runMatch exW (fun _ => .none) (fun _ => false) v b ≠ .err) :
    Same (hidden [] exCases) (runMatch exW (fun _ => .none) (fun _ => false) v b)
      (select exP v 0 (view (fun _ => .none) (fun _ => false)) exCases) :=
  C11_sound_partial exP exΓ exW _ exSees exAssigned 0 exCases b h exOk _ _ v trivial hr

/-! ## Disagreements -/

/-- `match v: case y if <false>: ... / case _: ...` -/
private def guardCases : List Case := [⟨.any (some 0), some (.op 0 [])⟩, ⟨.any none, none⟩]

/-- **C11 fails**: Python binds the names of a case before its guard is evaluated, and they stay bound if
the guard fails; in the Viper code they keep their old values, and later bodies can be verified with
those. -/
theorem C11_fails : ¬ C11 := by
  intro h
  have h := h exP exΓ exW _ exSees 0 guardCases _ rfl (by decide) (fun _ => .none) (fun _ => true) (.obj 3) trivial
    (by intro h; cases h)
  obtain ⟨_, h⟩ := h
  have h := h 0 List.not_mem_nil
  cases h

/-- `match v: case None | y: ...` (the names bound by all alternatives have to be the same, so here
`case C(f=y) | C(g=y)`). -/
private def orCases : List Case :=
  [⟨.or (.cls 0 (.cons 0 (.any (some 0)) .nil)) (.cons (.cls 0 (.cons 1 (.any (some 0)) .nil)) .nil), none⟩]

/-- Names bound in alternatives keep their old values (disagreement). -/
theorem C11_or_fails :
    ∃ b, nested exΓ 0 0 orCases = .ok b ∧
      ∃ s σ, runMatch exW (fun _ => .none) (fun _ => true) (.obj 3) b = .body 0 s ∧
        select exP (.obj 3) 0 (view (fun _ => .none) (fun _ => true)) orCases = .body 0 σ ∧
        view s.vars s.defd 0 = some .none ∧ σ 0 = some (.bool false) :=
  ⟨_, rfl, _, _, rfl, rfl, rfl, rfl⟩

/-- `match v: case C(f=y) if y: ... / case _: ...` -/
private def kwCases : List Case :=
  [⟨.cls 0 (.cons 0 (.any (some 0)) .nil), some (.var 0)⟩, ⟨.any none, none⟩]

/-- A guard that reads a name bound in an attribute reads the old value of the variable, so that another
case is selected (disagreement). -/
theorem C11_guard_fails :
    ∃ b, nested exΓ 0 0 kwCases = .ok b ∧
      ∃ s σ, runMatch exW (fun _ => .obj 1) (fun _ => true) (.obj 3) b = .body 0 s ∧
        select exP (.obj 3) 0 (view (fun _ => .obj 1) (fun _ => true)) kwCases = .body 1 σ :=
  ⟨_, rfl, _, _, rfl, rfl⟩

/-- `match self: case C(f=_): ... / case _: ...` -/
private def unsetCases : List Case := [⟨.cls 0 (.cons 0 (.any none) .nil), none⟩, ⟨.any none, none⟩]

/-- In the constructor, before the attributes are assigned to. -/
private def newW : World := { exW with perm := fun _ _ => false }

private def newP : Py := { exP with get := fun _ _ => none }

private theorem newSees : Sees newP exΓ newW (fun _ _ => True) where
  inst := fun _ _ => rfl
  get := fun v c a f ty hi hf hp => by cases hp
  eq := fun ty v c b _ h => h
  op := fun _ _ _ h => h
  truth := fun _ _ h => h

/-- The attribute pattern `f=_` is not checked at all, neither that the object has the attribute nor that
it may be read; Python does not select the case if the attribute is missing (disagreement). -/
theorem C11_unset_fails :
    Sees newP exΓ newW (fun _ _ => True) ∧ ∃ b, nested exΓ 0 0 unsetCases = .ok b ∧
      ∃ s σ, runMatch newW (fun _ => .none) (fun _ => true) (.obj 3) b = .body 0 s ∧
        select newP (.obj 3) 0 (view (fun _ => .none) (fun _ => true)) unsetCases = .body 1 σ :=
  ⟨newSees, _, rfl, _, _, rfl, rfl⟩

/-- Once the body of a case has run, whatever it does, nothing else of the statement runs: no other
condition is evaluated and no other body is reached. -/
theorem C11_body_last (Γ : Info) (W : World) (B : Nat → World → St → Option (World × St)) (ty : Nat) (cases : List Case)
    (b : VBlock) (ht : nested Γ ty 0 cases = .ok b) (s : St) :
    (∀ k s', runBlock W s b = .body k s' → runAllBlock B W s b = B k W s') ∧
    (∀ s', runBlock W s b = .done s' → runAllBlock B W s b = some (W, s')) ∧
    (runBlock W s b = .err → runAllBlock B W s b = none) := by
  have h := nested_bodies (W := W) B cases 0 b s ht
  refine ⟨fun k s' h1 => ?_, fun s' h1 => ?_, fun h1 => ?_⟩ <;> rw [h, h1] <;> rfl

/-- In the example the third body runs for object 3, and the body can set the variables of the
patterns of other cases. -/
example : ∃ b, nested exΓ 0 0 exCases = .ok b ∧
    ∃ r, runAllBlock (fun k W s => some (W, { s with vars := fun _ => .obj k })) exW ⟨fun _ => .none, fun _ => false, .obj 3⟩ b
      = some r ∧ r.2.vars 0 = .obj 2 := ⟨_, rfl, _, rfl, rfl⟩

/-- Capture patterns whose name is not a local variable (for example a parameter of the method) cannot
be translated. -/
theorem C11_parameter (Γ : Info) (ty k x : Nat) (g : Option Expr) (rest : List Case) (hx : Γ.isLocal x = false) (b : VBlock) :
    nested Γ ty k (⟨.any (some x), g⟩ :: rest) ≠ .ok b := by
  intro h
  simp only [nested, caseCond, cond, assigns, hx] at h
  cases hr : nested Γ ty (k + 1) rest with
  | error err => rw [hr] at h; cases h
  | ok el =>
    rw [hr] at h
    cases g <;> cases h

end Nagini.Match
