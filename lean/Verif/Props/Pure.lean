import Verif.Lemmas.Pure

/-!
C10: pure functions denote what the Python body computes.
-/
set_option linter.unusedVariables false
namespace Nagini.Pure

/-- **C10** (full claim): if the expression emitted for a body has a value, that is the value the body
returns in Python. -/
def C10 : Prop :=
  ∀ (I : Interp) (P : Py), Agrees P I → ∀ (isLocal : Nat → Bool) (args : Nat → Val) (b : Block) (ve : VExpr),
    translate isLocal b = .ok (some ve) → ∀ v D, call I args ve = some (v, D) → runPy P isLocal args b = some v

/-- **C10** (partial, exact): the emitted expression is well-defined iff the body, run as the verifier
demands, reaches a `return`, and its value then is the returned one.  (Missing: parameters assigned to
in branches, names bound by a case whose guard fails, names bound by alternatives, and names that a
called function has among its own variables; the claim is false for all four.) -/
theorem C10_exact_partial (I : Interp) (isLocal : Nat → Bool) (args : Nat → Val) (b : Block) (ve : VExpr)
    (hleak : ∀ f vs U v l, I.op f vs U = some (v, l) → ∀ x ∈ l, isLocal x = false)
    (hok : Ok isLocal b) (ht : translate isLocal b = .ok (some ve)) :
    (call I args ve).map Prod.fst =
      returned (execBlock (strict I) [] (fun x => if isLocal x then none else some (args x)) b) :=
  call_exact args hleak ht hok

/-- **C10** (partial): the emitted expression, if it has a value, has the value the body returns in
Python.  (Missing: as above.) -/
theorem C10_sound_partial (I : Interp) (P : Py) (ha : Agrees P I) (isLocal : Nat → Bool) (args : Nat → Val) (b : Block)
    (ve : VExpr) (hleak : ∀ f vs U v l, I.op f vs U = some (v, l) → ∀ x ∈ l, isLocal x = false)
    (hok : Ok isLocal b) (ht : translate isLocal b = .ok (some ve)) (v : Val) (D : List Nat)
    (hc : call I args ve = some (v, D)) : runPy P isLocal args b = some v := by
  have h := C10_exact_partial I isLocal args b ve hleak hok ht
  rw [hc] at h
  unfold runPy
  cases hr : execBlock (strict I) [] (fun x => if isLocal x then none else some (args x)) b with
  | err => rw [hr] at h; cases h
  | norm σ U => rw [hr] at h; cases h
  | ret w =>
    rw [hr] at h
    cases h
    have := execBlock_mono ha b [] (fun x => if isLocal x then none else some (args x))
    rw [this (by rw [hr]; simp), hr]

/-- Verified pure functions end with `return`: if the end of the body is reached, the expression is not
well-defined. -/
theorem C10_no_fallthrough_partial (I : Interp) (isLocal : Nat → Bool) (args : Nat → Val) (b : Block) (ve : VExpr)
    (hleak : ∀ f vs U v l, I.op f vs U = some (v, l) → ∀ x ∈ l, isLocal x = false)
    (hok : Ok isLocal b) (ht : translate isLocal b = .ok (some ve)) (σ : Env) (U : List Val)
    (hr : execBlock (strict I) [] (fun x => if isLocal x then none else some (args x)) b = .norm σ U) :
    call I args ve = none := by
  have h := C10_exact_partial I isLocal args b ve hleak hok ht
  rw [hr] at h
  cases hc : call I args ve with
  | none => rfl
  | some r => rw [hc] at h; cases h

/-! A body with branches, joins and a match:
```
def f(n, c):
    if c: y = n + 1
    else: y = n - 1
    y += 2
    match y:
        case 0: return 7
        case k if k is True: return n
    return y
```
-/
namespace Ex

/-- Operator 0 adds one, 1 subtracts one, 2 is `is True`; nothing else is defined. -/
def I : Interp where
  op := fun f vs _ =>
    match f, vs with
    | 0, [.int i] => some (.int (i + 1), [])
    | 1, [.int i] => some (.int (i - 1), [])
    | 2, [v] => some (.bool (v = .bool true), [])
    | _, _ => none
  truth := fun v => match v with | .bool b => some b | .none => some false | _ => none
  leaf := fun k v => v = .int k
  held := fun _ => true

def body : Block :=
  .cons (.ite (.var 1) (.cons (.assign 2 (.op 0 [.var 0])) .nil) (.cons (.assign 2 (.op 1 [.var 0])) .nil))
  (.cons (.aug 2 .add (.lit (.int 2)))
  (.cons (.mtch (.var 2)
    (.cons (.leaf 0) none (.cons (.ret (.lit (.int 7))) .nil)
    (.cons (.capture 3) (some (.op 2 [.var 3])) (.cons (.ret (.var 0)) .nil) .nil)))
  (.cons (.ret (.var 2)) .nil)))

def isLocal (x : Nat) : Bool := x == 2 || x == 3

end Ex

example : ∃ ve, translate Ex.isLocal Ex.body = .ok (some ve) ∧ Ok Ex.isLocal Ex.body ∧
    (∀ f vs U v l, Ex.I.op f vs U = some (v, l) → ∀ x ∈ l, Ex.isLocal x = false) ∧
    (call Ex.I (fun x => if x = 0 then .int 4 else .bool true) ve).map Prod.fst = some (.int 7 : Val) ∧
    (call Ex.I (fun x => if x = 0 then .int (-1) else .bool false) ve).map Prod.fst = some (.int 7 : Val) ∧
    (call Ex.I (fun x => if x = 0 then .int 9 else .bool false) ve).map Prod.fst = some (.int 10 : Val) := by
  refine ⟨_, rfl, rfl, ?_, rfl, rfl, rfl⟩
  intro f vs U v l h x hx
  simp only [Ex.I] at h
  split at h <;> first | (cases h; cases hx) | cases h

/-- The claim is false: a parameter that is assigned to in a branch only loses its value.
`if c: x = 1`, `return x`. -/
theorem C10_fails : ¬ C10 := by
  intro H
  have := H Ex.I (strict Ex.I) (agrees_strict _) (fun _ => false)
    (fun x => if x = 0 then .int 5 else .bool false)
    (.cons (.ite (.var 1) (.cons (.assign 0 (.lit (.int 1))) .nil) .nil) (.cons (.ret (.var 0)) .nil))
    _ rfl .none [] rfl
  exact absurd this (by decide)

/-- A name keeps its old value if it is bound by a case whose guard fails (in Python it stays bound to
the subject).  `y = 1`, `match 5: case y if False: return 0`, `case _: return y`. -/
theorem C10_guard_fails : ∃ ve D, translate (fun x => x == 0)
      (.cons (.assign 0 (.lit (.int 1))) (.cons (.mtch (.lit (.int 5))
        (.cons (.capture 0) (some (.lit (.bool false))) (.cons (.ret (.lit (.int 0))) .nil)
        (.cons .wild none (.cons (.ret (.var 0)) .nil) .nil))) .nil)) = .ok (some ve) ∧
    call Ex.I (fun _ => .none) ve = some (.int 1, D) ∧
    runPy (strict Ex.I) (fun x => x == 0) (fun _ => .none)
      (.cons (.assign 0 (.lit (.int 1))) (.cons (.mtch (.lit (.int 5))
        (.cons (.capture 0) (some (.lit (.bool false))) (.cons (.ret (.lit (.int 0))) .nil)
        (.cons .wild none (.cons (.ret (.var 0)) .nil) .nil))) .nil)) = some (.int 5) :=
  ⟨_, _, rfl, rfl, rfl⟩

/-- Names in alternatives are not bound.  `y = 1`, `match 5: case (4 as y) | (5 as y): return y`,
`case _: return 0`. -/
theorem C10_or_fails : ∃ ve D, translate (fun x => x == 0)
      (.cons (.assign 0 (.lit (.int 1))) (.cons (.mtch (.lit (.int 5))
        (.cons (.or (.as (.leaf 4) 0) (.as (.leaf 5) 0)) none (.cons (.ret (.var 0)) .nil)
        (.cons .wild none (.cons (.ret (.lit (.int 0))) .nil) .nil))) .nil)) = .ok (some ve) ∧
    call Ex.I (fun _ => .none) ve = some (.int 1, D) ∧
    runPy (strict Ex.I) (fun x => x == 0) (fun _ => .none)
      (.cons (.assign 0 (.lit (.int 1))) (.cons (.mtch (.lit (.int 5))
        (.cons (.or (.as (.leaf 4) 0) (.as (.leaf 5) 0)) none (.cons (.ret (.var 0)) .nil)
        (.cons .wild none (.cons (.ret (.lit (.int 0))) .nil) .nil))) .nil)) = some (.int 5) :=
  ⟨_, _, rfl, rfl, rfl⟩

/-- A called function that has a local variable of the same name makes a local variable count as
defined.  `if False: x = 1`, `y = g()`, `return x`, where the body of `g` assigns to `x`. -/
theorem C10_leak_fails : ∃ (I : Interp) (ve : VExpr) (D : List Nat), translate (fun _ => true)
      (.cons (.ite (.lit (.bool false)) (.cons (.assign 0 (.lit (.int 1))) .nil) .nil)
        (.cons (.assign 1 (.op 0 [])) (.cons (.ret (.var 0)) .nil))) = .ok (some ve) ∧
    Ok (fun _ => true)
      (.cons (.ite (.lit (.bool false)) (.cons (.assign 0 (.lit (.int 1))) .nil) .nil)
        (.cons (.assign 1 (.op 0 [])) (.cons (.ret (.var 0)) .nil))) ∧
    call I (fun _ => .none) ve = some (.none, D) ∧
    runPy (strict I) (fun _ => true) (fun _ => .none)
      (.cons (.ite (.lit (.bool false)) (.cons (.assign 0 (.lit (.int 1))) .nil) .nil)
        (.cons (.assign 1 (.op 0 [])) (.cons (.ret (.var 0)) .nil))) = none :=
  ⟨{ op := fun _ _ _ => some (.int 3, [0]), truth := fun _ => none, leaf := fun _ _ => false, held := fun _ => false },
    _, _, rfl, rfl, rfl, rfl⟩

/-- Bodies are not always accepted: the condition of an `if` must be a boolean.  `if 1: return 2`,
`return 3`. -/
theorem C10_truthiness_fails : ∃ ve, translate (fun _ => true)
      (.cons (.ite (.lit (.int 1)) (.cons (.ret (.lit (.int 2))) .nil) .nil) (.cons (.ret (.lit (.int 3))) .nil)) =
        .ok (some ve) ∧
    call Ex.I (fun _ => .none) ve = none :=
  ⟨_, rfl, rfl⟩

/-- The body becomes an abstract function, about which only the contract is known, exactly if it is
empty except for docstrings. -/
theorem C10_abstract (isLocal : Nat → Bool) (b : Block) : translate isLocal b = .ok none ↔ b.empty = true := by
  rw [← wrap_empty b 0, translate]
  exact ⟨trWrappers_none, fun h => by rw [h]; rfl⟩

example : translate (fun _ => true) (.cons .doc .nil) = .ok none := rfl
example : translate (fun _ => true) (.cons .doc (.cons (.ret (.lit .none)) .nil)) = .ok (some (.lit .none)) := rfl

end Nagini.Pure
