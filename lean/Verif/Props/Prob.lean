/-
C117: in the probabilistic information flow mode, a verified program takes the same decisions
whatever its secrets are.
-/
import Verif.Lemmas.Prob

namespace Nagini.Prob

variable {σ : Type}

/-- The full claim: two executions of an accepted program take the same decisions, also if they do
not terminate. -/
def C117 : Prop :=
  ∀ (σ : Type) (p : Stmt σ) (x y : σ), Accepted (tr p) x y → ∀ n, (run n p x).1 = (run n p y).1

/-- The claim holds for programs without the constructs that are not checked, and then one
execution terminates iff the other one does. -/
theorem C117_checked_partial {p : Stmt σ} (hp : Checked p) {x y : σ} (h : Accepted (tr p) x y)
    (n : Nat) :
    (run n p x).1 = (run n p y).1 ∧ ((run n p x).2.isSome ↔ (run n p y).2.isSome) := by
  obtain ⟨h1, h2⟩ := agree hp n x y (h n)
  refine ⟨h1, ?_⟩
  rcases h2 with ⟨_, _, hx, hy, _⟩ | ⟨hx, hy, _⟩ <;> simp [hx, hy]

/-- Programs without secrets are accepted: the checks never fail if the executions start from the
same state. -/
theorem C117_no_secrets (p : Stmt σ) (x : σ) : Accepted (tr p) x x := by
  intro n h
  rcases together (tr p) n (some x) with h' | ⟨z, h'⟩ <;> rw [h'] at h <;> cases h

/-- A counterexample: an accepted program that takes different decisions. -/
def Leaks (p : Stmt Nat) : Prop :=
  ∃ x y, Accepted (tr p) x y ∧ ∃ n, (run n p x).1 ≠ (run n p y).1

theorem Leaks.fails {p : Stmt Nat} (h : Leaks p) : ¬ C117 := by
  obtain ⟨x, y, ha, n, hn⟩ := h
  exact fun hc => hn (hc Nat p x y ha n)

/-- `while s != 0: s = s - 1` is accepted although it counts down a secret: the condition is only
checked before the loop. -/
theorem C117_while_fails : Leaks (.while (· != 0) (.act (· - 1))) := by
  refine ⟨1, 2, ?_, 4, by decide⟩
  intro n
  match n with
  | 0 => simp [tr, prod, Prod.bind, ploop]
  | 1 => simp [tr, prod, Prod.bind, ploop, Option.filter]
  | 2 => simp [tr, prod, Prod.bind, ploop, Option.filter]
  | n + 3 => simp [tr, prod, Prod.bind, ploop, Option.filter]

/-- `match s: case 0: ...` is accepted. -/
theorem C117_match_fails : Leaks (.case (· == 0) (.act id) (.act id)) := by
  refine ⟨0, 1, ?_, 0, by decide⟩
  intro n
  simp [tr, T.ite, prod, Prod.bind]

/-- A call on a variable of type `Union[A, B]` is accepted although its class is secret: the class
is only compared among executions that take the same branch. -/
theorem C117_union_fails : Leaks (.union id id fun _ => .act id) := by
  refine ⟨0, 1, ?_, 0, by decide⟩
  intro n
  simp [tr, prod, Prod.bind]

/-- `a + b` is accepted although the class of `a`, and so the method `__add__`, is secret. -/
theorem C117_operator_fails : Leaks (.operator id fun _ => .act id) := by
  refine ⟨0, 1, ?_, 0, by decide⟩
  intro n
  simp [tr, prod, Prod.bind]

/-- `[x for x in xs if p(x)]` is accepted although both the length of `xs` and the values of the
filter are secret. -/
theorem C117_filter_fails : Leaks (.comp id (some fun _ _ => true) id) ∧
    Leaks (.comp (fun _ => 1) (some fun s _ => s == 0) id) := by
  refine ⟨⟨0, 1, ?_, 0, by decide⟩, ⟨0, 1, ?_, 0, by decide⟩⟩ <;> intro n <;>
    simp [tr, prod, Prod.bind, T.skip]

/-- A call of a pure function that branches on its secret argument is accepted. -/
theorem C117_pure_fails : Leaks (.pureIf (· == 0) id id) := by
  refine ⟨0, 1, ?_, 0, by decide⟩
  intro n
  simp [tr, prod]

/-- The full claim is violated. -/
theorem C117_fails : ¬ C117 := C117_while_fails.fails

/-! ### Examples -/

/-- `for i in range(low): if low: s = s + 1`, with a low and a secret component. -/
abbrev Ex : Stmt (Nat × Nat × Nat) :=
  .forEach (fun s => (s.1, s.2.1, s.1 + 1)) (fun s => (s.1, s.2.1, s.2.2 - 1))
    (fun s => s.2.2 == 0)
    (.ite (fun s => s.1 == 2) (.act fun s => (s.1, s.2.1 + 1, s.2.2)) (.act id))

example : Checked Ex := .forEach (.ite (.act _) (.act _))
example : (run 5 Ex (2, 7, 0)).1 = [1, 1, 1, 1, 0] := by decide
example : (run 5 Ex (2, 7, 0)).1 = (run 5 Ex (2, 9, 0)).1 := by decide
example : (match prod 5 (tr Ex) (some (2, 7, 0)) (some (2, 9, 0)) with
    | .ok x y => (x, y) | _ => (none, none)) = (some (2, 9, 0), some (2, 11, 0)) := by decide
example : (match prod 5 (tr Ex) (some (2, 7, 0)) (some (1, 9, 0)) with
    | .fail => true | _ => false) = true := by decide
/- A loop with the missing assertion is rejected. -/
example : (match prod 5 (tr (.while (· != 0) (.seq (.act (· - 1)) (.check fun s => (s != 0).toNat))))
    (some 1) (some 2) with | .fail => true | _ => false) = true := by decide

end Nagini.Prob
