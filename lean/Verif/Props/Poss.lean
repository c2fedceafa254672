import Verif.Lemmas.Poss

/-!
C143: in the possibilistic information flow mode the termination of an accepted program does not
depend on secrets.
-/
namespace Nagini.Poss

open Prob (Prod ploop)

variable {σ : Type}

/-- The full claim: if the verifier accepts a program for two initial states (which differ in secrets),
then it terminates from one of them iff it terminates from the other. -/
def C143_termination : Prop :=
  ∀ (σ : Type) (P : Prog σ) (p : Stmt σ) (x y : σ),
    Accepted (bodies P) (tr P p) x y → (Terminates P p x ↔ Terminates P p y)

/-- Proved part: the claim holds, even with equal fuel, if all methods have the precondition
`LowEvent()` and if every `while` loop asserts that its condition is low at the end of its body. -/
theorem C143_partial (P : Prog σ) (p : Stmt σ) (x y : σ) (he : ∀ m, P.event m = true)
    (hb : ∀ m, Checked (P.body m)) (hp : Checked p) (h : Accepted (bodies P) (tr P p) x y) :
    (∀ n, (∃ x', run P n p x = some x') ↔ ∃ y', run P n p y = some y') ∧
      (Terminates P p x ↔ Terminates P p y) := by
  have key : ∀ n, (∃ x', run P n p x = some x') ↔ ∃ y', run P n p y = some y' := by
    intro n
    rcases agree P he (call_agree P he hb n) n hp x y (h n) with ⟨x', y', h1, h2, _⟩ | ⟨h1, h2, _⟩
    · exact ⟨fun _ => ⟨y', h2⟩, fun _ => ⟨x', h1⟩⟩
    · have h1 : run P n p x = none := h1
      have h2 : run P n p y = none := h2
      simp [h1, h2]
  exact ⟨key, exists_congr key⟩

/-- Programs whose two executions start from the same state are accepted, whatever their loops and
calls are. -/
theorem C143_no_secrets (P : Prog σ) (p : Stmt σ) (x : σ) : Accepted (bodies P) (tr P p) x x := by
  intro n hf
  rcases same (call_same (bodies P) n) n (tr P p) x with ⟨_, h⟩ | h <;> rw [h] at hf <;> cases hf

/-- A loop under a condition that depends on a secret is rejected, and so is a call of a method with
the precondition `LowEvent()`. -/
theorem C143_rejects (P : Prog σ) (c : σ → Bool) (a : Stmt σ) (x y : σ) (hc : c x ≠ c y)
    (p : Stmt σ) (hp : (∃ d b, p = .while d b) ∨ (∃ s n d b, p = .forEach s n d b) ∨
      ∃ m, p = .call m ∧ P.event m = true) :
    ¬ Accepted (bodies P) (tr P (.ite c p (.act id))) x y ∧
      ¬ Accepted (bodies P) (tr P (.ite c (.seq p a) (.act id))) x y := by
  have hl : ∀ n z, prodWith (callProd (bodies P) n) n (tr P p) (some z) none = .fail := by
    intro n z
    rcases hp with ⟨d, b, rfl⟩ | ⟨s, nx, d, b, rfl⟩ | ⟨m, rfl, hm⟩
    · simp only [tr]; rw [prodWith, condLow_left]; rfl
    · simp [tr, condLow, prodWith, Prod.bind]
    · simp [tr, hm, prodWith, Prod.bind]
  have hr : ∀ n z, prodWith (callProd (bodies P) n) n (tr P p) none (some z) = .fail := by
    intro n z
    rcases hp with ⟨d, b, rfl⟩ | ⟨s, nx, d, b, rfl⟩ | ⟨m, rfl, hm⟩
    · simp only [tr]; rw [prodWith, condLow_right]; rfl
    · simp [tr, condLow, prodWith, Prod.bind]
    · simp [tr, hm, prodWith, Prod.bind]
  constructor
  · intro h
    refine h 0 ?_
    cases h1 : c x <;> cases h2 : c y <;> simp_all [tr, prodWith, Prod.bind]
  · intro h
    refine h 0 ?_
    cases h1 : c x <;> cases h2 : c y <;> simp_all [tr, prodWith, Prod.bind]

/-! ### Where the code violates the claim -/

/-- `while s != 0: s = s - h` where `(s, h)` is the state and `h` is the secret: the condition is low
before the loop, and it is not looked at again. -/
def exLoop : Stmt (Int × Int) := .while (fun s => s.1 != 0) (.act fun s => (s.1 - s.2, s.2))

/-- No methods. -/
def noMethods : Prog σ := ⟨fun _ => .act id, fun _ => true⟩

theorem exLoop_diverges (n : Nat) : run noMethods n exLoop (1, 0) = none := by
  have : ∀ n (b : Int × Int → Option (Int × Int)), b (1, 0) = some (1, 0) →
      loop n (fun s : Int × Int => s.1 != 0) b (1, 0) = none := by
    intro n b hb
    induction n with
    | zero => rfl
    | succ n ih => simpa [loop, hb] using ih
  exact this n _ rfl

theorem exLoop_ploop (n : Nat) (pb : Option (Int × Int) → Option (Int × Int) → Prod (Int × Int))
    (hb : ∀ x y, pb x y = .ok (x.map fun s => (s.1 - s.2, s.2)) (y.map fun s => (s.1 - s.2, s.2))) :
    ∀ x y, ploop n (fun s => s.1 != 0) pb x y ≠ .fail := by
  induction n with
  | zero => intro x y h; cases h
  | succ n ih =>
    intro x y
    simp only [ploop]
    split
    · intro h; cases h
    · rw [hb]; exact ih _ _

/-- The condition of a `while` loop is checked before the loop only: whether the loop ends may depend
on a secret. -/
theorem C143_fails : ¬ C143_termination := by
  intro h
  have hacc : Accepted (bodies noMethods) (tr noMethods exLoop) (1, 1) (1, 0) := by
    intro n
    simp only [exLoop, tr]
    rw [prodWith, condLow_both_eq]
    simp only [if_true, Prod.bind]
    rw [prodWith]
    exact exLoop_ploop n _ (fun _ _ => rfl) _ _
  obtain ⟨n, s, hs⟩ := (h _ _ exLoop (1, 1) (1, 0) hacc).1 ⟨2, (0, 1), by decide⟩
  rw [exLoop_diverges] at hs
  cases hs

/-- Method 0 calls itself. -/
def selfCall : Prog Bool := ⟨fun _ => .call 0, fun _ => false⟩

/-- A call of a method that does not terminate, under a condition that depends on a secret, is
accepted: nothing asks for termination measures of methods in the possibilistic mode. -/
theorem C143_calls_fails : ∃ (P : Prog Bool) (p : Stmt Bool) (x y : Bool), Checked p ∧
    (∀ m, Checked (P.body m)) ∧ Accepted (bodies P) (tr P p) x y ∧ Terminates P p x ∧
    ¬ Terminates P p y := by
  have hrun : ∀ n m s, callRun selfCall n m s = none := by
    intro n
    induction n with
    | zero => intro m s; rfl
    | succ n ih => intro m s; exact ih 0 s
  have hprod : ∀ n m x y, callProd (bodies selfCall) n m x y = .out := by
    intro n
    induction n with
    | zero => intro m x y; rfl
    | succ n ih => intro m x y; exact ih 0 x y
  refine ⟨selfCall, .ite id (.call 0) (.act id), false, true,
    .ite (.call 0) (.act id), fun _ => .call 0, ?_, ⟨0, false, rfl⟩, ?_⟩
  · intro n
    simp [tr, selfCall, prodWith]
    have := hprod n 0 none (some true)
    simp only [selfCall] at this
    rw [this]
    simp [Prod.bind]
  · rintro ⟨n, s, h⟩
    simp [run, runWith, hrun] at h

/-! ### Examples -/

/-- `for i in range(k): if h: t = 1`, then `while i != 0: i = i - 1; Assert(Low(i != 0))`. -/
def exOk : Stmt (Int × Bool) :=
  .seq (.forEach (fun s => (5, s.2)) (fun s => (s.1 - 1, s.2)) (fun s => s.1 == 0)
    (.ite (fun s => s.2) (.act id) (.act fun s => (s.1, s.2))))
    (.while (fun s => s.1 != 0) (.seq (.act fun s => (s.1 - 1, s.2)) (.check fun s => s.1 != 0)))

example : Checked exOk :=
  .seq (.forEach (.ite (.act _) (.act _))) (.while (.act _))

/-- A program that branches on a secret and is accepted. -/
example : Accepted (bodies noMethods) (tr (noMethods (σ := Bool)) (.seq (.ite id (.act not) (.act id))
    (.while (fun s => s) (.seq (.act id) (.check id))))) false true := by
  intro n
  simp only [tr]
  rw [prodWith]
  have e : prodWith (callProd (bodies (noMethods (σ := Bool))) n) n (T.ite id (T.act not) (T.act id))
      (some false) (some true) = .ok (some false) (some false) := by
    simp [prodWith, Prod.bind]
  rw [e]
  simp only [Prod.bind]
  rw [prodWith, condLow_both_eq]
  simp only [if_true, Prod.bind]
  rw [prodWith]
  cases n with
  | zero => intro h; cases h
  | succ n => simp [ploop, Option.filter]

example : ¬ Accepted (bodies noMethods) (tr noMethods (.ite (fun s => s.1 == 1) exLoop (.act id)))
    (1, 0) (2, 0) :=
  (C143_rejects noMethods _ (.act id) _ _ (by decide) _ (.inl ⟨_, _, rfl⟩)).1

end Nagini.Poss
