/-
C85-C87: statements in the information flow mode (translation to Silver's extended AST).
-/
import Verif.Lemmas.Sif

set_option linter.unusedVariables false

namespace Nagini.Sif

/-- The generated code, run in a state with the same values, ends as Python does: with the same
outcome and state, the result variable holding the value returned (and nothing if none is
returned) and the error variable the exception raised. -/
def Follows {σ V : Type} (dx : Bool) (s : Stmt σ V) : Prop :=
  ∀ t, tr dx [] 0 s = some t → ∀ n c x c' o, x.s = c.s → x.res = none →
    exec n s c = some (c', o) →
    ∃ x', (∃ m, ∀ k, m ≤ k → xexec k t x = some (x', xo o)) ∧ x'.s = c'.s ∧
      match o with
      | .ret v => x'.res = some v
      | .exc e => x'.err = some e ∧ x'.res = none
      | _ => x'.res = none

/-! ### C85 -/

/-- C85: every accepted statement behaves as in Python. -/
def C85_statements : Prop := ∀ (σ V : Type) (dx : Bool) (s : Stmt σ V), Follows dx s

/-- C85 holds if handlers that name the exception contain no calls that may raise, no loops, `try`
or `with`; `finally` blocks consist of simple statements, `if` and `return`; and `for` loops contain
no `continue` (C86). -/
theorem C85_statements_partial {σ V : Type} (dx : Bool) (s : Stmt σ V) (h : Ok s) : Follows dx s := by
  intro t ht n c x c' o hs hr he
  obtain ⟨x', h1, h2, h3, _⟩ := (sim_both dx n).1 0 s h t ht c x c' o hs hr he
  refine ⟨x', h1, h2, ?_⟩
  cases o <;> exact h3

/-- A function `f` of states used in the witnesses: the state counts. -/
def ex1 : Exc := ⟨1, 7⟩

/-- `while n < 3: try: n += 1; if n == 2: raise E() … except E as e: n += 10 finally: n += 100`,
followed by `return n`. -/
def sample : Stmt Nat Nat :=
  .seq (.while (fun n => decide (n < 3))
    (.try (.seq (.act (· + 1)) (.ite (fun n => n == 2) (.raise fun n => (n, ex1)) (.act id)))
      (.cons (fun e => e.cls == 7) (some 0)
        (.actH 0 fun o n => match o with | some e => n + 10 * e.id | none => 0) .nil)
      (.act id) (.act (· + 100)))
    (.act (· + 1000)))
  (.ret fun n => (n, n))

example : Ok sample := by simp [sample, Ok, OkH, calm, plain]
example : (tr true [] 0 sample).isSome = true := rfl
/-- 0 → 1 → 101, then the `else` part. -/
example : (exec 20 sample ⟨0, fun _ => none⟩).map (fun r => (r.1.s, r.2)) =
    some (1101, .ret 1101) := rfl
/-- From 1: the exception is caught. -/
example : (exec 20 sample ⟨1, fun _ => none⟩).map (fun r => (r.1.s, r.2)) =
    some (1112, .ret 1112) := rfl

/-- An initial state of the generated method. -/
def start {σ V : Type} (s : σ) : XSt σ V :=
  ⟨s, none, none, fun _ => [], fun _ => none, fun _ => false, fun _ => false⟩

/-- The result of the generated code for large bounds contradicts `Follows`. -/
theorem not_follows {σ V : Type} {dx : Bool} {s : Stmt σ V} {t : X σ V} (ht : tr dx [] 0 s = some t)
    {n : Nat} {c c' : Cfg σ} {o : Out V} (he : exec n s c = some (c', o)) (j : Nat)
    {x' : XSt σ V} {o' : XOut} (hx : ∀ m, xexec (m + j) t (start c.s) = some (x', o'))
    (hd : x'.s ≠ c'.s ∨ (∃ v, o = .ret v ∧ x'.res ≠ some v) ∨ (∃ e, o = .exc e ∧ x'.err ≠ some e) ∨
      (o = .norm ∧ x'.res ≠ none)) : ¬ Follows dx s := by
  intro hf
  obtain ⟨y, ⟨m, hm⟩, h1, h2⟩ := hf t ht n c (start c.s) c' o rfl rfl he
  have := (hm (m + j) (by omega)).symm.trans (hx m)
  simp only [Option.some.injEq, Prod.mk.injEq] at this
  obtain ⟨rfl, _⟩ := this
  rcases hd with hd | ⟨v, rfl, hd⟩ | ⟨e, rfl, hd⟩ | ⟨rfl, hd⟩
  · exact hd h1
  · exact hd h2
  · exact hd h2.1
  · exact hd h2

/-- `try: raise E() except E as e: f(); use(e)`, where `f` may raise but does not. -/
def callInHandler : Stmt Nat Nat :=
  .try (.raise fun n => (n, ex1))
    (.cons (fun _ => true) (some 0)
      (.seq (.call fun n => (n, none))
        (.actH 0 fun o n => match o with | some _ => 1 | none => 2)) .nil)
    (.act id) (.act id)

/-- C85 fails: the variable of an `except` clause is the error variable of the method, which a call
in the handler overwrites. -/
theorem C85_handler_variable_fails (dx : Bool) : ¬ Follows dx callInHandler :=
  not_follows (n := 10) (c := ⟨0, fun _ => none⟩) rfl rfl 10 (fun m => rfl)
    (.inl (by decide))

/-- `try: return 5 finally: while False: pass`. -/
def loopInFinally (a : Stmt Nat Nat) : Stmt Nat Nat :=
  .try a .nil (.act id) (.while (fun _ => false) (.act id) (.act id))

/-- C85 fails: a loop in a `finally` block resets the result variable, the value is lost. -/
theorem C85_loop_in_finally_fails (dx : Bool) : ¬ Follows dx (loopInFinally (.ret fun n => (n, 5))) :=
  not_follows (n := 10) (c := ⟨0, fun _ => none⟩) rfl rfl 10 (fun m => rfl)
    (.inr (.inl ⟨5, rfl, by simp [setResultNone]⟩))

/-- C85 fails: in a method that declares exceptions such a loop also resets the error variable. -/
theorem C85_exception_lost_fails : ¬ Follows true (loopInFinally (.raise fun n => (n, ex1))) :=
  not_follows (n := 10) (c := ⟨0, fun _ => none⟩) rfl rfl 10 (fun m => rfl)
    (.inr (.inr (.inl ⟨ex1, rfl, by simp [setResultNone]⟩)))

/-- `try: (try: return 5 finally: raise E()) except E: pass`. -/
def staleResult : Stmt Nat Nat :=
  .try (.try (.ret fun n => (n, 5)) .nil (.act id) (.raise fun n => (n, ex1)))
    (.cons (fun _ => true) none (.act id) .nil) (.act id) (.act id)

/-- C85 fails: a `return` cancelled by an exception leaves its value in the result variable, so the
method returns 5 instead of `None`. -/
theorem C85_cancelled_return_fails (dx : Bool) : ¬ Follows dx staleResult :=
  not_follows (n := 10) (c := ⟨0, fun _ => none⟩) rfl rfl 10 (fun m => rfl)
    (.inr (.inr (.inr ⟨rfl, by simp⟩)))

theorem C85_statements_fails : ¬ C85_statements := fun h =>
  C85_handler_variable_fails true (h Nat Nat true callInHandler)

/-! ### C86 -/

/-- C86: a `for` loop whose parts satisfy the conditions of C85 visits the elements as in Python. -/
def C86_for : Prop := ∀ (σ V : Type) (dx : Bool) (it : σ → List V) (asg : V → σ → σ)
  (b e : Stmt σ V), Ok b → Ok e → Follows dx (.for it asg b e)

/-- C86 holds for loops without `continue`: the body is executed once for every element in order,
until it is left, the `else` part after the last element. -/
theorem C86_for_partial {σ V : Type} (dx : Bool) (it : σ → List V) (asg : V → σ → σ)
    (b e : Stmt σ V) (hb : Ok b) (hc : noCont b) (he : Ok e) : Follows dx (.for it asg b e) :=
  C85_statements_partial dx _ (by rw [Ok]; exact ⟨hb, hc, he⟩)

/-- Sum of the elements; stops at 0. -/
def sumLoop : Stmt (Nat × Nat) Nat :=
  .for (fun _ => [3, 4, 0, 5]) (fun v s => (v, s.2)) (.ite (fun s => s.1 == 0) .brk
    (.act fun s => (s.1, s.2 + s.1))) (.act fun s => (s.1, s.2 + 100))

example : Ok sumLoop := by simp [sumLoop, Ok, noCont]
example : (exec 20 sumLoop ⟨(0, 0), fun _ => none⟩).map (fun r => (r.1.s, r.2)) =
    some ((0, 7), .norm) := rfl

/-- `for x in [1, 2]: if not seen: seen = True; continue … acc += 10 * x`. -/
def skipFirst : Stmt (Nat × Nat) Nat :=
  .for (fun _ => [1, 2]) (fun v s => (v, s.2)) (.ite (fun s => s.2 == 0)
    (.seq (.act fun s => (s.1, 1)) .cont) (.act fun s => (s.1, s.2 + 10 * s.1))) (.act id)

/-- C86 fails: `continue` skips the call of `__next__` at the end of the generated loop body, so the
element is visited again. -/
theorem C86_continue_fails (dx : Bool) : ¬ Follows dx skipFirst :=
  not_follows (n := 10) (c := ⟨(0, 0), fun _ => none⟩) rfl rfl 20 (fun m => rfl)
    (.inl (show ((2, 31) : Nat × Nat) ≠ (2, 21) by decide))

theorem C86_for_fails : ¬ C86_for := fun h =>
  C86_continue_fails true (h _ _ true _ _ _ _ (by simp [Ok]) (by simp [Ok]))

/-- Worse: a loop that always continues never ends, so the code after it is verified trivially. -/
def alwaysContinue : Stmt Nat Nat :=
  .for (fun _ => [1]) (fun _ s => s) .cont (.act id)

theorem C86_continue_diverges_fails :
    (∃ c', exec 3 alwaysContinue (⟨0, fun _ => none⟩ : Cfg Nat) = some (c', .norm)) ∧
    ∃ t, tr true [] 0 alwaysContinue = some t ∧ ∀ k, xexec k t (start 0) = none := by
  refine ⟨⟨_, rfl⟩, _, rfl, ?_⟩
  have loop : ∀ k (x : XSt Nat Nat), x.done 0 = false →
      xexec k (.while (fun x => !x.done 0) (.seq .cont (.seq skip (.seq (.upd (nextCall 0))
        (.upd (assignTarget (fun _ s => s) 0))))) (.upd fun x => { x with s := id x.s })) x = none := by
    intro k
    induction k with
    | zero => intro x _; rfl
    | succ k ih =>
      intro x hx
      rw [xexec]
      simp only [hx, Bool.not_false, if_true]
      match k, ih with
      | 0, ih => rfl
      | 1, ih => rfl
      | k + 2, ih =>
        have hb : xexec (k + 2) (.seq .cont (.seq skip (.seq (.upd (nextCall 0))
          (.upd (assignTarget (fun _ s => s) 0))))) x = some (x, .cont) := rfl
        rw [hb]
        exact ih x hx
  intro k
  match k with
  | 0 => rfl
  | 1 => rfl
  | 2 => rfl
  | 3 => rfl
  | 4 => rfl
  | k + 5 =>
    have hu : ∀ j (f : XSt Nat Nat → XSt Nat Nat) b x,
        xexec (j + 2) (.seq (.upd f) b) x = xexec (j + 1) b (f x) := fun _ _ _ _ => rfl
    have hn : ∀ j (a b : X Nat Nat) x, xexec j a x = none → xexec (j + 1) (.seq a b) x = none := by
      intro j a b x h; rw [xexec, h]
    rw [hu, hu, hu]
    exact hn _ _ _ _ (loop _ _ rfl)

/-! ### C87 -/

/-- C87: a `with` statement whose body satisfies the conditions of C85 runs the body after entering,
then calls `__exit__` exactly once: with the exception if the body raised one, which is raised again
iff the result is false, and without arguments if the body ended in any other way. -/
theorem C87_with {σ V : Type} (dx : Bool) (enter exitN : σ → σ) (exitE : Exc → σ → σ × Bool)
    (bind : σ → σ) (b : Stmt σ V) (hb : Ok b) (t : X σ V)
    (ht : tr dx [] 0 (.with enter exitN exitE bind b) = some t) (n : Nat) (c c' : Cfg σ)
    (x : XSt σ V) (o : Out V) (hs : x.s = c.s) (hr : x.res = none)
    (he : exec n b ⟨bind (enter c.s), c.env⟩ = some (c', o)) :
    ∃ x' o', (∃ m, ∀ k, m ≤ k → xexec k t x = some (x', o')) ∧
      (∀ e, o = .exc e → x'.s = (exitE e c'.s).1 ∧
        ((exitE e c'.s).2 = true → o' = .norm ∧ x'.res = none) ∧
        ((exitE e c'.s).2 = false → o' = .exc ∧ x'.err = some e)) ∧
      (o = .norm → x'.s = exitN c'.s ∧ o' = .norm ∧ x'.res = none) ∧
      (o = .brk → x'.s = exitN c'.s ∧ o' = .brk) ∧
      (o = .cont → x'.s = exitN c'.s ∧ o' = .cont) ∧
      (∀ v, o = .ret v → x'.s = exitN c'.s ∧ o' = .ret ∧ x'.res = some v) := by
  have hx : exec (n + 1) (.with enter exitN exitE bind b) c =
      some (⟨withEnd exitN exitE c'.s o, c'.env⟩, withOut exitE c'.s o) := by
    have : (c.upd enter).upd bind = ⟨bind (enter c.s), c.env⟩ := rfl
    rw [exec, this, he]
    cases o <;> rfl
  obtain ⟨x', h1, h2, h3, _⟩ := (sim_both dx (n + 1)).1 0 _ (by rw [Ok]; exact hb) t ht c x _ _ hs hr hx
  refine ⟨x', _, h1, ?_, ?_, ?_, ?_, ?_⟩
  · rintro e rfl
    refine ⟨h2, fun hh => ?_, fun hh => ?_⟩
    · simp only [withOut, hh, if_true] at h3 ⊢; exact ⟨rfl, h3⟩
    · simp only [withOut, hh, Bool.false_eq_true, if_false] at h3 ⊢; exact ⟨rfl, h3.1⟩
  · rintro rfl; exact ⟨h2, rfl, h3⟩
  · rintro rfl; exact ⟨h2, rfl⟩
  · rintro rfl; exact ⟨h2, rfl⟩
  · rintro v rfl; exact ⟨h2, rfl, h3⟩

/-- Entering adds 1, leaving multiplies by 10, with an exception by 100. -/
def withSample (e : Exc → Bool) (b : Stmt Nat Nat) : Stmt Nat Nat :=
  .with (· + 1) (· * 10) (fun x n => (n * 100, e x)) id b

example : (exec 9 (withSample (fun _ => true) (.raise fun n => (n, ex1))) ⟨1, fun _ => none⟩).map
    (fun r => (r.1.s, r.2)) = some (200, .norm) := rfl
example : (exec 9 (withSample (fun _ => false) (.raise fun n => (n, ex1))) ⟨1, fun _ => none⟩).map
    (fun r => (r.1.s, r.2)) = some (200, .exc ex1) := rfl
example : (exec 9 (withSample (fun _ => false) (.ret fun n => (n, n))) ⟨1, fun _ => none⟩).map
    (fun r => (r.1.s, r.2)) = some (20, .ret 2) := rfl
example : (tr true [] 0 (withSample (fun _ => true) (.raise fun n => (n, ex1)))).isSome = true := rfl

end Nagini.Sif
