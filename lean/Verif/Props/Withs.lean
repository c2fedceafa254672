import Verif.Spec.Withs

/-!
C116: with statements do what they do in Python.
-/
namespace Nagini.Withs

variable {S V : Type}

/-- **C116** (full claim): whatever the error variable holds before, the generated code does what Python
does. -/
def C116 : Prop :=
  ∀ (S V : Type) (truthy : V → Bool) (tb error : V) (w : Stmt S V) (s : S),
    run w error tb s = python truthy tb w s

/-- **C116, exactly** (partial): the generated code does what Python does if and only if, in case of an
exception, `__exit__` returns a false value, and, in case of `break` and `continue`, `__exit__` has the
same effect for an exception (the previous one) and for none. -/
theorem C116_iff_partial (truthy : V → Bool) (tb error : V) (w : Stmt S V) (s : S) :
    run w error tb s = python truthy tb w s ↔
      match (afterBody w s).2 with
      | .normal => True
      | .ret => True
      | .raise e => truthy (w.exit (w.context s).2 (some e) (some tb) (afterBody w s).1).2 = false
      | .brk => (w.exit (w.context s).2 (some error) (some tb) (afterBody w s).1).1 =
          (w.exit (w.context s).2 none none (afterBody w s).1).1
      | .cont => (w.exit (w.context s).2 (some error) (some tb) (afterBody w s).1).1 =
          (w.exit (w.context s).2 none none (afterBody w s).1).1 := by
  unfold run python afterBody enterStmts bodyStmts exitStmts exitArgs
  rcases w.context s with ⟨s1, c⟩
  rcases h2 : w.enter c s1 with ⟨s2, x⟩
  simp only [h2]
  rcases h3 : w.body (w.bind x s2) with ⟨s3, o⟩
  cases o with
  | normal => simp
  | ret => simp
  | raise e =>
    simp only [gt_iff_lt, show (1 : Int) < 2 by decide, if_true]
    rcases h4 : w.exit c (some e) (some tb) s3 with ⟨s4, r⟩
    simp only [h4]
    cases truthy r <;> simp
  | brk => simp
  | cont => simp

/-- **C116 without exceptions and jumps** (partial): nothing is assumed about the methods of the context
manager. -/
theorem C116_normal_partial (truthy : V → Bool) (tb error : V) (w : Stmt S V) (s : S)
    (h : (afterBody w s).2 = .normal ∨ (afterBody w s).2 = .ret) :
    run w error tb s = python truthy tb w s := by
  rw [C116_iff_partial]
  rcases h with h | h <;> rw [h] <;> trivial

/-- A context manager that records in a list of numbers what happens and swallows exceptions. -/
abbrev suppress (o : Outcome Nat) : Stmt (List Nat) Nat where
  context s := (s ++ [1], 10)
  enter c s := (s ++ [2], c + 1)
  bind x s := s ++ [x]
  body s := (s ++ [3], o)
  exit _ e _ s := (s ++ [match e with | some v => v | none => 99], 1)

/-- **C116 fails** for `__exit__` methods that return True: the exception is swallowed in Python and goes
on for the verifier. -/
theorem C116_swallow_fails : ¬ C116 := by
  intro h
  have := (C116_iff_partial (fun v => v != 0) 0 0 (suppress (.raise 7)) []).1
    (h _ _ (fun v => v != 0) 0 0 (suppress (.raise 7)) [])
  exact absurd (show ((1 : Nat) != 0) = false from this) (by decide)

/-- **C116 fails** for `break`: `__exit__` is told that there is an exception. -/
theorem C116_break_fails : ¬ C116 := by
  intro h
  have := (C116_iff_partial (fun v => v != 0) 0 0 (suppress .brk) []).1
    (h _ _ (fun v => v != 0) 0 0 (suppress .brk) [])
  exact absurd (show ([1, 2, 11, 3, 0] : List Nat) = [1, 2, 11, 3, 99] from this) (by decide)

/-- Not vacuous: an exception that is not swallowed, and a return. -/
example : run { suppress (.raise 7) with exit := fun _ _ _ s => (s ++ [5], 0) } 0 0 [] =
    ([1, 2, 11, 3, 5], .raise 7) := rfl
example : run (suppress .ret) 0 0 [] = ([1, 2, 11, 3, 99], .ret) := rfl
example : run { suppress (.raise 7) with exit := fun _ _ _ s => (s ++ [5], 0) } 0 0 [] =
    python (fun v => v != 0) 0 { suppress (.raise 7) with exit := fun _ _ _ s => (s ++ [5], 0) } [] :=
  (C116_iff_partial (fun v => v != 0) 0 0 _ []).2 rfl

end Nagini.Withs
