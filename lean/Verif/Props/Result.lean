import Verif.Lemmas.Result

/-!
C62: the value a method returns.
-/
set_option linter.unusedVariables false
namespace Nagini.Result

variable {V S E : Type}

/-- **C62** (full claim): the result variable at the end of a method has the value that the Python function
returns. -/
def C62 : Prop :=
  ∀ (V S E : Type) (null : V) (p : Stmt V S E) (s s' : S) (r : V), call null p s s' r ↔ pyCall null p s s' r

/-- The generated code and the Python program take the same jumps and have the same other state. -/
theorem C62_control (null : V) (p : Stmt V S E) (s s' : S) (r : V) (o : Out E) :
    (∃ r', Enc null p s r o s' r') ↔ ∃ O : PyOut V E, Py p s O s' ∧ match O with
      | .norm => o = .norm
      | .ret _ => o = .ret
      | .brk => o = .brk
      | .cont => o = .cont
      | .exc e => o = .exc e := by
  constructor
  · rintro ⟨r', h⟩
    obtain ⟨O, h1, rfl, _⟩ := enc_py h
    refine ⟨O, h1, ?_⟩
    cases O <;> rfl
  · rintro ⟨O, h, ho⟩
    obtain ⟨r', h', _⟩ := py_enc (null := null) h r
    refine ⟨r', ?_⟩
    cases O <;> (simp only at ho; subst ho; exact h')

/-- **C62** (partial, `return`): if the `finally` blocks are calm, the result variable has the value of the
`return` that Python executes, whatever it was before.  So this holds for inlined calls too.  (Missing:
`finally` blocks that are not calm, for which the claim is false.) -/
theorem C62_return_partial (null : V) (p : Stmt V S E) (hp : p.calmFinally = true) (s s' : S) (r r' : V) :
    Enc null p s r .ret s' r' ↔ Py p s (.ret r') s' := by
  constructor
  · intro h
    obtain ⟨O, h1, h2, h3⟩ := enc_py h
    cases O <;> simp only [PyOut.jump, reduceCtorEq] at h2
    rw [← h3 hp _ rfl]
    exact h1
  · intro h
    obtain ⟨r₁, h1, h2⟩ := py_enc (null := null) h r
    rw [← h2 hp _ rfl]
    exact h1

/-- **C62** (partial, end of the body): if the bodies of `try` statements with handlers are calm, the result
at the end of the body is None.  (Missing: other bodies, for which the claim is false.) -/
theorem C62_end_partial (null : V) (p : Stmt V S E) (hp : p.calmTry = true) (s s' : S) (r : V) :
    Enc null p s null .norm s' r ↔ Py p s .norm s' ∧ r = null := by
  constructor
  · intro h
    refine ⟨?_, falloff h hp rfl rfl⟩
    obtain ⟨O, h1, h2, _⟩ := enc_py h
    rw [jump_norm h2] at h1
    exact h1
  · rintro ⟨h, rfl⟩
    obtain ⟨r', h1, _⟩ := py_enc (null := r) h r
    have := falloff h1 hp rfl rfl
    rw [this] at h1
    exact h1

/-- **C62** (partial): if both are calm, calls return what they return in Python.  (Missing: as above.) -/
theorem C62_partial (null : V) (p : Stmt V S E) (h1 : p.calmFinally = true) (h2 : p.calmTry = true) (s s' : S) (r : V) :
    call null p s s' r ↔ pyCall null p s s' r := by
  unfold call pyCall
  rw [C62_return_partial null p h1, C62_end_partial null p h2, or_comm]

/-- If a `finally` block is a loop without `return`, every pending `return` becomes `return None`. -/
theorem C62_loop_in_finally (null : V) (e : S → V) (f : Bool) (c : S → Bool) (body orelse : Stmt V S E)
    (hb : body.writes = false) (ho : orelse.writes = false) (s s' : S) (r r' : V)
    (h : Enc null (.tryFin (.ret e) (.loop f c body orelse)) s r .ret s' r') : r' = null := by
  have noRet : ∀ {p : Stmt V S E} {s s' : S} {O : PyOut V E}, Py p s O s' → ∀ v, O = .ret v →
      (p.writes = false ∨ ∃ f c body orelse, p = .loop f c body orelse ∧ body.writes = false ∧ orelse.writes = false) → False := by
    intro p s s' O h
    induction h with
    | act | raise | brk | cont => exact fun _ h _ => by cases h
    | ret => rintro _ _ (h | ⟨_, _, _, _, h, _⟩) <;> cases h
    | seq a b s s₁ o s' _ _ ih1 ih2 =>
      rintro v ho (h | ⟨_, _, _, _, h, _⟩)
      · simp only [Stmt.writes, Bool.or_eq_false_iff] at h
        exact ih2 v ho (.inl h.2)
      · cases h
    | seqJump a b s o s' hn _ ih =>
      rintro v ho (h | ⟨_, _, _, _, h, _⟩)
      · simp only [Stmt.writes, Bool.or_eq_false_iff] at h
        exact ih v ho (.inl h.1)
      · cases h
    | iteThen c a b s o s' hcs _ ih =>
      rintro v ho (h | ⟨_, _, _, _, h, _⟩)
      · simp only [Stmt.writes, Bool.or_eq_false_iff] at h
        exact ih v ho (.inl h.1)
      · cases h
    | iteElse c a b s o s' hcs _ ih =>
      rintro v ho (h | ⟨_, _, _, _, h, _⟩)
      · simp only [Stmt.writes, Bool.or_eq_false_iff] at h
        exact ih v ho (.inl h.2)
      · cases h
    | loopElse f c body els s o s' hcs _ ih =>
      rintro v ho (h | ⟨_, _, _, _, h, h1, h2⟩)
      · cases h
      · cases h; exact ih v ho (.inl h2)
    | loopNorm f c body els s s₁ o s' hcs _ _ ih1 ih2 => exact ih2
    | loopCont f c body els s s₁ o s' hcs _ _ ih1 ih2 => exact ih2
    | loopBrk f c body els s s' hcs _ ih => exact fun _ h _ => by cases h
    | loopRet f c body els s x s' hcs _ ih =>
      rintro v ho (h | ⟨_, _, _, _, h, h1, h2⟩)
      · cases h
      · cases h; exact ih v ho (.inl h1)
    | loopExc f c body els s x s' hcs _ ih => exact fun _ h _ => by cases h
    | tryCatch body catches h s e s₁ o s' _ hcat _ ih1 ih2 =>
      rintro v ho (h | ⟨_, _, _, _, h, _⟩)
      · simp only [Stmt.writes, Bool.or_eq_false_iff] at h
        exact ih2 v ho (.inl h.2)
      · cases h
    | tryUncaught body catches h s e s' _ hcat ih => exact fun _ h _ => by cases h
    | tryThrough body catches h s o s' _ hn ih =>
      rintro v ho (h | ⟨_, _, _, _, h, _⟩)
      · simp only [Stmt.writes, Bool.or_eq_false_iff] at h
        exact ih v ho (.inl h.1)
      · cases h
    | finPending body fin s o s₁ s' _ _ ih1 ih2 =>
      rintro v ho (h | ⟨_, _, _, _, h, _⟩)
      · simp only [Stmt.writes, Bool.or_eq_false_iff] at h
        exact ih1 v ho (.inl h.1)
      · cases h
    | finOther body fin s o₁ s₁ o s' _ _ hn ih1 ih2 =>
      rintro v ho (h | ⟨_, _, _, _, h, _⟩)
      · simp only [Stmt.writes, Bool.or_eq_false_iff] at h
        exact ih2 v ho (.inl h.2)
      · cases h
  generalize hx : Out.ret (E := E) = x at h
  cases h with
  | tryFin _ _ _ _ o₁ s₁ r₁ o₂ _ _ hbody hfin =>
    cases o₂ with
    | norm => exact loop_null hfin rfl rfl
    | ret =>
      obtain ⟨O, h1, h2, _⟩ := enc_py hfin
      cases O <;> simp only [PyOut.jump, reduceCtorEq] at h2
      exact (noRet h1 _ rfl (.inr ⟨_, _, _, _, rfl, hb, ho⟩)).elim
    | brk => cases hx
    | cont => cases hx
    | exc => cases hx

/-! Programs; the state is a number, None is 0 -/

/-- `try: return 5`, `finally: while s: s = 0`. -/
def lost : Stmt Nat Nat Nat := .tryFin (.ret fun _ => 5) (.loop false (fun s => decide (s = 1)) (.act fun _ => 0) (.act id))

/-- `try: try: return 5; finally: raise E`, `except E: pass`. -/
def stale : Stmt Nat Nat Nat := .tryExc (.tryFin (.ret fun _ => 5) (.raise id)) (fun _ => true) (.act id)

/-- `try: while s == 1: (if s == 2: return 5); raise E`, `except E: pass`. -/
def forgotten : Stmt Nat Nat Nat :=
  .tryExc (.loop false (fun s => decide (s = 1)) (.seq (.ite (fun s => decide (s = 2)) (.ret fun _ => 5) (.act id)) (.raise id)) (.act id))
    (fun _ => true) (.act id)

/-- `while s == 1: try: return 5; finally: (if s == 1: s = 0; break)`, with a `return` behind. -/
def fine : Stmt Nat Nat Nat :=
  .seq (.loop false (fun s => decide (s = 1)) (.tryFin (.ret fun _ => 5) (.ite (fun s => decide (s = 1)) (.seq (.act fun _ => 0) .brk) (.act id)))
    (.act id)) (.tryFin (.ret fun s => s + 7) (.act fun s => s + 1))

/-- The claim is false: a loop in a `finally` block replaces a pending `return 5` by `return None`. -/
theorem C62_fails : ¬ C62 := by
  intro h
  have h := (h _ _ _ 0 lost 1 0 5).2 (.inl (.finPending _ _ _ _ _ _ (.ret _ _)
    (.loopNorm _ _ _ _ _ _ _ _ rfl (.act _ _) (.loopElse _ _ _ _ _ _ _ rfl (.act _ _)))))
  rcases h with h | h
  · obtain ⟨O, h1, h2, _⟩ := enc_py h
    rw [jump_norm h2] at h1
    cases h1 with
    | finPending _ _ _ _ _ _ h1 _ => cases h1
    | finOther _ _ _ _ _ _ _ _ _ hn => exact hn rfl
  · exact absurd (C62_loop_in_finally 0 (fun _ => 5) _ _ _ _ rfl rfl _ _ _ _ h) (by decide)

/-- The claim is false for another reason: the value of a `return` that an exception in a `finally` block
has replaced stays in the result variable, and is returned when the exception is caught. -/
theorem C62_stale_fails : call 0 stale 1 1 5 ∧ ∀ s', pyCall 0 stale 1 s' 5 → False := by
  refine ⟨.inl (.tryCatch _ _ _ _ _ 1 _ 5 _ _ _ ?_ rfl (.act _ _ _)), fun s' h => ?_⟩
  · exact .tryFin _ _ _ _ _ _ _ _ _ _ (.ret _ _ _) (.raise _ _ _)
  · rcases h with h | ⟨_, h⟩
    · cases h with
      | tryCatch _ _ _ _ _ _ _ _ _ _ h => cases h
      | tryThrough _ _ _ _ _ _ h _ => cases h with
        | finPending _ _ _ _ _ _ _ h => cases h
        | finOther _ _ _ _ _ _ _ _ h _ => cases h
    · cases h

/-- The claim is false for a third reason: nothing is known about the result variable when an exception
leaves a loop that contains a `return`. -/
theorem C62_loop_exception_fails : ∀ r, call 0 forgotten 1 1 r := by
  intro r
  refine .inl (.tryCatch _ _ _ _ _ 1 1 r _ _ _ ?_ rfl (.act _ _ _))
  exact .loopLeave _ _ _ _ _ _ r (.exc 1) _ _ (.exc 1) rfl (fun h => by cases h)
    (.seq _ _ _ _ _ _ _ _ _ (.ite _ _ _ _ _ _ _ _ (.act _ _ _)) (.raise _ _ _)) rfl

/-- In inlined calls, nothing is known about the result if the end of the body is reached. -/
theorem C62_inlined_fails (null r : V) (s : S) : inlined null (.act id : Stmt V S E) s s r ∧
    (r ≠ null → ¬ pyCall null (.act id : Stmt V S E) s s r) := by
  refine ⟨⟨r, .inl (.act _ _ _)⟩, fun hr h => ?_⟩
  rcases h with h | ⟨_, h⟩
  · cases h
  · exact hr h

/-! The hypotheses can be met -/

example : fine.calmFinally = true ∧ fine.calmTry = true ∧ call 0 fine 1 1 7 := by
  refine ⟨rfl, rfl, (C62_partial 0 fine rfl rfl 1 1 7).2 (.inl ?_)⟩
  refine .seq _ _ _ 0 _ _ ?_ (.finPending _ _ _ _ _ _ (.ret _ _) (.act _ _))
  exact .loopBrk _ _ _ _ _ _ rfl (.finOther _ _ _ _ _ _ _ (.ret _ _) (.iteThen _ _ _ _ _ _ rfl (.seq _ _ _ _ _ _ (.act _ _) (.brk _))) nofun)

example : lost.calmFinally = false ∧ stale.calmTry = false ∧ forgotten.calmTry = false := ⟨rfl, rfl, rfl⟩

end Nagini.Result
