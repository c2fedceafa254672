import Verif.Spec.Result

set_option linter.unusedVariables false
set_option linter.unusedSimpArgs false

namespace Nagini.Result

variable {V S E : Type}

/-- The jump of an outcome. -/
def PyOut.jump : PyOut V E → Out E
  | .norm => .norm
  | .ret _ => .ret
  | .brk => .brk
  | .cont => .cont
  | .exc e => .exc e

theorem writes_keeps {null : V} {p : Stmt V S E} {s s' : S} {r r' : V} {o : Out E} (h : Enc null p s r o s' r') :
    p.writes = false → r' = r := by
  induction h with
  | act | raise | brk | cont => intro _; rfl
  | ret => intro h; cases h
  | seq a b s r s₁ r₁ o s' r' _ _ ih1 ih2 =>
    intro h
    simp only [Stmt.writes, Bool.or_eq_false_iff] at h
    rw [ih2 h.2, ih1 h.1]
  | seqJump a b s r o s' r' _ _ ih =>
    intro h
    simp only [Stmt.writes, Bool.or_eq_false_iff] at h
    exact ih h.1
  | ite c a b s r o s' r' _ ih =>
    intro h
    simp only [Stmt.writes, Bool.or_eq_false_iff] at h
    apply ih
    split
    · exact h.1
    · exact h.2
  | loopEnd => intro h; cases h
  | loopNext => intro h; cases h
  | loopLeave => intro h; cases h
  | tryCatch body catches h s r e s₁ r₁ o s' r' _ _ _ ih1 ih2 =>
    intro h
    simp only [Stmt.writes, Bool.or_eq_false_iff] at h
    rw [ih2 h.2, ih1 h.1]
  | tryThrough body catches h s r o s' r' _ _ ih =>
    intro h
    simp only [Stmt.writes, Bool.or_eq_false_iff] at h
    exact ih h.1
  | tryFin body fin s r o₁ s₁ r₁ o₂ s' r' _ _ ih1 ih2 =>
    intro h
    simp only [Stmt.writes, Bool.or_eq_false_iff] at h
    rw [ih2 h.2, ih1 h.1]

theorem resume_norm {o : Out E} : resume o .norm = o := rfl

theorem resume_other {o o₂ : Out E} (h : o₂ ≠ .norm) : resume o o₂ = o₂ := by
  cases o₂ <;> first | exact absurd rfl h | rfl

/-- Calm code keeps the result variable, unless it returns. -/
theorem calm_keeps {null : V} {p : Stmt V S E} {s s' : S} {r r' : V} {o : Out E} (h : Enc null p s r o s' r') :
    p.calm = true → o ≠ .ret → r' = r := by
  induction h with
  | act | raise | brk | cont => intro _ _; rfl
  | ret => intro _ h; exact absurd rfl h
  | seq a b s r s₁ r₁ o s' r' _ _ ih1 ih2 =>
    intro h ho
    simp only [Stmt.calm, Bool.and_eq_true] at h
    rw [ih2 h.2 ho, ih1 h.1 nofun]
  | seqJump a b s r o s' r' _ _ ih =>
    intro h ho
    simp only [Stmt.calm, Bool.and_eq_true] at h
    exact ih h.1 ho
  | ite c a b s r o s' r' _ ih =>
    intro h ho
    simp only [Stmt.calm, Bool.and_eq_true] at h
    refine ih ?_ ho
    split
    · exact h.1
    · exact h.2
  | loopEnd => intro h; cases h
  | loopNext => intro h; cases h
  | loopLeave => intro h; cases h
  | tryCatch body catches h s r e s₁ r₁ o s' r' _ _ _ ih1 ih2 =>
    intro h ho
    simp only [Stmt.calm, Bool.and_eq_true] at h
    rw [ih2 h.2 ho, ih1 h.1 nofun]
  | tryThrough body catches h s r o s' r' _ _ ih =>
    intro h ho
    simp only [Stmt.calm, Bool.and_eq_true] at h
    exact ih h.1 ho
  | tryFin body fin s r o₁ s₁ r₁ o₂ s' r' h1 h2 ih1 ih2 =>
    intro h ho
    simp only [Stmt.calm, Bool.and_eq_true, Bool.not_eq_true'] at h
    have e1 := writes_keeps h1 h.1
    rw [← e1]
    apply ih2 h.2
    rintro rfl
    exact ho rfl

/-- Every run of the generated code is a Python run with the same jump; if all `finally` blocks are calm,
the result variable has the value that is returned. -/
theorem enc_py {null : V} {p : Stmt V S E} {s s' : S} {r r' : V} {o : Out E} (h : Enc null p s r o s' r') :
    ∃ O : PyOut V E, Py p s O s' ∧ O.jump = o ∧ (p.calmFinally = true → ∀ v, O = .ret v → v = r') := by
  induction h with
  | act f s r => exact ⟨.norm, .act f s, rfl, fun _ _ h => by cases h⟩
  | ret e s r => exact ⟨.ret (e s), .ret e s, rfl, fun _ _ h => by cases h; rfl⟩
  | raise e s r => exact ⟨.exc (e s), .raise e s, rfl, fun _ _ h => by cases h⟩
  | brk s r => exact ⟨.brk, .brk s, rfl, fun _ _ h => by cases h⟩
  | cont s r => exact ⟨.cont, .cont s, rfl, fun _ _ h => by cases h⟩
  | seq a b s r s₁ r₁ o s' r' _ _ ih1 ih2 =>
    obtain ⟨O1, p1, j1, _⟩ := ih1
    obtain ⟨O2, p2, j2, v2⟩ := ih2
    cases O1 <;> simp only [PyOut.jump, reduceCtorEq] at j1
    refine ⟨O2, .seq a b _ _ _ _ p1 p2, j2, fun hc => v2 ?_⟩
    simp only [Stmt.calmFinally, Bool.and_eq_true] at hc
    exact hc.2
  | seqJump a b s r o s' r' hn _ ih =>
    obtain ⟨O, p1, j, v⟩ := ih
    refine ⟨O, .seqJump a b _ _ _ ?_ p1, j, fun hc => v ?_⟩
    · rintro rfl; exact hn j.symm
    · simp only [Stmt.calmFinally, Bool.and_eq_true] at hc
      exact hc.1
  | ite c a b s r o s' r' _ ih =>
    obtain ⟨O, p1, j, v⟩ := ih
    cases hcs : c s with
    | true =>
      rw [hcs] at p1 v
      refine ⟨O, .iteThen c a b _ _ _ hcs p1, j, fun hc => v ?_⟩
      simp only [Stmt.calmFinally, Bool.and_eq_true] at hc
      exact hc.1
    | false =>
      rw [hcs] at p1 v
      refine ⟨O, .iteElse c a b _ _ _ hcs p1, j, fun hc => v ?_⟩
      simp only [Stmt.calmFinally, Bool.and_eq_true] at hc
      exact hc.2
  | loopEnd f c body els s r r₀ o s' r' hcs _ _ ih =>
    obtain ⟨O, p1, j, v⟩ := ih
    refine ⟨O, .loopElse f c body els _ _ _ hcs p1, j, fun hc x hx => ?_⟩
    simp only [Stmt.calmFinally, Bool.and_eq_true] at hc
    subst hx
    have := v hc.2 x rfl
    rw [← j]
    exact this
  | loopNext f c body els s r r₀ o₁ s₁ r₁ o s' r' hcs _ _ hl _ ih1 ih2 =>
    obtain ⟨O1, p1, j1, _⟩ := ih1
    obtain ⟨O2, p2, j2, v2⟩ := ih2
    refine ⟨O2, ?_, j2, v2⟩
    cases O1 with
    | norm => exact .loopNorm f c body els _ _ _ _ hcs p1 p2
    | cont => exact .loopCont f c body els _ _ _ _ hcs p1 p2
    | brk => rw [← j1] at hl; cases hl
    | ret => rw [← j1] at hl; cases hl
    | exc => rw [← j1] at hl; cases hl
  | loopLeave f c body els s r r₀ o₁ s₁ r₁ o hcs _ _ hl ih =>
    obtain ⟨O, p1, j, v⟩ := ih
    cases O with
    | norm => rw [← j] at hl; cases hl
    | cont => rw [← j] at hl; cases hl
    | brk =>
      rw [← j] at hl
      cases hl
      exact ⟨.norm, .loopBrk f c body els _ _ hcs p1, rfl, fun _ _ h => by cases h⟩
    | ret x =>
      rw [← j] at hl
      cases hl
      refine ⟨.ret x, .loopRet f c body els _ _ _ hcs p1, rfl, fun hc y hy => ?_⟩
      simp only [Stmt.calmFinally, Bool.and_eq_true] at hc
      exact v hc.1 y hy
    | exc e =>
      rw [← j] at hl
      cases hl
      exact ⟨.exc e, .loopExc f c body els _ _ _ hcs p1, rfl, fun _ _ h => by cases h⟩
  | tryCatch body catches h s r e s₁ r₁ o s' r' _ hcat _ ih1 ih2 =>
    obtain ⟨O1, p1, j1, _⟩ := ih1
    obtain ⟨O2, p2, j2, v2⟩ := ih2
    cases O1 <;> simp only [PyOut.jump, reduceCtorEq, Out.exc.injEq] at j1
    subst j1
    refine ⟨O2, .tryCatch body catches h _ _ _ _ _ p1 hcat p2, j2, fun hc => v2 ?_⟩
    simp only [Stmt.calmFinally, Bool.and_eq_true] at hc
    exact hc.2
  | tryThrough body catches h s r o s' r' _ hcat ih =>
    obtain ⟨O, p1, j, v⟩ := ih
    refine ⟨O, ?_, j, fun hc => v ?_⟩
    · cases O with
      | exc e => exact .tryUncaught body catches h _ _ _ p1 (hcat e j.symm)
      | _ => exact .tryThrough body catches h _ _ _ p1 nofun
    · simp only [Stmt.calmFinally, Bool.and_eq_true] at hc
      exact hc.1
  | tryFin body fin s r o₁ s₁ r₁ o₂ s' r' h1 h2 ih1 ih2 =>
    obtain ⟨O1, p1, j1, v1⟩ := ih1
    obtain ⟨O2, p2, j2, v2⟩ := ih2
    by_cases hn : O2 = .norm
    · subst hn
      subst j2
      refine ⟨O1, .finPending body fin _ _ _ _ p1 p2, j1, fun hc x hx => ?_⟩
      simp only [Stmt.calmFinally, Bool.and_eq_true] at hc
      rw [v1 hc.1.1 x hx]
      exact (calm_keeps h2 hc.2 nofun).symm
    · refine ⟨O2, .finOther body fin _ _ _ _ _ p1 p2 hn, ?_, fun hc => v2 ?_⟩
      · rw [resume_other, j2]
        rintro rfl
        cases O2 <;> first | exact hn rfl | cases j2
      · simp only [Stmt.calmFinally, Bool.and_eq_true] at hc
        exact hc.1.2

theorem jump_norm {O : PyOut V E} (h : O.jump = .norm) : O = .norm := by
  cases O <;> first | rfl | cases h

/-- Every Python run is a run of the generated code. -/
theorem py_enc {null : V} {p : Stmt V S E} {s s' : S} {O : PyOut V E} (h : Py p s O s') :
    ∀ r, ∃ r', Enc null p s r O.jump s' r' ∧ (p.calmFinally = true → ∀ v, O = .ret v → r' = v) := by
  induction h with
  | act f s => exact fun r => ⟨r, .act f s r, fun _ _ h => by cases h⟩
  | ret e s => exact fun r => ⟨e s, .ret e s r, fun _ _ h => by cases h; rfl⟩
  | raise e s => exact fun r => ⟨r, .raise e s r, fun _ _ h => by cases h⟩
  | brk s => exact fun r => ⟨r, .brk s r, fun _ _ h => by cases h⟩
  | cont s => exact fun r => ⟨r, .cont s r, fun _ _ h => by cases h⟩
  | seq a b s s₁ o s' _ _ ih1 ih2 =>
    intro r
    obtain ⟨r1, e1, _⟩ := ih1 r
    obtain ⟨r2, e2, v2⟩ := ih2 r1
    refine ⟨r2, .seq a b _ _ _ _ _ _ _ e1 e2, fun hc => v2 ?_⟩
    simp only [Stmt.calmFinally, Bool.and_eq_true] at hc
    exact hc.2
  | seqJump a b s o s' hn _ ih =>
    intro r
    obtain ⟨r1, e1, v⟩ := ih r
    refine ⟨r1, .seqJump a b _ _ _ _ _ (fun h => hn (jump_norm h)) e1, fun hc => v ?_⟩
    simp only [Stmt.calmFinally, Bool.and_eq_true] at hc
    exact hc.1
  | iteThen c a b s o s' hcs _ ih =>
    intro r
    obtain ⟨r1, e1, v⟩ := ih r
    refine ⟨r1, .ite c a b _ _ _ _ _ (by rw [hcs]; exact e1), fun hc => v ?_⟩
    simp only [Stmt.calmFinally, Bool.and_eq_true] at hc
    exact hc.1
  | iteElse c a b s o s' hcs _ ih =>
    intro r
    obtain ⟨r1, e1, v⟩ := ih r
    refine ⟨r1, .ite c a b _ _ _ _ _ (by rw [hcs]; exact e1), fun hc => v ?_⟩
    simp only [Stmt.calmFinally, Bool.and_eq_true] at hc
    exact hc.2
  | loopElse f c body els s o s' hcs _ ih =>
    intro r
    obtain ⟨r1, e1, v⟩ := ih (if f then null else r)
    refine ⟨_, .loopEnd f c body els _ _ r _ _ _ hcs (fun _ => rfl) e1, fun hc x hx => ?_⟩
    simp only [Stmt.calmFinally, Bool.and_eq_true] at hc
    subst hx
    exact v hc.2 x rfl
  | loopNorm f c body els s s₁ o s' hcs _ _ ih1 ih2 =>
    intro r
    obtain ⟨r1, e1, _⟩ := ih1 r
    obtain ⟨r2, e2, v2⟩ := ih2 r1
    exact ⟨r2, .loopNext f c body els _ _ r _ _ _ _ _ _ hcs (fun _ => rfl) e1 rfl e2, v2⟩
  | loopCont f c body els s s₁ o s' hcs _ _ ih1 ih2 =>
    intro r
    obtain ⟨r1, e1, _⟩ := ih1 r
    obtain ⟨r2, e2, v2⟩ := ih2 r1
    exact ⟨r2, .loopNext f c body els _ _ r _ _ _ _ _ _ hcs (fun _ => rfl) e1 rfl e2, v2⟩
  | loopBrk f c body els s s' hcs _ ih =>
    intro r
    obtain ⟨r1, e1, _⟩ := ih r
    exact ⟨_, .loopLeave f c body els _ _ r _ _ _ _ hcs (fun _ => rfl) e1 rfl, fun _ _ h => by cases h⟩
  | loopRet f c body els s x s' hcs _ ih =>
    intro r
    obtain ⟨r1, e1, v⟩ := ih r
    refine ⟨_, .loopLeave f c body els _ _ r _ _ _ _ hcs (fun _ => rfl) e1 rfl, fun hc y hy => ?_⟩
    simp only [Stmt.calmFinally, Bool.and_eq_true] at hc
    exact v hc.1 y hy
  | loopExc f c body els s x s' hcs _ ih =>
    intro r
    obtain ⟨r1, e1, v⟩ := ih r
    exact ⟨_, .loopLeave f c body els _ _ r _ _ _ _ hcs (fun _ => rfl) e1 rfl, fun _ _ h => by cases h⟩
  | tryCatch body catches h s e s₁ o s' _ hcat _ ih1 ih2 =>
    intro r
    obtain ⟨r1, e1, _⟩ := ih1 r
    obtain ⟨r2, e2, v2⟩ := ih2 r1
    refine ⟨r2, .tryCatch body catches h _ _ _ _ _ _ _ _ e1 hcat e2, fun hc => v2 ?_⟩
    simp only [Stmt.calmFinally, Bool.and_eq_true] at hc
    exact hc.2
  | tryUncaught body catches h s e s' _ hcat ih =>
    intro r
    obtain ⟨r1, e1, _⟩ := ih r
    exact ⟨r1, .tryThrough body catches h _ _ _ _ _ e1 (fun e' h => by cases h; exact hcat), fun _ _ h => by cases h⟩
  | tryThrough body catches h s o s' _ hn ih =>
    intro r
    obtain ⟨r1, e1, v⟩ := ih r
    refine ⟨r1, .tryThrough body catches h _ _ _ _ _ e1 (fun e' h => ?_), fun hc => v ?_⟩
    · cases o <;> first | cases h | skip
      exact absurd rfl (hn _)
    · simp only [Stmt.calmFinally, Bool.and_eq_true] at hc
      exact hc.1
  | finPending body fin s o s₁ s' _ _ ih1 ih2 =>
    intro r
    obtain ⟨r1, e1, v1⟩ := ih1 r
    obtain ⟨r2, e2, _⟩ := ih2 r1
    refine ⟨r2, .tryFin body fin _ _ _ _ _ _ _ _ e1 e2, fun hc x hx => ?_⟩
    simp only [Stmt.calmFinally, Bool.and_eq_true] at hc
    rw [calm_keeps e2 hc.2 nofun]
    exact v1 hc.1.1 x hx
  | finOther body fin s o₁ s₁ o s' _ _ hn ih1 ih2 =>
    intro r
    obtain ⟨r1, e1, _⟩ := ih1 r
    obtain ⟨r2, e2, v2⟩ := ih2 r1
    refine ⟨r2, ?_, fun hc => v2 ?_⟩
    · have h := Enc.tryFin body fin _ _ _ _ _ _ _ _ e1 e2
      rwa [resume_other (fun h => hn (jump_norm h))] at h
    · simp only [Stmt.calmFinally, Bool.and_eq_true] at hc
      exact hc.1.2

/-- Behind a loop, the result variable has its default. -/
theorem loop_null {null : V} {p : Stmt V S E} {s s' : S} {r r' : V} {o : Out E} (h : Enc null p s r o s' r')
    {f : Bool} {c : S → Bool} {body els : Stmt V S E} : p = .loop f c body els → o = .norm → r' = null := by
  induction h with
  | loopEnd => rintro _ rfl; rfl
  | loopLeave => rintro _ rfl; rfl
  | loopNext f c body els s r r₀ o₁ s₁ r₁ o s' r' hcs _ _ hl hrun ih1 ih2 => exact ih2
  | _ => intro h; cases h

/-- At the end of the body, the result variable has its default, if bodies of `try` statements are calm. -/
theorem falloff {null : V} {p : Stmt V S E} {s s' : S} {r r' : V} {o : Out E} (h : Enc null p s r o s' r') :
    p.calmTry = true → r = null → o = .norm → r' = null := by
  induction h with
  | act => exact fun _ h _ => h
  | ret => exact fun _ _ h => by cases h
  | raise => exact fun _ _ h => by cases h
  | brk => exact fun _ _ h => by cases h
  | cont => exact fun _ _ h => by cases h
  | seq a b s r s₁ r₁ o s' r' _ _ ih1 ih2 =>
    intro hc hr ho
    simp only [Stmt.calmTry, Bool.and_eq_true] at hc
    exact ih2 hc.2 (ih1 hc.1 hr rfl) ho
  | seqJump a b s r o s' r' hn _ ih => exact fun _ _ h => absurd h hn
  | ite c a b s r o s' r' _ ih =>
    intro hc hr ho
    simp only [Stmt.calmTry, Bool.and_eq_true] at hc
    refine ih ?_ hr ho
    split
    · exact hc.1
    · exact hc.2
  | loopEnd => rintro _ _ rfl; rfl
  | loopNext f c body els s r r₀ o₁ s₁ r₁ o s' r' hcs _ _ hl hrun ih1 ih2 =>
    exact fun _ _ ho => loop_null hrun rfl ho
  | loopLeave => rintro _ _ rfl; rfl
  | tryCatch body catches h s r e s₁ r₁ o s' r' hb _ _ ih1 ih2 =>
    intro hc hr ho
    simp only [Stmt.calmTry, Bool.and_eq_true] at hc
    exact ih2 hc.2 ((calm_keeps hb hc.1.1 nofun).trans hr) ho
  | tryThrough body catches h s r o s' r' _ _ ih =>
    intro hc hr ho
    simp only [Stmt.calmTry, Bool.and_eq_true] at hc
    exact ih hc.1.2 hr ho
  | tryFin body fin s r o₁ s₁ r₁ o₂ s' r' _ _ ih1 ih2 =>
    intro hc hr ho
    simp only [Stmt.calmTry, Bool.and_eq_true] at hc
    have h2 : o₂ = .norm := by
      cases o₂ <;> first | rfl | cases ho
    subst h2
    rw [resume_norm] at ho
    exact ih2 hc.2 (ih1 hc.1 hr ho) rfl

end Nagini.Result
