import Verif.Lemmas.Decreases

/-!
C113: what is assumed about pure functions is consistent, and their evaluation terminates.
-/
set_option linter.unusedVariables false
namespace Nagini.Decreases

variable {A V : Type}

/-- **C113** (full claim): if the translated functions verify, and nothing is taken on trust, there are
values for them that satisfy all assumptions, and Python computes these values. -/
def C113 : Prop :=
  ∀ (A V : Type) [Inhabited V] (fs : List (Fun A V)) (nested : Nat → Nat → Prop), WellFounded nested →
    NoTrust fs → Verified (fs.map translateFunction) nested →
    ∃ I, Solves (fs.map translateFunction) I ∧
      ∀ (f : Nat) pf t a, fs[f]? = some pf → pf.Defined t → pf.pre a → Run fs I (t a) (I f a)

/-- **C113** (partial: every implemented function has a `Decreases` clause that applies wherever the
function may be called). -/
theorem C113_partial [Inhabited V] (fs : List (Fun A V)) (nested : Nat → Nat → Prop)
    (hn : WellFounded nested) (ht : NoTrust fs) (hv : Verified (fs.map translateFunction) nested)
    (ha : Annotated fs) :
    ∃ I, Solves (fs.map translateFunction) I ∧
      ∀ (f : Nat) pf t a, fs[f]? = some pf → pf.Defined t → pf.pre a → Run fs I (t a) (I f a) :=
  have hc := covered_of_annotated ht ha
  have hs := solution_solves hn hv hc
  ⟨_, hs, fun f pf t a hf hd hp => run_of_solves hn hv hc hs (f, a) pf t hf hd hp⟩

/-- **C113** (partial, as `C113_partial`): the values are determined by those of the functions without
implementation. -/
theorem C113_unique_partial (fs : List (Fun A V)) (nested : Nat → Nat → Prop)
    (hn : WellFounded nested) (ht : NoTrust fs) (hv : Verified (fs.map translateFunction) nested)
    (ha : Annotated fs) (I J : Nat → A → V) (hI : Solves (fs.map translateFunction) I)
    (hJ : Solves (fs.map translateFunction) J)
    (hIJ : ∀ (f : Nat) pf a, fs[f]? = some pf → pf.Abstract → pf.pre a → I f a = J f a) :
    ∀ (f : Nat) pf a, fs[f]? = some pf → pf.pre a → I f a = J f a := by
  intro f pf a hf hp
  refine solution_unique hn hv (covered_of_annotated ht ha) hI hJ ?_ f (translateFunction pf) a
    (by rw [List.getElem?_map, hf]; rfl) hp
  intro g vg b hg hb hpb
  obtain ⟨pg, hpg, rfl⟩ := translate_get hg
  exact hIJ g pg b hpg (body_none.1 hb) hpb

theorem empty_wf : WellFounded (fun _ _ : Nat => False) := ⟨fun _ => ⟨_, fun _ h => h.elim⟩⟩

/-- `def f(a: int) -> int: return f(a) + 1`, without `Decreases`. -/
def grow : Fun Int Int :=
  ⟨fun _ => True, fun _ _ => True, [], false, .stmts fun a => .call 0 a fun v => .ret (v + 1)⟩

/-- **C113 fails**: a function without `Decreases` clause may have no value at all. -/
theorem C113_fails : ¬ C113 := by
  intro h
  obtain ⟨I, hI, -⟩ := h Int Int [grow] (fun _ _ => False) empty_wf
    (by
      intro f hf
      rw [List.mem_singleton.1 hf]
      exact ⟨nofun, fun _ _ _ => ⟨0, trivial⟩⟩)
    (by
      intro f vf hf
      obtain ⟨pf, hpf, rfl⟩ := translate_get hf
      have := List.mem_singleton.1 (List.mem_of_getElem? hpf)
      subst this
      refine ⟨⟨nofun, nofun⟩, fun t a ht _ => ?_⟩
      obtain ⟨-, h⟩ := body_some.1 ht
      cases h
      exact .call (vg := translateFunction grow) rfl trivial
        (by rintro m ⟨e, c, hm, -⟩; cases hm) fun v _ => .ret trivial)
  have := (hI 0 (translateFunction grow) 5 rfl trivial).1 _ rfl
  simp only [value] at this
  omega

/-- As `grow` for negative numbers, the factorial for others; `Decreases(a, a >= 0)`. -/
def growBelow : Fun Int Int :=
  ⟨fun _ => True, fun _ _ => True, [⟨.int fun a => a, some fun a => 0 ≤ a⟩], false, .stmts fun a =>
    if a < 0 then .call 0 a fun v => .ret (v + 1)
    else if a ≤ 1 then .ret 1 else .call 0 (a - 1) fun v => .ret (a * v)⟩

/-- **C113 fails** for conditions of clauses: where the condition does not hold, nothing is checked. -/
theorem C113_fails_condition : ¬ C113 := by
  intro h
  obtain ⟨I, hI, -⟩ := h Int Int [growBelow] (fun _ _ => False) empty_wf
    (by
      intro f hf
      rw [List.mem_singleton.1 hf]
      refine ⟨?_, fun _ _ _ => ⟨0, trivial⟩⟩
      intro c hc
      rw [List.mem_singleton.1 hc]
      exact nofun)
    (by
      intro f vf hf
      obtain ⟨pf, hpf, rfl⟩ := translate_get hf
      have := List.mem_singleton.1 (List.mem_of_getElem? hpf)
      subst this
      refine ⟨⟨?_, ?_⟩, fun t a ht _ => ?_⟩
      · intro e c e' c' h1 h2
        have h1 := List.mem_singleton.1 h1
        have h2 := List.mem_singleton.1 h2
        cases h1
        cases h2
        exact ⟨rfl, rfl⟩
      · intro c c' h1 _
        have h1 := List.mem_singleton.1 h1
        cases h1
      obtain ⟨-, h⟩ := body_some.1 ht
      cases h
      have htup : ∀ b : Int, 0 ≤ b → TupleAt (translateFunction growBelow) b (.int b) := fun b hb =>
        ⟨_, _, List.mem_singleton.2 rfl, fun p hp => by cases hp; exact hb, rfl⟩
      by_cases h1 : a < 0
      · simp only [h1, if_true]
        refine .call (vg := translateFunction growBelow) rfl trivial ?_ fun v _ => .ret trivial
        rintro m ⟨e, c, hm, hh, -⟩
        have hm := List.mem_singleton.1 hm
        cases hm
        have := hh _ rfl
        omega
      · by_cases h2 : a ≤ 1
        · simp only [h1, h2, if_false, if_true]
          exact .ret trivial
        · simp only [h1, h2, if_false]
          refine .call (vg := translateFunction growBelow) rfl trivial ?_ fun v _ => .ret trivial
          rintro m ⟨e, c, hm, hh, rfl⟩
          have hm := List.mem_singleton.1 hm
          cases hm
          refine .inr ⟨_, htup (a - 1) (by omega), fun _ => .int (by simp only; omega) (by simp only; omega)⟩)
  have := (hI 0 (translateFunction growBelow) (-5) rfl trivial).1 _ rfl
  simp only [value, Int.reduceNeg, Int.reduceLT, if_true] at this
  omega

/-- `Decreases(None)` (C113 assumes that there is none): the function is taken to terminate. -/
theorem C113_needs_trust : ∃ f : Fun Int Int, Annotated [f] ∧
    Verified ([f].map translateFunction) (fun _ _ => False) ∧
    ¬ ∃ I, Solves ([f].map translateFunction) I := by
  refine ⟨⟨fun _ => True, fun _ _ => True, [⟨.constNone, none⟩], false,
    .stmts fun a => .call 0 a fun v => .ret (v + 1)⟩, ?_, ?_, ?_⟩
  · intro f hf t a _ _
    rw [List.mem_singleton.1 hf]
    exact ⟨_, List.mem_singleton.2 rfl, nofun⟩
  · intro f vf hf
    obtain ⟨pf, hpf, rfl⟩ := translate_get hf
    have hp := List.mem_singleton.1 (List.mem_of_getElem? hpf)
    subst hp
    refine ⟨⟨?_, ?_⟩, fun t a ht _ => ?_⟩
    · intro e c e' c' h1 _
      have h1 := List.mem_singleton.1 h1
      cases h1
    · intro c c' h1 h2
      have h1 := List.mem_singleton.1 h1
      have h2 := List.mem_singleton.1 h2
      cases h1
      cases h2
      rfl
    · obtain ⟨-, h⟩ := body_some.1 ht
      cases h
      refine .call rfl trivial ?_ fun v _ => .ret trivial
      rintro m ⟨e, c, hm, -⟩
      have hm := List.mem_singleton.1 hm
      cases hm
  · rintro ⟨I, hI⟩
    have := (hI 0 _ 5 rfl trivial).1 _ rfl
    simp only [value] at this
    omega

/-- The factorial, `Decreases(a)`, with positive values. -/
def fac : Fun Int Int :=
  ⟨fun _ => True, fun _ v => 0 < v, [⟨.int fun a => a, none⟩], false, .stmts fun a =>
    if a ≤ 1 then .ret 1 else .call 0 (a - 1) fun v => .ret (a * v)⟩

/-- Not vacuous: the hypotheses of `C113_partial` hold for the factorial. -/
example : NoTrust [fac] ∧ Annotated [fac] ∧ Verified ([fac].map translateFunction) (fun _ _ => False) := by
  refine ⟨?_, ?_, ?_⟩
  · intro f hf
    rw [List.mem_singleton.1 hf]
    refine ⟨?_, fun _ _ _ => ⟨1, by simp [fac]⟩⟩
    intro c hc
    rw [List.mem_singleton.1 hc]
    exact nofun
  · intro f hf t a _ _
    rw [List.mem_singleton.1 hf]
    exact ⟨_, List.mem_singleton.2 rfl, nofun⟩
  · intro f vf hf
    obtain ⟨pf, hpf, rfl⟩ := translate_get hf
    have := List.mem_singleton.1 (List.mem_of_getElem? hpf)
    subst this
    refine ⟨⟨?_, ?_⟩, fun t a ht _ => ?_⟩
    · intro e c e' c' h1 h2
      have h1 := List.mem_singleton.1 h1
      have h2 := List.mem_singleton.1 h2
      cases h1
      cases h2
      exact ⟨rfl, rfl⟩
    · intro c c' h1 _
      have h1 := List.mem_singleton.1 h1
      cases h1
    obtain ⟨-, h⟩ := body_some.1 ht
    cases h
    by_cases h2 : a ≤ 1
    · simp only [h2, if_true]
      exact .ret (show (0 : Int) < 1 by decide)
    · simp only [h2, if_false]
      refine .call (vg := translateFunction fac) rfl trivial ?_ fun v hv => .ret ?_
      · rintro m ⟨e, c, hm, hh, rfl⟩
        have hm := List.mem_singleton.1 hm
        cases hm
        exact .inr ⟨_, ⟨_, _, List.mem_singleton.2 rfl, nofun, rfl⟩, fun _ => .int (by simp only; omega) (by simp only; omega)⟩
      · exact Int.mul_pos (by omega) hv

/-- Not vacuous: the factorial of 3 is computed. -/
example : Run [fac] (fun _ _ => 0) (.call 0 3 .ret) 6 := by
  have h1 : Run [fac] (fun _ _ => 0) (Tree.ret (1 : Int) : Tree Int Int) 1 := .ret 1
  refine .call rfl ⟨rfl, rfl⟩ (v := 6) ?_ (.ret 6)
  refine .call rfl ⟨rfl, rfl⟩ (v := 2) ?_ (.ret 6)
  exact .call rfl ⟨rfl, rfl⟩ (v := 1) h1 (.ret 2)

end Nagini.Decreases
