import Verif.Model.Defined

/-! Helper lemmas for `Verif.Props.Defined`. -/
set_option linter.unusedVariables false
set_option linter.unusedSimpArgs false
namespace Nagini.Defined

open Names

variable {σ : Type}

/-- The assigned variables of an outcome. -/
def Out.vars : Out σ → List PyStr
  | .ok D _ => D
  | .exc D _ => D
  | .undef D _ => D

theorem wp_mono {δ : Nat → Prop} (b : VStmt σ) : ∀ {Q Q' E E' : σ → Prop} {s : σ},
    (∀ s, Q s → Q' s) → (∀ s, E s → E' s) → wp δ b Q E s → wp δ b Q' E' s := by
  induction b with
  | skip => intro Q Q' E E' s hq he h; exact hq _ h
  | act r =>
    intro Q Q' E E' s hq he h b s' hr
    have := h b s' hr
    cases b <;> simp at this ⊢
    · exact hq _ this
    · exact he _ this
  | inhale n => intro Q Q' E E' s hq he h hd; exact hq _ (h hd)
  | check n => intro Q Q' E E' s hq he h; exact ⟨h.1, hq _ h.2⟩
  | seq a b iha ihb => intro Q Q' E E' s hq he h; exact iha (fun _ => ihb hq he) he h
  | ite c a b iha ihb =>
    intro Q Q' E E' s hq he h
    simp only [wp] at h ⊢
    split
    · rename_i hc; rw [if_pos hc] at h; exact iha hq he h
    · rename_i hc; rw [if_neg hc] at h; exact ihb hq he h
  | whl c I b ih =>
    intro Q Q' E E' s hq he h
    refine ⟨h.1, fun s' hi => ?_⟩
    have := h.2 s' hi
    split
    · rename_i hc; rw [if_pos hc] at this; exact ih (fun _ h => h) he this
    · rename_i hc; rw [if_neg hc] at this; exact hq _ this
  | handle b h ihb ihh =>
    intro Q Q' E E' s hq he h
    exact ihb hq (fun _ => ihh hq he) h

theorem wp_inhales {δ : Nat → Prop} {Q E : σ → Prop} {s : σ} : ∀ {ns : List PyStr},
    (∀ n ∈ ns, δ (stringToInt n)) → wp δ (inhales ns) Q E s → Q s
  | [], _, h => h
  | n :: ns, hd, h => wp_inhales (fun m hm => hd m (.tail _ hm)) (h (hd n (.head _)))

/-- What an execution of code establishes, given the weakest precondition. -/
def Reached (Q E : σ → Prop) (U : Prop) : Out σ → Prop
  | .ok _ s => Q s
  | .exc _ s => E s
  | .undef _ _ => U

@[simp] theorem reached_ok {Q E : σ → Prop} {U D s} : Reached Q E U (.ok D s) = Q s := rfl
@[simp] theorem reached_exc {Q E : σ → Prop} {U D s} : Reached Q E U (.exc D s) = E s := rfl

/-- Executions of inlined code follow the weakest precondition. -/
theorem follow_inl {δ : Nat → Prop} {b : Stmt σ} {D s R} (hx : Exec b D s R) :
    ∀ {al : PyStr → PyStr} {Q E : σ → Prop}, (∀ e ∈ errs b, δ (stringToInt e)) →
      (∀ n ∈ pureNames b, δ (stringToInt n)) → wp δ (tr true al b) Q E s → Reached Q E True R := by
  induction hx with
  | skip => intro al Q E he hp h; exact h
  | act hr => intro al Q E he hp h; simpa using h _ _ hr
  | act_exc hr => intro al Q E he hp h; simpa using h _ _ hr
  | assign hr => intro al Q E he hp h; simpa using h _ _ hr
  | assign_exc hr => intro al Q E he hp h; simpa using h _ _ hr
  | use hm => intro al Q E he hp h; exact h
  | use_undef hm => intro al Q E he hp h; exact trivial
  | pure => intro al Q E he hp h; exact wp_inhales (Q := Q) (E := E) hp h
  | seq ha hb iha ihb =>
    intro al Q E he hp h
    exact ihb (fun e h => he e (List.mem_append_right _ h))
      (fun e h => hp e (List.mem_append_right _ h))
      (iha (fun e h => he e (List.mem_append_left _ h))
        (fun e h => hp e (List.mem_append_left _ h)) h)
  | seq_exc ha iha =>
    intro al Q E he hp h
    exact iha (fun e h => he e (List.mem_append_left _ h))
        (fun e h => hp e (List.mem_append_left _ h)) (Q := wp δ _ Q E) h
  | seq_undef ha iha => intro al Q E he hp h; exact trivial
  | @ite c a b D s R ha iha =>
    intro al Q E he hp h
    simp only [tr, wp] at h
    cases hc : c s
    · rw [hc] at iha h
      exact iha (fun e h => he e (List.mem_append_right _ h))
        (fun e h => hp e (List.mem_append_right _ h)) h
    · rw [hc] at iha h
      exact iha (fun e h => he e (List.mem_append_left _ h))
        (fun e h => hp e (List.mem_append_left _ h)) h
  | whl_end hc =>
    intro al Q E he hp h
    have := h.2 _ h.1
    rw [hc] at this
    exact this
  | whl hc ha hb iha ihb =>
    intro al Q E he hp h
    have h1 := h.2 _ h.1
    rw [if_pos hc] at h1
    exact ihb he hp ⟨iha he hp h1, h.2⟩
  | whl_exc hc ha iha =>
    intro al Q E he hp h
    have h1 := h.2 _ h.1
    rw [if_pos hc] at h1
    have h2 := iha he hp h1
    exact h2
  | whl_undef hc ha iha => intro al Q E he hp h; exact trivial
  | try_ok ha iha =>
    intro al Q E he hp h
    exact iha (fun e h => he e (.tail _ (List.mem_append_left _ h)))
        (fun e h => hp e (List.mem_append_left _ h)) (E := wp δ (.seq (.inhale _) _) Q E) h
  | try_undef ha iha => intro al Q E he hp h; exact trivial
  | handle_ok ha hb iha ihb =>
    intro al Q E he hp h
    have h1 := iha (fun e h => he e (.tail _ (List.mem_append_left _ h)))
        (fun e h => hp e (List.mem_append_left _ h)) (E := wp δ (.seq (.inhale _) _) Q E) h
    exact ihb (fun e h => he e (.tail _ (List.mem_append_right _ h)))
        (fun e h => hp e (List.mem_append_right _ h)) (h1 (he _ (.head _)))
  | handle_exc ha hb iha ihb =>
    intro al Q E he hp h
    have h1 := iha (fun e h => he e (.tail _ (List.mem_append_left _ h)))
        (fun e h => hp e (List.mem_append_left _ h)) (E := wp δ (.seq (.inhale _) _) Q E) h
    exact ihb (fun e h => he e (.tail _ (List.mem_append_right _ h)))
        (fun e h => hp e (List.mem_append_right _ h)) (h1 (he _ (.head _)))
  | handle_undef ha hb iha ihb => intro al Q E he hp h; exact trivial
  | inl ha iha => intro al Q E he hp h; exact iha he hp h
  | inl_exc ha iha => intro al Q E he hp h; exact iha he hp h
  | inl_undef ha iha => intro al Q E he hp h; exact trivial

/-- Variables stay assigned, except for the names of handlers that have ended. -/
theorem vars_mono {N : List PyStr} {b : Stmt σ} {D s R} (hx : Exec b D s R) :
    ∀ {B}, Scoped N B b → (∀ y ∈ D, y ∉ N → y ∈ R.vars) ∧ (∀ y ∈ B, y ∈ D → y ∈ R.vars) := by
  induction hx with
  | skip => intro B hs; exact ⟨fun y h _ => h, fun y _ h => h⟩
  | act hr => intro B hs; exact ⟨fun y h _ => h, fun y _ h => h⟩
  | act_exc hr => intro B hs; exact ⟨fun y h _ => h, fun y _ h => h⟩
  | assign hr => intro B hs; exact ⟨fun y h _ => .tail _ h, fun y _ h => .tail _ h⟩
  | assign_exc hr => intro B hs; exact ⟨fun y h _ => h, fun y _ h => h⟩
  | use hm => intro B hs; exact ⟨fun y h _ => h, fun y _ h => h⟩
  | use_undef hm => intro B hs; exact ⟨fun y h _ => h, fun y _ h => h⟩
  | pure => intro B hs; exact ⟨fun y h _ => h, fun y _ h => h⟩
  | seq ha hb iha ihb =>
    intro B hs
    have h1 := iha hs.1
    have h2 := ihb hs.2
    exact ⟨fun y h hn => h2.1 y (h1.1 y h hn) hn, fun y hb h => h2.2 y hb (h1.2 y hb h)⟩
  | seq_exc ha iha => intro B hs; exact iha hs.1
  | seq_undef ha iha => intro B hs; exact iha hs.1
  | @ite c a b D s R ha iha =>
    intro B hs
    refine iha ?_
    cases hc : c s
    · exact hs.2
    · exact hs.1
  | whl_end hc => intro B hs; exact ⟨fun y h _ => h, fun y _ h => h⟩
  | whl hc ha hb iha ihb =>
    intro B hs
    have h1 := iha (B := B) hs
    have h2 := ihb (B := B) hs
    exact ⟨fun y h hn => h2.1 y (h1.1 y h hn) hn, fun y hb h => h2.2 y hb (h1.2 y hb h)⟩
  | whl_exc hc ha iha => intro B hs; exact iha hs
  | whl_undef hc ha iha => intro B hs; exact iha hs
  | try_ok ha iha => intro B hs; exact iha hs.2.2.1
  | try_undef ha iha => intro B hs; exact iha hs.2.2.1
  | @handle_ok b x e h D s D₁ s₁ D' s' ha hb iha ihb =>
    intro B hs
    have h1 := iha hs.2.2.1
    have h2 := ihb hs.2.2.2
    constructor
    · intro y hy hn
      have := h2.1 y (.tail _ (h1.1 y hy hn)) hn
      exact List.mem_filter.2 ⟨this, by simp; intro h; exact hn (h ▸ hs.1)⟩
    · intro y hyb hy
      have := h2.2 y (.tail _ hyb) (.tail _ (h1.2 y hyb hy))
      exact List.mem_filter.2 ⟨this, by simp; intro h; exact hs.2.1 (h ▸ hyb)⟩
  | @handle_exc b x e h D s D₁ s₁ D' s' ha hb iha ihb =>
    intro B hs
    have h1 := iha hs.2.2.1
    have h2 := ihb hs.2.2.2
    constructor
    · intro y hy hn
      have := h2.1 y (.tail _ (h1.1 y hy hn)) hn
      exact List.mem_filter.2 ⟨this, by simp; intro h; exact hn (h ▸ hs.1)⟩
    · intro y hyb hy
      have := h2.2 y (.tail _ hyb) (.tail _ (h1.2 y hyb hy))
      exact List.mem_filter.2 ⟨this, by simp; intro h; exact hs.2.1 (h ▸ hyb)⟩
  | handle_undef ha hb iha ihb =>
    intro B hs
    have h1 := iha hs.2.2.1
    have h2 := ihb hs.2.2.2
    exact ⟨fun y hy hn => h2.1 y (.tail _ (h1.1 y hy hn)) hn,
      fun y hyb hy => h2.2 y (.tail _ hyb) (.tail _ (h1.2 y hyb hy))⟩
  | inl ha iha => intro B hs; exact ⟨fun y h _ => h, fun y _ h => h⟩
  | inl_exc ha iha => intro B hs; exact ⟨fun y h _ => h, fun y _ h => h⟩
  | inl_undef ha iha => intro B hs; exact absurd ha (hs _ _ _ trivial)

/-- The failing read of an execution concerns a variable that is not assigned at that point. -/
theorem undef_not_mem {N : List PyStr} {b : Stmt σ} {D s R} (hx : Exec b D s R) :
    ∀ {D' x}, R = .undef D' x → x ∉ D' := by
  induction hx <;> intro D' x hr <;> first | (cases hr; assumption) | cases hr | skip
  all_goals first | (rename_i ih; exact ih rfl) | (rename_i ih; exact ih hr)

/-- Executions of the code of a method follow the weakest precondition; at a read of an unassigned variable
`x` the weakest precondition says that the name of `x` is defined. -/
theorem follow {N : List PyStr} {sil : PyStr → PyStr} {δ : Nat → Prop} {b : Stmt σ} {D s R}
    (hx : Exec b D s R) :
    ∀ {B} {al : PyStr → PyStr} {Q E : σ → Prop}, Scoped N B b → (∀ y ∈ B, y ∈ D) →
      (∀ y, y ∉ N → al y = sil y) → (∀ e ∈ errs b, δ (stringToInt e)) →
      (∀ n ∈ pureNames b, δ (stringToInt n)) → (∀ y ∈ B, δ (stringToInt (al y))) →
      (∀ y ∈ R.vars, y ∉ N → δ (stringToInt (sil y))) →
      wp δ (tr false al b) Q E s →
      Reached Q E (∀ D' x, R = .undef D' x → x ∉ N ∧ δ (stringToInt (sil x))) R := by
  induction hx with
  | skip => intro B al Q E hs hB hal he hp hd hR h; exact h
  | act hr => intro B al Q E hs hB hal he hp hd hR h; simpa using h _ _ hr
  | act_exc hr => intro B al Q E hs hB hal he hp hd hR h; simpa using h _ _ hr
  | @assign x r D s s' hr =>
    intro B al Q E hs hB hal he hp hd hR h
    have h1 : wp δ (.inhale (al x)) Q E s' := by simpa using h _ _ hr
    refine h1 ?_
    by_cases hn : x ∈ N
    · exact hd x (hs hn)
    · rw [hal x hn]; exact hR x (.head _) hn
  | assign_exc hr => intro B al Q E hs hB hal he hp hd hR h; simpa using h _ _ hr
  | use hm => intro B al Q E hs hB hal he hp hd hR h; exact h.2
  | @use_undef x D s hm =>
    intro B al Q E hs hB hal he hp hd hR h D' x' hr
    cases hr
    have hn : x ∉ N := fun hn => hm (hB x (hs hn))
    exact ⟨hn, hal x hn ▸ h.1⟩
  | pure => intro B al Q E hs hB hal he hp hd hR h; exact wp_inhales (Q := Q) (E := E) hp h
  | seq ha hb iha ihb =>
    intro B al Q E hs hB hal he hp hd hR h
    have m1 := vars_mono ha hs.1
    have m2 := vars_mono hb hs.2
    refine ihb hs.2 (fun y hy => m1.2 y hy (hB y hy)) hal
      (fun e h => he e (List.mem_append_right _ h))
      (fun e h => hp e (List.mem_append_right _ h)) hd hR
      (iha hs.1 hB hal (fun e h => he e (List.mem_append_left _ h))
        (fun e h => hp e (List.mem_append_left _ h)) hd
        (fun y hy hn => hR y (m2.1 y hy hn) hn) h)
  | seq_exc ha iha =>
    intro B al Q E hs hB hal he hp hd hR h
    exact iha hs.1 hB hal (fun e h => he e (List.mem_append_left _ h))
        (fun e h => hp e (List.mem_append_left _ h)) hd hR (Q := wp δ _ Q E) h
  | seq_undef ha iha =>
    intro B al Q E hs hB hal he hp hd hR h
    exact iha hs.1 hB hal (fun e h => he e (List.mem_append_left _ h))
        (fun e h => hp e (List.mem_append_left _ h)) hd hR (Q := wp δ _ Q E) h
  | @ite c a b D s R ha iha =>
    intro B al Q E hs hB hal he hp hd hR h
    simp only [tr, wp] at h
    cases hc : c s
    · rw [hc] at iha h
      exact iha hs.2 hB hal (fun e h => he e (List.mem_append_right _ h))
        (fun e h => hp e (List.mem_append_right _ h)) hd hR h
    · rw [hc] at iha h
      exact iha hs.1 hB hal (fun e h => he e (List.mem_append_left _ h))
        (fun e h => hp e (List.mem_append_left _ h)) hd hR h
  | whl_end hc =>
    intro B al Q E hs hB hal he hp hd hR h
    have := h.2 _ h.1
    rw [hc] at this
    exact this
  | whl hc ha hb iha ihb =>
    intro B al Q E hs hB hal he hp hd hR h
    have m1 := vars_mono (N := N) (B := B) ha hs
    have m2 := vars_mono (N := N) (B := B) hb hs
    have h1 := h.2 _ h.1
    rw [if_pos hc] at h1
    exact ihb hs (fun y hy => m1.2 y hy (hB y hy)) hal he hp hd hR
      ⟨iha hs hB hal he hp hd (fun y hy hn => hR y (m2.1 y hy hn) hn) h1, h.2⟩
  | whl_exc hc ha iha =>
    intro B al Q E hs hB hal he hp hd hR h
    have h1 := h.2 _ h.1
    rw [if_pos hc] at h1
    have h2 := iha hs hB hal he hp hd hR h1
    exact h2
  | whl_undef hc ha iha =>
    intro B al Q E hs hB hal he hp hd hR h
    have h1 := h.2 _ h.1
    rw [if_pos hc] at h1
    have h2 := iha hs hB hal he hp hd hR h1
    exact h2
  | try_ok ha iha =>
    intro B al Q E hs hB hal he hp hd hR h
    exact iha hs.2.2.1 hB hal (fun e h => he e (.tail _ (List.mem_append_left _ h)))
        (fun e h => hp e (List.mem_append_left _ h)) hd hR (E := wp δ (.seq (.inhale _) _) Q E) h
  | try_undef ha iha =>
    intro B al Q E hs hB hal he hp hd hR h
    exact iha hs.2.2.1 hB hal (fun e h => he e (.tail _ (List.mem_append_left _ h)))
        (fun e h => hp e (List.mem_append_left _ h)) hd hR (E := wp δ (.seq (.inhale _) _) Q E) h
  | @handle_ok b x e hd₀ D s D₁ s₁ D' s' ha hb iha ihb =>
    intro B al Q E hs hB hal he hp hd hR h
    have m1 := vars_mono ha hs.2.2.1
    have m2 := vars_mono hb hs.2.2.2
    have hR' : ∀ y ∈ D', y ∉ N → δ (stringToInt (sil y)) := fun y hy hn =>
      hR y (List.mem_filter.2 ⟨hy, by simp; intro h; exact hn (h ▸ hs.1)⟩) hn
    have h1 := iha hs.2.2.1 hB hal (fun e h => he e (.tail _ (List.mem_append_left _ h)))
        (fun e h => hp e (List.mem_append_left _ h)) hd
        (fun y hy hn => hR' y (m2.1 y (.tail _ hy) hn) hn)
        (E := wp δ (.seq (.inhale e) (tr false (upd al x e) hd₀)) Q E) h
    refine ihb hs.2.2.2 ?_ ?_ (fun e h => he e (.tail _ (List.mem_append_right _ h)))
        (fun e h => hp e (List.mem_append_right _ h)) ?_ hR' (h1 (he _ (.head _)))
    · intro y hy
      rcases List.mem_cons.1 hy with rfl | hy
      · exact .head _
      · exact .tail _ (m1.2 y hy (hB y hy))
    · intro y hn
      rw [upd, if_neg (show ¬ y = x from fun h => hn (h ▸ hs.1))]; exact hal y hn
    · intro y hy
      rcases List.mem_cons.1 hy with rfl | hy
      · rw [upd, if_pos rfl]; exact he _ (.head _)
      · rw [upd, if_neg (show ¬ y = x from fun h => hs.2.1 (h ▸ hy))]; exact hd y hy
  | @handle_exc b x e hd₀ D s D₁ s₁ D' s' ha hb iha ihb =>
    intro B al Q E hs hB hal he hp hd hR h
    have m1 := vars_mono ha hs.2.2.1
    have m2 := vars_mono hb hs.2.2.2
    have hR' : ∀ y ∈ D', y ∉ N → δ (stringToInt (sil y)) := fun y hy hn =>
      hR y (List.mem_filter.2 ⟨hy, by simp; intro h; exact hn (h ▸ hs.1)⟩) hn
    have h1 := iha hs.2.2.1 hB hal (fun e h => he e (.tail _ (List.mem_append_left _ h)))
        (fun e h => hp e (List.mem_append_left _ h)) hd
        (fun y hy hn => hR' y (m2.1 y (.tail _ hy) hn) hn)
        (E := wp δ (.seq (.inhale e) (tr false (upd al x e) hd₀)) Q E) h
    refine ihb hs.2.2.2 ?_ ?_ (fun e h => he e (.tail _ (List.mem_append_right _ h)))
        (fun e h => hp e (List.mem_append_right _ h)) ?_ hR' (h1 (he _ (.head _)))
    · intro y hy
      rcases List.mem_cons.1 hy with rfl | hy
      · exact .head _
      · exact .tail _ (m1.2 y hy (hB y hy))
    · intro y hn
      rw [upd, if_neg (show ¬ y = x from fun h => hn (h ▸ hs.1))]; exact hal y hn
    · intro y hy
      rcases List.mem_cons.1 hy with rfl | hy
      · rw [upd, if_pos rfl]; exact he _ (.head _)
      · rw [upd, if_neg (show ¬ y = x from fun h => hs.2.1 (h ▸ hy))]; exact hd y hy
  | @handle_undef b x e hd₀ D s D₁ s₁ D' s' ha hb iha ihb =>
    intro B al Q E hs hB hal he hp hd hR h
    have m1 := vars_mono ha hs.2.2.1
    have m2 := vars_mono hb hs.2.2.2
    have hR' : ∀ y ∈ D', y ∉ N → δ (stringToInt (sil y)) := fun y hy hn => hR y hy hn
    have h1 := iha hs.2.2.1 hB hal (fun e h => he e (.tail _ (List.mem_append_left _ h)))
        (fun e h => hp e (List.mem_append_left _ h)) hd
        (fun y hy hn => hR' y (m2.1 y (.tail _ hy) hn) hn)
        (E := wp δ (.seq (.inhale e) (tr false (upd al x e) hd₀)) Q E) h
    refine ihb hs.2.2.2 ?_ ?_ (fun e h => he e (.tail _ (List.mem_append_right _ h)))
        (fun e h => hp e (List.mem_append_right _ h)) ?_ hR' (h1 (he _ (.head _)))
    · intro y hy
      rcases List.mem_cons.1 hy with rfl | hy
      · exact .head _
      · exact .tail _ (m1.2 y hy (hB y hy))
    · intro y hn
      rw [upd, if_neg (show ¬ y = x from fun h => hn (h ▸ hs.1))]; exact hal y hn
    · intro y hy
      rcases List.mem_cons.1 hy with rfl | hy
      · rw [upd, if_pos rfl]; exact he _ (.head _)
      · rw [upd, if_neg (show ¬ y = x from fun h => hs.2.1 (h ▸ hy))]; exact hd y hy
  | inl ha iha =>
    intro B al Q E hs hB hal he hp hd hR h
    exact follow_inl ha he hp h
  | inl_exc ha iha =>
    intro B al Q E hs hB hal he hp hd hR h
    exact follow_inl ha he hp h
  | inl_undef ha iha =>
    intro B al Q E hs hB hal he hp hd hR h
    exact absurd ha (hs _ _ _ trivial)

/-- Without local variables, inlined code is the same. -/
theorem tr_noUses_inl (al : PyStr → PyStr) (b : Stmt σ) : tr true al (noUses b) = tr true al b := by
  induction b generalizing al with
  | seq a b iha ihb => simp only [noUses, tr, iha, ihb]
  | ite c a b iha ihb => simp only [noUses, tr, iha, ihb]
  | whl c I b ih => simp only [noUses, tr, ih]
  | tryx b x e h ihb ihh => simp only [noUses, tr, ihb, ihh]
  | inl b ih => simp only [noUses, tr, ih]
  | use x => simp [noUses, tr]
  | _ => rfl

/-- Variables assigned on all paths pass the checks. -/
theorem accept {δ : Nat → Prop} (b : Stmt σ) : ∀ {al : PyStr → PyStr} {D D' : List PyStr}
    {Q E : σ → Prop} {s : σ}, da D b = some D' → (∀ y ∈ D, δ (stringToInt (al y))) →
    wp δ (tr false al (noUses b)) Q E s →
    wp δ (tr false al b) (fun s => Q s ∧ ∀ y ∈ D', δ (stringToInt (al y))) E s := by
  induction b with
  | skip => intro al D D' Q E s hda hD h; cases hda; exact ⟨h, hD⟩
  | act r =>
    intro al D D' Q E s hda hD h b s' hr
    cases hda
    have := h b s' hr
    cases b <;> simp at this ⊢
    · exact ⟨this, hD⟩
    · exact this
  | assign x r =>
    intro al D D' Q E s hda hD h b s' hr
    cases hda
    have := h b s' hr
    cases b <;> simp at this ⊢
    · intro hx
      exact ⟨this hx, hx, hD⟩
    · exact this
  | use x =>
    intro al D D' Q E s hda hD h
    simp only [da] at hda
    split at hda
    · rename_i hx
      cases hda
      exact ⟨hD x hx, h, hD⟩
    · cases hda
  | pure ns =>
    intro al D D' Q E s hda hD h
    cases hda
    exact wp_mono _ (fun s hs => ⟨hs, hD⟩) (fun _ h => h) h
  | seq a b iha ihb =>
    intro al D D' Q E s hda hD h
    obtain ⟨D₁, h1, h2⟩ := Option.bind_eq_some_iff.1 hda
    exact wp_mono (tr false al a) (fun s hs => ihb h2 hs.2 hs.1) (fun _ h => h) (iha h1 hD h)
  | ite c a b iha ihb =>
    intro al D D' Q E s hda hD h
    obtain ⟨D₁, h1, h2⟩ := Option.bind_eq_some_iff.1 hda
    obtain ⟨D₂, h3, rfl⟩ := Option.map_eq_some_iff.1 h2
    simp only [noUses, tr, wp] at h ⊢
    split
    · rename_i hc
      rw [if_pos hc] at h
      exact wp_mono _ (fun s hs => ⟨hs.1, fun y hy => hs.2 y (List.mem_filter.1 hy).1⟩)
        (fun _ h => h) (iha h1 hD h)
    · rename_i hc
      rw [if_neg hc] at h
      exact wp_mono _ (fun s hs => ⟨hs.1, fun y hy => hs.2 y (by simpa using (List.mem_filter.1 hy).2)⟩)
        (fun _ h => h) (ihb h3 hD h)
  | whl c I b ih =>
    intro al D D' Q E s hda hD h
    obtain ⟨D₁, h1, rfl⟩ := Option.map_eq_some_iff.1 hda
    refine ⟨h.1, fun s' hi => ?_⟩
    have := h.2 s' hi
    split
    · rename_i hc
      rw [if_pos hc] at this
      exact wp_mono _ (fun s hs => hs.1) (fun _ h => h) (ih h1 (fun y hy => hD y (List.mem_filter.1 hy).1) this)
    · rename_i hc
      rw [if_neg hc] at this
      exact ⟨this, fun y hy => hD y (List.mem_filter.1 hy).1⟩
  | tryx b x e h ihb ihh =>
    intro al D D' Q E s hda hD hw
    obtain ⟨D₁, h1, h2⟩ := Option.bind_eq_some_iff.1 hda
    obtain ⟨D₂, h3, rfl⟩ := Option.map_eq_some_iff.1 h2
    refine wp_mono (tr false al b) (fun s hs => ⟨hs.1, fun y hy => hs.2 y
      (List.mem_filter.1 (List.mem_filter.1 hy).1).1⟩) (fun s hs => ?_)
      (ihb (E := wp δ (.seq (.inhale e) (tr false (upd al x e) (noUses h))) Q E) h1 hD hw)
    · intro hde
      refine wp_mono (tr false (upd al x e) h) (fun s hs => ⟨hs.1, fun y hy => ?_⟩) (fun _ h => h)
        (ihh (al := upd al x e) h3 ?_ (hs hde))
      · have hf := List.mem_filter.1 hy
        have hne : y ≠ x := by simpa using hf.2
        have := hs.2 y (by simpa using (List.mem_filter.1 hf.1).2)
        rwa [upd, if_neg hne] at this
      · intro y hy
        by_cases hyx : y = x
        · rw [upd, if_pos hyx]; exact hde
        · rw [upd, if_neg hyx]
          rcases List.mem_cons.1 hy with rfl | hy
          · exact absurd rfl hyx
          · exact hD y (List.mem_filter.1 hy).1
  | inl b ih =>
    intro al D D' Q E s hda hD h
    obtain ⟨D₁, h1, rfl⟩ := Option.map_eq_some_iff.1 hda
    simp only [noUses, tr, tr_noUses_inl] at h ⊢
    exact wp_mono _ (fun s hs => ⟨hs, hD⟩) (fun _ h => h) h

/-- Only the names that occur in the code are assigned or read. -/
theorem vars_names {N L : List PyStr} {b : Stmt σ} {D s R} (hx : Exec b D s R) :
    ∀ {B}, Scoped N B b → (∀ y ∈ D, y ∈ L) → (∀ y ∈ names b, y ∈ L) →
      (∀ y ∈ R.vars, y ∈ L) ∧ ∀ D' x, R = .undef D' x → x ∈ L := by
  induction hx with
  | skip => intro B hs hD hL; exact ⟨hD, by simp⟩
  | act hr => intro B hs hD hL; exact ⟨hD, by simp⟩
  | act_exc hr => intro B hs hD hL; exact ⟨hD, by simp⟩
  | assign hr =>
    intro B hs hD hL
    refine ⟨fun y hy => ?_, by simp⟩
    rcases List.mem_cons.1 hy with rfl | hy
    · exact hL _ (.head _)
    · exact hD y hy
  | assign_exc hr => intro B hs hD hL; exact ⟨hD, by simp⟩
  | use hm => intro B hs hD hL; exact ⟨hD, by simp⟩
  | use_undef hm =>
    intro B hs hD hL
    exact ⟨hD, fun D' x h => by cases h; exact hL _ (.head _)⟩
  | pure => intro B hs hD hL; exact ⟨hD, by simp⟩
  | seq ha hb iha ihb =>
    intro B hs hD hL
    have h1 := iha hs.1 hD (fun y hy => hL y (List.mem_append_left _ hy))
    exact ihb hs.2 h1.1 (fun y hy => hL y (List.mem_append_right _ hy))
  | seq_exc ha iha =>
    intro B hs hD hL; exact iha hs.1 hD (fun y hy => hL y (List.mem_append_left _ hy))
  | seq_undef ha iha =>
    intro B hs hD hL; exact iha hs.1 hD (fun y hy => hL y (List.mem_append_left _ hy))
  | @ite c a b D s R ha iha =>
    intro B hs hD hL
    refine iha (B := B) ?_ hD ?_
    · cases hc : c s
      · exact hs.2
      · exact hs.1
    · cases hc : c s
      · exact fun y hy => hL y (List.mem_append_right _ hy)
      · exact fun y hy => hL y (List.mem_append_left _ hy)
  | whl_end hc => intro B hs hD hL; exact ⟨hD, by simp⟩
  | whl hc ha hb iha ihb =>
    intro B hs hD hL
    exact ihb (B := B) hs (iha (B := B) hs hD hL).1 hL
  | whl_exc hc ha iha => intro B hs hD hL; exact iha (B := B) hs hD hL
  | whl_undef hc ha iha => intro B hs hD hL; exact iha (B := B) hs hD hL
  | try_ok ha iha =>
    intro B hs hD hL
    exact iha hs.2.2.1 hD (fun y hy => hL y (.tail _ (List.mem_append_left _ hy)))
  | try_undef ha iha =>
    intro B hs hD hL
    exact iha hs.2.2.1 hD (fun y hy => hL y (.tail _ (List.mem_append_left _ hy)))
  | handle_ok ha hb iha ihb =>
    intro B hs hD hL
    have h1 := iha hs.2.2.1 hD (fun y hy => hL y (.tail _ (List.mem_append_left _ hy)))
    have h2 := ihb hs.2.2.2 (fun y hy => by
      rcases List.mem_cons.1 hy with rfl | hy
      · exact hL _ (.head _)
      · exact h1.1 y hy) (fun y hy => hL y (.tail _ (List.mem_append_right _ hy)))
    exact ⟨fun y hy => h2.1 y (List.mem_filter.1 hy).1, by simp⟩
  | handle_exc ha hb iha ihb =>
    intro B hs hD hL
    have h1 := iha hs.2.2.1 hD (fun y hy => hL y (.tail _ (List.mem_append_left _ hy)))
    have h2 := ihb hs.2.2.2 (fun y hy => by
      rcases List.mem_cons.1 hy with rfl | hy
      · exact hL _ (.head _)
      · exact h1.1 y hy) (fun y hy => hL y (.tail _ (List.mem_append_right _ hy)))
    exact ⟨fun y hy => h2.1 y (List.mem_filter.1 hy).1, by simp⟩
  | handle_undef ha hb iha ihb =>
    intro B hs hD hL
    have h1 := iha hs.2.2.1 hD (fun y hy => hL y (.tail _ (List.mem_append_left _ hy)))
    exact ihb hs.2.2.2 (fun y hy => by
      rcases List.mem_cons.1 hy with rfl | hy
      · exact hL _ (.head _)
      · exact h1.1 y hy) (fun y hy => hL y (.tail _ (List.mem_append_right _ hy)))
  | inl ha iha => intro B hs hD hL; exact ⟨hD, by simp⟩
  | inl_exc ha iha => intro B hs hD hL; exact ⟨hD, by simp⟩
  | inl_undef ha iha => intro B hs hD hL; exact absurd ha (hs _ _ _ trivial)

/-- Variables of `D` other than names of handlers remain assigned. -/
def Kept (b : Stmt σ) (D : List PyStr) : Out σ → Prop
  | .ok D₁ _ => ∀ y ∈ D, y ∉ handlerNames b → y ∈ D₁
  | .exc D₁ _ => ∀ y ∈ D, y ∉ handlerNames b → y ∈ D₁
  | .undef _ _ => True

theorem kept {b : Stmt σ} {D s R} (hx : Exec b D s R) : Kept b D R := by
  induction hx with
  | @seq a b D s D' s' R ha hb iha ihb =>
    cases R <;> simp only [Kept, handlerNames, List.mem_append] at * <;> grind
  | @ite c a b D s R ha iha =>
    cases hc : c s <;> rw [hc] at iha <;>
      cases R <;> simp only [Kept, handlerNames, List.mem_append] at * <;> grind
  | @whl c I b D s D' s' R hc ha hb iha ihb =>
    cases R <;> simp only [Kept, handlerNames] at * <;> grind
  | _ => simp only [Kept, handlerNames, List.mem_append, List.mem_cons, List.mem_filter] at * <;> grind

theorem mem_survive {b : Stmt σ} {D : List PyStr} {y : PyStr} :
    y ∈ survive b D ↔ y ∈ D ∧ y ∉ handlerNames b := by simp [survive]

/-- What `da` promises about the outcome of an execution. -/
def DaPost (D' : List PyStr) : Out σ → Prop
  | .ok D₁ _ => ∀ y ∈ D', y ∈ D₁
  | .exc _ _ => True
  | .undef _ _ => False

theorem da_sound {b : Stmt σ} {D₀ s R} (hx : Exec b D₀ s R) : ∀ {D D'}, (∀ y ∈ D, y ∈ D₀) →
    da D b = some D' → DaPost D' R := by
  induction hx with
  | skip => intro D D' hD h; cases h; exact hD
  | act hr => intro D D' hD h; cases h; exact hD
  | act_exc hr => intro D D' hD h; trivial
  | @assign x r D₀ s s' hr =>
    intro D D' hD h; cases h
    intro y hy
    rcases List.mem_cons.1 hy with rfl | hy
    · exact .head _
    · exact .tail _ (hD y hy)
  | assign_exc hr => intro D D' hD h; trivial
  | use hm =>
    intro D D' hD h
    simp only [da] at h
    split at h
    · cases h; exact hD
    · cases h
  | use_undef hm =>
    intro D D' hD h
    simp only [da] at h
    split at h
    · rename_i hx; exact hm (hD _ hx)
    · cases h
  | pure => intro D D' hD h; cases h; exact hD
  | seq ha hb iha ihb =>
    intro D D' hD h
    obtain ⟨D₂, h1, h2⟩ := Option.bind_eq_some_iff.1 h
    exact ihb (iha hD h1) h2
  | seq_exc ha iha => intro D D' hD h; trivial
  | seq_undef ha iha =>
    intro D D' hD h
    obtain ⟨D₂, h1, h2⟩ := Option.bind_eq_some_iff.1 h
    exact (show False from iha hD h1)
  | @ite c a b D₀ s R ha iha =>
    intro D D' hD h
    obtain ⟨D₁, h1, h2⟩ := Option.bind_eq_some_iff.1 h
    obtain ⟨D₂, h3, rfl⟩ := Option.map_eq_some_iff.1 h2
    cases hc : c s
    · rw [hc] at iha
      have := iha hD h3
      cases R <;> simp only [DaPost] at * <;> grind
    · rw [hc] at iha
      have := iha hD h1
      cases R <;> simp only [DaPost] at * <;> grind
  | whl_end hc =>
    intro D D' hD h
    obtain ⟨D₁, h1, rfl⟩ := Option.map_eq_some_iff.1 h
    exact fun y hy => hD y (mem_survive.1 hy).1
  | @whl c I b D₀ s D₁ s' R hc ha hb iha ihb =>
    intro D D' hD h
    obtain ⟨D₂, h1, rfl⟩ := Option.map_eq_some_iff.1 h
    have k := kept ha
    have e : survive b (survive b D) = survive b D := by simp [survive]
    refine ihb (D := survive b D) (fun y hy => ?_) ?_
    · exact k y (hD y (mem_survive.1 hy).1) (mem_survive.1 hy).2
    · simp only [da]
      rw [e, h1]; rfl
  | whl_exc hc ha iha => intro D D' hD h; trivial
  | whl_undef hc ha iha =>
    intro D D' hD h
    obtain ⟨D₁, h1, rfl⟩ := Option.map_eq_some_iff.1 h
    exact (show False from iha (fun y hy => hD y (mem_survive.1 hy).1) h1)
  | try_ok ha iha =>
    intro D D' hD h
    obtain ⟨D₁, h1, h2⟩ := Option.bind_eq_some_iff.1 h
    obtain ⟨D₂, h3, rfl⟩ := Option.map_eq_some_iff.1 h2
    exact fun y hy => iha hD h1 y (List.mem_filter.1 (List.mem_filter.1 hy).1).1
  | try_undef ha iha =>
    intro D D' hD h
    obtain ⟨D₁, h1, h2⟩ := Option.bind_eq_some_iff.1 h
    exact (show False from iha hD h1)
  | handle_ok ha hb iha ihb =>
    intro D D' hD h
    obtain ⟨D₁, h1, h2⟩ := Option.bind_eq_some_iff.1 h
    obtain ⟨D₂, h3, rfl⟩ := Option.map_eq_some_iff.1 h2
    have k := kept ha
    have := ihb (fun y hy => by
      rcases List.mem_cons.1 hy with rfl | hy
      · exact .head _
      · exact .tail _ (k y (hD y (mem_survive.1 hy).1) (mem_survive.1 hy).2)) h3
    simp only [DaPost] at *
    grind
  | handle_exc ha hb iha ihb => intro D D' hD h; trivial
  | handle_undef ha hb iha ihb =>
    intro D D' hD h
    obtain ⟨D₁, h1, h2⟩ := Option.bind_eq_some_iff.1 h
    obtain ⟨D₂, h3, rfl⟩ := Option.map_eq_some_iff.1 h2
    have k := kept ha
    have := ihb (fun y hy => by
      rcases List.mem_cons.1 hy with rfl | hy
      · exact .head _
      · exact .tail _ (k y (hD y (mem_survive.1 hy).1) (mem_survive.1 hy).2)) h3
    exact (show False from this)
  | inl ha iha =>
    intro D D' hD h
    obtain ⟨D₁, h1, rfl⟩ := Option.map_eq_some_iff.1 h
    exact hD
  | inl_exc ha iha => intro D D' hD h; trivial
  | inl_undef ha iha =>
    intro D D' hD h
    obtain ⟨D₁, h1, rfl⟩ := Option.map_eq_some_iff.1 h
    exact (show False from iha (D := []) (by simp) h1)

end Nagini.Defined
