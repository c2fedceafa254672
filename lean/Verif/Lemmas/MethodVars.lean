import Verif.Model.MethodVars

/-! Lemmas about type variables of methods (C128 to C130). -/
namespace Nagini.MethodVars

theorem denL_map (D : Dom) (σ) : ∀ as, denL D σ as = as.map (den D σ)
  | [] => rfl
  | a :: r => by rw [denL, denL_map D σ r]; rfl

theorem den_app (D : Dom) (σ c as) : den D σ (.app c as) = D.app c (as.map (den D σ)) := by rw [den, denL_map]

mutual
theorem defOf_spec (v : Nat) : ∀ t, (∀ l, defOf v t = some l → First v t l.reverse) ∧ (defOf v t = none → ¬ Occurs v t)
  | .var w => by
    by_cases h : w = v
    · subst h
      refine ⟨?_, by simp [defOf]⟩
      intro l hl
      simp [defOf] at hl; subst hl; exact .root
    · refine ⟨by simp [defOf, h], ?_⟩
      rintro _ ⟨p, hp⟩
      cases hp
      exact h rfl
  | .app c as => by
    have := defArgs_spec v c as [] 0 rfl (by simp)
    refine ⟨fun l hl => ?_, fun hn => ?_⟩
    · exact this.1 l hl
    · rintro ⟨p, hp⟩
      cases hp with
      | @arg _ _ p _ i a ha hp => exact this.2 hn a (by simpa using List.mem_of_getElem? ha) ⟨p, hp⟩
theorem defArgs_spec (v c : Nat) : ∀ (as pre : List Ty) (i : Nat), pre.length = i → (∀ a ∈ pre, ¬ Occurs v a) →
    (∀ l, defArgs v c i as = some l → First v (.app c (pre ++ as)) l.reverse) ∧
    (defArgs v c i as = none → ∀ a ∈ pre ++ as, ¬ Occurs v a)
  | [], pre, i, hi, hpre => by
    refine ⟨by simp [defArgs], ?_⟩
    intro _ a ha
    exact hpre a (by simpa using ha)
  | a :: r, pre, i, hi, hpre => by
    have ha := defOf_spec v a
    cases hd : defOf v a with
    | some l =>
      refine ⟨?_, by simp [defArgs, hd]⟩
      intro l' hl
      simp [defArgs, hd] at hl
      subst hl
      rw [List.reverse_append]
      refine .arg (a := a) (by simp [← hi]) (ha.1 l hd) ?_
      intro j b hj hb
      rw [List.getElem?_append_left (by omega)] at hb
      exact hpre b (List.mem_of_getElem? hb)
    | none =>
      have hr := defArgs_spec v c r (pre ++ [a]) (i + 1) (by simp [hi]) (by
        intro b hb
        simp at hb
        rcases hb with hb | rfl
        · exact hpre b hb
        · exact ha.2 hd)
      simp only [List.append_assoc, List.singleton_append] at hr
      simpa only [defArgs, hd] using hr
end

theorem First.at {v t p} (h : First v t p) : At t p (.var v) := by
  induction h with
  | root => exact .root
  | arg ha _ _ ih => exact .arg ha ih

theorem First.unique {v t p q} (h : First v t p) (h' : First v t q) : p = q := by
  induction h generalizing q with
  | root => cases h'; rfl
  | @arg c as p i a ha hf hmin ih =>
    cases h' with
    | @arg _ _ q j b hb hf' hmin' =>
      rcases Nat.lt_trichotomy i j with h | h | h
      · exact absurd ⟨_, hf.at⟩ (hmin' i a h ha)
      · subst h
        rw [ha] at hb
        cases hb
        rw [ih hf']
      · exact absurd ⟨_, hf'.at⟩ (hmin j b h hb)

/-- The definition is the reversed position of the first occurrence. -/
theorem defOf_first {v t p} (h : First v t p) : defOf v t = some p.reverse := by
  cases hd : defOf v t with
  | none => exact absurd ⟨p, h.at⟩ ((defOf_spec v t).2 hd)
  | some l =>
    have := First.unique ((defOf_spec v t).1 l hd) h
    rw [← this, List.reverse_reverse]

theorem first_of_occurs {v t} (h : Occurs v t) : ∃ p, First v t p := by
  cases hd : defOf v t with
  | none => exact absurd h ((defOf_spec v t).2 hd)
  | some l => exact ⟨_, (defOf_spec v t).1 l hd⟩

theorem defOf_none {v t} (h : ¬ Occurs v t) : defOf v t = none := by
  cases hd : defOf v t with
  | none => rfl
  | some l => exact absurd ⟨_, ((defOf_spec v t).1 l hd).at⟩ h

/-- Reading a position of a type in an interpretation. -/
theorem eval_at {ar : Nat → Nat} {D : Dom} (ok : D.Ok ar) {σ : Nat → D.T} {t p s} (h : At t p s) : WF ar t → p ≠ [] →
    ∀ z, D.sub z (den D σ t) → evalDef D p z = den D σ s := by
  induction h with
  | root => intro _ h; exact absurd rfl h
  | @arg c as p s i a ha hp ih =>
    intro hw _ z hz
    cases hw with
    | app hlen hws =>
      rw [den_app] at hz
      have h1 : D.arg c z i = den D σ a := ok.arg c _ z i _ (by simpa using hlen) hz (by simp [ha])
      show evalDef D p (D.arg c z i) = _
      rw [h1]
      by_cases hpe : p = []
      · subst hpe
        cases hp
        rfl
      · exact ih (hws a (List.mem_of_getElem? ha)) hpe _ (ok.refl _)

/-- The meaning depends only on the variables that occur. -/
theorem den_congr (D : Dom) {σ τ : Nat → D.T} : ∀ t, (∀ v, Occurs v t → σ v = τ v) → den D σ t = den D τ t := by
  intro t
  refine Ty.rec (motive_1 := fun t => (∀ v, Occurs v t → σ v = τ v) → den D σ t = den D τ t)
    (motive_2 := fun as => (∀ a ∈ as, ∀ v, Occurs v a → σ v = τ v) → as.map (den D σ) = as.map (den D τ)) ?_ ?_ ?_ ?_ t
  · intro v h; exact h v ⟨[], .root⟩
  · intro c as ih h
    rw [den_app, den_app, ih]
    rintro a ha v ⟨p, hp⟩
    obtain ⟨i, hi⟩ := List.mem_iff_getElem?.1 ha
    exact h v ⟨_, .arg hi hp⟩
  · intro _; rfl
  · intro a r ih1 ih2 h
    rw [List.map_cons, List.map_cons, ih1 (h a (by simp)), ih2 (fun b hb => h b (by simp [hb]))]

/-! ### The interpretation by terms -/

/-- Closed types. -/
inductive CT
  | app (c : Nat) (as : List CT)

/-- The term interpretation: the only subtypes are equal types and `object`; taking an argument of a type of another
class gives `J`. -/
def termDom (J : Nat) : Dom where
  T := CT
  app := CT.app
  arg c z i := match z with | .app c' as => if c' = c then (as[i]?).getD (.app J []) else .app J []
  sub z w := z = w ∨ w = .app 0 []

theorem termDom_ok (ar J) : (termDom J).Ok ar where
  refl z := .inl rfl
  trans x y z h1 h2 := by
    rcases h2 with rfl | h2
    · exact h1
    · exact .inr h2
  object z := .inr rfl
  arg c as z i x _ hs hx := by
    rcases hs with rfl | hs
    · show (if c = c then (as[i]?).getD _ else _) = x
      simp [hx]
      rfl
    · have : c = 0 ∧ as = [] := by
        have h : CT.app c as = CT.app 0 [] := hs
        injection h with h1 h2
        exact ⟨h1, h2⟩
      rw [this.2] at hx; simp at hx

/-- All variables stand for classes without arguments. -/
def Flat {J} (σ : Nat → (termDom J).T) : Prop := ∀ v, ∃ c, σ v = CT.app c []

theorem eval_junk (J) : ∀ p, evalDef (termDom J) p (CT.app J [] : CT) = CT.app J []
  | [] => rfl
  | (c, i) :: p => by
    show evalDef (termDom J) p ((termDom J).arg c (CT.app J []) i) = _
    have : (termDom J).arg c (CT.app J []) i = CT.app J [] := by
      show (if J = c then (([] : List CT)[i]?).getD (CT.app J []) else CT.app J []) = _
      split <;> simp
    rw [this]; exact eval_junk J p

/-- Reading any position in the term interpretation. -/
theorem eval_term {J} {σ : Nat → (termDom J).T} (hσ : Flat σ) : ∀ p t,
    (∃ s, At t p s ∧ evalDef (termDom J) p (den (termDom J) σ t) = den (termDom J) σ s) ∨
    ((¬ ∃ s, At t p s) ∧ evalDef (termDom J) p (den (termDom J) σ t) = CT.app J [])
  | [], t => .inl ⟨t, .root, rfl⟩
  | (c, i) :: p, .var v => by
    refine .inr ⟨?_, ?_⟩
    · rintro ⟨s, hs⟩; cases hs
    · obtain ⟨k, hk⟩ := hσ v
      show evalDef (termDom J) p ((termDom J).arg c (σ v) i) = _
      have : (termDom J).arg c (σ v) i = CT.app J [] := by
        rw [hk]
        show (if k = c then (([] : List CT)[i]?).getD (CT.app J []) else CT.app J []) = _
        split <;> simp
      rw [this]; exact eval_junk J p
  | (c, i) :: p, .app c' as => by
    have harg : (termDom J).arg c (den (termDom J) σ (.app c' as)) i =
        if c' = c then ((as.map (den (termDom J) σ))[i]?).getD (CT.app J []) else CT.app J [] := by
      rw [den_app]; rfl
    show (∃ s, _ ∧ evalDef (termDom J) p ((termDom J).arg c (den (termDom J) σ (.app c' as)) i) = _) ∨
      (_ ∧ evalDef (termDom J) p ((termDom J).arg c (den (termDom J) σ (.app c' as)) i) = _)
    rw [harg]
    by_cases hc : c' = c
    · subst hc
      cases ha : as[i]? with
      | none =>
        refine .inr ⟨?_, ?_⟩
        · rintro ⟨s, hs⟩
          cases hs with
          | arg h _ => rw [ha] at h; cases h
        · simp [ha]
          exact eval_junk J p
      | some a =>
        have hsimp : (if c' = c' then ((as.map (den (termDom J) σ))[i]?).getD (CT.app J []) else CT.app J []) =
            den (termDom J) σ a := by simp [ha]; rfl
        rw [hsimp]
        rcases eval_term hσ p a with ⟨s, h1, h2⟩ | ⟨h1, h2⟩
        · exact .inl ⟨s, .arg ha h1, h2⟩
        · refine .inr ⟨?_, h2⟩
          rintro ⟨s, hs⟩
          cases hs with
          | arg h hs => rw [ha] at h; cases h; exact h1 ⟨s, hs⟩
    · refine .inr ⟨?_, ?_⟩
      · rintro ⟨s, hs⟩; cases hs; exact hc rfl
      · simpa [hc] using eval_junk J p

end Nagini.MethodVars
