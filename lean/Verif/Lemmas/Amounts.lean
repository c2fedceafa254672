import Verif.Model.Amounts

set_option linter.unusedVariables false
set_option linter.unusedSimpArgs false
namespace Nagini.Amounts

/-- `translate_perm_or_int`. -/
abbrev translatePermOrInt (e : Amount) : Option Node := orInt e (translatePerm e)

theorem orInt_eq (e : Amount) (h : ∀ v, e ≠ .const v) : translatePermOrInt e = translatePerm e := by
  cases e <;> simp_all [translatePermOrInt, orInt]

/-- The integer translation has Python's value. -/
theorem intValue_eq (ρ : Env) (e : Amount) (h : IsInt e) :
    ∃ i : Int, intValue ρ e = some i ∧ pyValue ρ e = some (i : Rat) := by
  induction h with
  | const v => exact ⟨v, rfl, rfl⟩
  | name x => exact ⟨_, rfl, rfl⟩
  | call x => exact ⟨_, rfl, rfl⟩
  | attr x => exact ⟨_, rfl, rfl⟩
  | add _ _ ih1 ih2 =>
    obtain ⟨i, h1, h2⟩ := ih1
    obtain ⟨j, h3, h4⟩ := ih2
    exact ⟨i + j, by simp [intValue, h1, h3], by simp [pyValue, h2, h4, Rat.intCast_add]⟩
  | sub _ _ ih1 ih2 =>
    obtain ⟨i, h1, h2⟩ := ih1
    obtain ⟨j, h3, h4⟩ := ih2
    exact ⟨i - j, by simp [intValue, h1, h3], by simp [pyValue, h2, h4, Rat.intCast_sub]⟩
  | mul _ _ ih1 ih2 =>
    obtain ⟨i, h1, h2⟩ := ih1
    obtain ⟨j, h3, h4⟩ := ih2
    exact ⟨i * j, by simp [intValue, h1, h3], by simp [pyValue, h2, h4, Rat.intCast_mul]⟩

theorem ofInt_eval (ρ : Env) (e : Amount) (h : IsInt e) : (Node.ofInt e).eval ρ = pyValue ρ e := by
  obtain ⟨i, h1, h2⟩ := intValue_eq ρ e h
  simp [Node.eval, h1, h2]

/-- A node is a good translation of an amount. -/
def Good (e : Amount) (n : Node) (t : Ty) : Prop :=
  n.typ = t ∧ n.wellTyped ∧ ∀ ρ, n.eval ρ = pyValue ρ e

theorem good_ofInt (e : Amount) (h : IsInt e) : Good e (.ofInt e) .int :=
  ⟨rfl, h, fun ρ => ofInt_eval ρ e h⟩

theorem good_frac {l r : Amount} {n : Node} (h : Good l n .int) (hr : IsInt r) :
    Good (.bin .div l r) (.fracPerm n (.ofInt r)) .perm := by
  refine ⟨rfl, ⟨h.2.1, hr, h.1, rfl⟩, fun ρ => ?_⟩
  rw [Node.eval, h.2.2 ρ, ofInt_eval ρ r hr]
  simp only [pyValue]
  cases pyValue ρ l <;> cases pyValue ρ r <;> rfl

theorem good_permDiv {l r : Amount} {n : Node} (h : Good l n .perm) (hr : IsInt r) :
    Good (.bin .div l r) (.permDiv n (.ofInt r)) .perm := by
  refine ⟨rfl, ⟨h.2.1, hr, h.1, rfl⟩, fun ρ => ?_⟩
  rw [Node.eval, h.2.2 ρ, ofInt_eval ρ r hr]
  simp only [pyValue]
  cases pyValue ρ l <;> cases pyValue ρ r <;> rfl

theorem translate_mul {l r : Amount} {a b : Node} (ha : translatePermOrInt l = some a)
    (hb : translatePermOrInt r = some b) :
    translatePerm (.bin .mul l r) = some
      (if a.typ = .int ∧ b.typ = .int then .mul a b
       else if a.typ = .int then .intPermMul a b
       else if b.typ = .int then .intPermMul b a
       else .permMul a b) := by
  have ha' : orInt l (translatePerm l) = some a := ha
  have hb' : orInt r (translatePerm r) = some b := hb
  rw [translatePerm, ha', hb']
  by_cases h1 : a.typ = .int <;> by_cases h2 : b.typ = .int <;> simp [h1, h2]

theorem translate_div {l : Amount} {a : Node} (r : Amount) (ha : translatePermOrInt l = some a) :
    translatePerm (.bin .div l r) =
      some (if a.typ = .int then .fracPerm a (.ofInt r) else .permDiv a (.ofInt r)) := by
  have ha' : orInt l (translatePerm l) = some a := ha
  rw [translatePerm, ha']

theorem py_mul_comm (ρ : Env) (l r : Amount) :
    pyValue ρ (.bin .mul l r) = pyValue ρ (.bin .mul r l) := by
  simp only [pyValue]
  cases pyValue ρ l <;> cases pyValue ρ r <;> simp [Rat.mul_comm]

theorem factor_good (e : Amount) (h : Factor e) :
    ∃ n, translatePermOrInt e = some n ∧ Good e n .int := by
  induction h with
  | const v => exact ⟨_, rfl, good_ofInt _ (.const v)⟩
  | call x => exact ⟨_, rfl, good_ofInt _ (.call x)⟩
  | attr x => exact ⟨_, rfl, good_ofInt _ (.attr x)⟩
  | @mul l r _ _ ih1 ih2 =>
    obtain ⟨a, ha, ga⟩ := ih1
    obtain ⟨b, hb, gb⟩ := ih2
    refine ⟨.mul a b, ?_, rfl, ⟨ga.2.1, gb.2.1, ga.1, gb.1⟩, fun ρ => ?_⟩
    · rw [orInt_eq _ (by simp), translate_mul ha hb, if_pos ⟨ga.1, gb.1⟩]
    · rw [Node.eval, ga.2.2, gb.2.2]
      simp only [pyValue]
      cases pyValue ρ l <;> cases pyValue ρ r <;> rfl

theorem supported_not_const {e : Amount} (h : Supported e) (h1 : e ≠ .const 1) : ∀ v, e ≠ .const v := by
  rintro v rfl
  cases h
  exact h1 rfl

theorem supported_good (e : Amount) (h : Supported e) :
    ∃ n, translatePerm e = some n ∧ Good e n .perm := by
  induction h with
  | one => exact ⟨.full, rfl, rfl, trivial, fun ρ => rfl⟩
  | @frac l r hl hr =>
    obtain ⟨a, ha, ga⟩ := factor_good l hl
    exact ⟨_, by rw [translate_div r ha, if_pos ga.1], good_frac ga hr⟩
  | @div l r hl hr ih =>
    by_cases h1 : l = .const 1
    · subst h1
      exact ⟨.fracPerm (.ofInt (.const 1)) (.ofInt r), rfl,
        good_frac (good_ofInt _ (.const 1)) hr⟩
    · obtain ⟨a, ha, ga⟩ := ih
      rw [← orInt_eq l (supported_not_const hl h1)] at ha
      exact ⟨_, by rw [translate_div r ha, if_neg (by rw [ga.1]; decide)], good_permDiv ga hr⟩
  | @scaleL l r hl hr h1 ih =>
    obtain ⟨a, ha, ga⟩ := factor_good l hl
    obtain ⟨b, hb, gb⟩ := ih
    rw [← orInt_eq r (supported_not_const hr h1)] at hb
    refine ⟨.intPermMul a b, ?_, rfl, ⟨ga.2.1, gb.2.1, ga.1, gb.1⟩, fun ρ => ?_⟩
    · rw [translate_mul ha hb, if_neg (by rw [gb.1]; simp), if_pos ga.1]
    · rw [Node.eval, ga.2.2, gb.2.2]
      simp only [pyValue]
      cases pyValue ρ l <;> cases pyValue ρ r <;> rfl
  | @scaleR l r hl h1 hr ih =>
    obtain ⟨a, ha, ga⟩ := ih
    obtain ⟨b, hb, gb⟩ := factor_good r hr
    rw [← orInt_eq l (supported_not_const hl h1)] at ha
    refine ⟨.intPermMul b a, ?_, rfl, ⟨gb.2.1, ga.2.1, gb.1, ga.1⟩, fun ρ => ?_⟩
    · rw [translate_mul ha hb, if_neg (by rw [ga.1]; simp), if_neg (by rw [ga.1]; simp), if_pos gb.1]
    · rw [py_mul_comm, Node.eval, ga.2.2, gb.2.2]
      simp only [pyValue]
      cases pyValue ρ l <;> cases pyValue ρ r <;> rfl
  | @mul l r hl h1 hr h2 ih1 ih2 =>
    obtain ⟨a, ha, ga⟩ := ih1
    obtain ⟨b, hb, gb⟩ := ih2
    rw [← orInt_eq l (supported_not_const hl h1)] at ha
    rw [← orInt_eq r (supported_not_const hr h2)] at hb
    refine ⟨.permMul a b, ?_, rfl, ⟨ga.2.1, gb.2.1, ga.1, gb.1⟩, fun ρ => ?_⟩
    · rw [translate_mul ha hb, if_neg (by rw [ga.1]; simp), if_neg (by rw [ga.1]; simp),
        if_neg (by rw [gb.1]; simp)]
    · rw [Node.eval, ga.2.2, gb.2.2]
      simp only [pyValue]
      cases pyValue ρ l <;> cases pyValue ρ r <;> rfl
  | @add l r _ _ ih1 ih2 =>
    obtain ⟨a, ha, ga⟩ := ih1
    obtain ⟨b, hb, gb⟩ := ih2
    refine ⟨.permAdd a b, by simp [translatePerm, ha, hb], rfl, ⟨ga.2.1, gb.2.1, ga.1, gb.1⟩, fun ρ => ?_⟩
    rw [Node.eval, ga.2.2, gb.2.2]
    simp only [pyValue]
    cases pyValue ρ l <;> cases pyValue ρ r <;> rfl
  | @sub l r _ _ ih1 ih2 =>
    obtain ⟨a, ha, ga⟩ := ih1
    obtain ⟨b, hb, gb⟩ := ih2
    refine ⟨.permSub a b, by simp [translatePerm, ha, hb], rfl, ⟨ga.2.1, gb.2.1, ga.1, gb.1⟩, fun ρ => ?_⟩
    rw [Node.eval, ga.2.2, gb.2.2]
    simp only [pyValue]
    cases pyValue ρ l <;> cases pyValue ρ r <;> rfl

/-- What the type of a well-typed translation says about the amount. -/
theorem inversion (e : Amount) :
    (∀ n, translatePerm e = some n → n.wellTyped → n.typ = .perm → Supported e) ∧
    (∀ n, translatePermOrInt e = some n → n.wellTyped → n.typ = .int → Factor e) ∧
    (∀ n, translatePermOrInt e = some n → n.wellTyped → n.typ = .perm → Supported e ∧ e ≠ .const 1) := by
  induction e with
  | const v =>
    refine ⟨?_, ?_, ?_⟩
    · intro n hn
      rw [translatePerm] at hn
      by_cases hv : v = 1
      · subst hv; exact fun _ _ => .one
      · rw [if_neg hv] at hn; cases hn
    · exact fun _ _ _ _ => .const v
    · intro n hn _ ht
      cases hn
      cases ht
  | name x =>
    refine ⟨?_, ?_, ?_⟩ <;> intro n hn _ ht <;> cases hn <;> cases ht
  | call x =>
    refine ⟨?_, ?_, ?_⟩
    · intro n hn _ ht; cases hn; cases ht
    · exact fun _ _ _ _ => .call x
    · intro n hn _ ht; cases hn; cases ht
  | attr x =>
    refine ⟨?_, ?_, ?_⟩
    · intro n hn _ ht; cases hn; cases ht
    · exact fun _ _ _ _ => .attr x
    · intro n hn _ ht; cases hn; cases ht
  | unsupported =>
    refine ⟨?_, ?_, ?_⟩ <;> intro n hn <;> cases hn
  | bin op l r ihl ihr =>
    have key : ∀ n, translatePerm (.bin op l r) = some n → n.wellTyped →
        (n.typ = .perm → Supported (.bin op l r)) ∧ (n.typ = .int → Factor (.bin op l r)) := by
      intro n hn hw
      cases op with
      | other => simp [translatePerm] at hn
      | div =>
        cases ha : translatePermOrInt l with
        | none =>
          have ha' : orInt l (translatePerm l) = none := ha
          rw [translatePerm, ha'] at hn; cases hn
        | some a =>
          rw [translate_div r ha] at hn
          by_cases ht : a.typ = .int
          · rw [if_pos ht] at hn
            cases hn
            exact ⟨fun _ => .frac (ihl.2.1 a ha hw.1 ht) hw.2.1, fun h => by cases h⟩
          · rw [if_neg ht] at hn
            cases hn
            exact ⟨fun _ => .div (ihl.2.2 a ha hw.1 hw.2.2.1).1 hw.2.1, fun h => by cases h⟩
      | mul =>
        cases ha : translatePermOrInt l with
        | none =>
          have ha' : orInt l (translatePerm l) = none := ha
          rw [translatePerm, ha'] at hn; cases hn
        | some a =>
          cases hb : translatePermOrInt r with
          | none =>
            have ha' : orInt l (translatePerm l) = some a := ha
            have hb' : orInt r (translatePerm r) = none := hb
            rw [translatePerm, ha', hb'] at hn; cases hn
          | some b =>
            rw [translate_mul ha hb] at hn
            by_cases h1 : a.typ = .int <;> by_cases h2 : b.typ = .int
            · simp [h1, h2] at hn
              subst hn
              exact ⟨fun h => (by cases h),
                fun _ => .mul (ihl.2.1 a ha hw.1 h1) (ihr.2.1 b hb hw.2.1 h2)⟩
            · simp [h1, h2] at hn
              subst hn
              obtain ⟨h3, h4⟩ := ihr.2.2 b hb hw.2.1 hw.2.2.2
              exact ⟨fun _ => .scaleL (ihl.2.1 a ha hw.1 h1) h3 h4, fun h => by cases h⟩
            · simp [h1, h2] at hn
              subst hn
              obtain ⟨h3, h4⟩ := ihl.2.2 a ha hw.2.1 hw.2.2.2
              exact ⟨fun _ => .scaleR h3 h4 (ihr.2.1 b hb hw.1 h2), fun h => by cases h⟩
            · simp [h1, h2] at hn
              subst hn
              obtain ⟨h3, h4⟩ := ihl.2.2 a ha hw.1 hw.2.2.1
              obtain ⟨h5, h6⟩ := ihr.2.2 b hb hw.2.1 hw.2.2.2
              exact ⟨fun _ => .mul h3 h4 h5 h6, fun h => by cases h⟩
      | add =>
        cases ha : translatePerm l with
        | none => simp [translatePerm, ha] at hn
        | some a =>
          cases hb : translatePerm r with
          | none => simp [translatePerm, ha, hb] at hn
          | some b =>
            simp only [translatePerm, ha, hb, Option.some.injEq] at hn
            subst hn
            exact ⟨fun _ => .add (ihl.1 a ha hw.1 hw.2.2.1) (ihr.1 b hb hw.2.1 hw.2.2.2),
              fun h => by cases h⟩
      | sub =>
        cases ha : translatePerm l with
        | none => simp [translatePerm, ha] at hn
        | some a =>
          cases hb : translatePerm r with
          | none => simp [translatePerm, ha, hb] at hn
          | some b =>
            simp only [translatePerm, ha, hb, Option.some.injEq] at hn
            subst hn
            exact ⟨fun _ => .sub (ihl.1 a ha hw.1 hw.2.2.1) (ihr.1 b hb hw.2.1 hw.2.2.2),
              fun h => by cases h⟩
    refine ⟨fun n hn hw => (key n hn hw).1, fun n hn hw => (key n ?_ hw).2,
      fun n hn hw ht => ⟨(key n ?_ hw).1 ht, by simp⟩⟩ <;> rwa [orInt_eq _ (by simp)] at hn

end Nagini.Amounts
