import Verif.Spec.SilNodes
set_option linter.unusedVariables false
set_option linter.unusedSimpArgs false
namespace Nagini.SilNodes

theorem and_true_left (v : Val) : (pure true).and v = v := by
  simp [pure, Val.and, Rat.zero_add]
theorem and_true_right (v : Val) : v.and (pure true) = v := by
  simp [pure, Val.and, Rat.add_zero]
theorem or_false_left (v : Val) : (pure false).or v = v := by
  simp [pure, Val.or, Rat.zero_add]
theorem or_false_right (v : Val) : v.or (pure false) = v := by
  simp [pure, Val.or, Rat.add_zero]

theorem value_eval {i : SI} {n : Int} (h : i.value = some n) (m : Bool) (E : Env) :
    i.eval m E = n := by
  cases i <;> simp [SI.value] at h <;> simp [SI.eval, h]

theorem int_viper (o : Op) (a b : Int) : o.viper a b = o.int a b := by
  cases o <;> simp only [Op.viper, Op.int, decide_eq_decide] <;> omega

theorem alwaysFalse_eval {b : SB} (h : b.alwaysFalse = true) (m : Bool) (E : Env) :
    b.eval m E = pure false := by
  cases b <;> simp [SB.alwaysFalse] at h
  · rfl
  · subst h; simp [SB.eval, evalOr]
  · rename_i o l r
    cases hl : l.value with
    | none => simp [hl] at h
    | some a =>
      cases hr : r.value with
      | none => simp [hl, hr] at h
      | some c =>
        simp only [hl, hr, Bool.not_eq_true', Bool.not_eq_eq_eq_not, Bool.not_true] at h
        simp [SB.eval, value_eval hl, value_eval hr, int_viper, h]

theorem alwaysTrue_eval {b : SB} (h : b.alwaysTrue = true) (m : Bool) (E : Env) :
    b.eval m E = pure true := by
  match b, h with
  | .tt, _ => rfl
  | .bigAnd l, h =>
    simp [SB.alwaysTrue] at h
    subst h
    simp [SB.eval, evalAnd]
  | .implies c v, h =>
    simp only [SB.alwaysTrue, Bool.or_eq_true] at h
    rcases h with h | h
    · simp [SB.eval, alwaysFalse_eval h, pure]
    · simp [SB.eval, alwaysTrue_eval h m E]
  | .cmpI o l r, h =>
    simp only [SB.alwaysTrue] at h
    cases hl : l.value with
    | none => simp [hl] at h
    | some a =>
      cases hr : r.value with
      | none => simp [hl, hr] at h
      | some c =>
        simp only [hl, hr] at h
        simp [SB.eval, value_eval hl, value_eval hr, int_viper, h]

def foldAnd (m : Bool) (E : Env) : List VB → Val
  | [] => pure true
  | b :: bs => (b.eval m E).and (foldAnd m E bs)
def foldOr (m : Bool) (E : Env) : List VB → Val
  | [] => pure false
  | b :: bs => (b.eval m E).or (foldOr m E bs)
def foldSum (m : Bool) (E : Env) : List VI → Int
  | [] => 0
  | b :: bs => b.eval m E + foldSum m E bs

theorem join_single {α : Type} (op : α → α → α) (d x : α) : join op d [x] = x := rfl

theorem join_cons {α : Type} (op : α → α → α) (d x y : α) (l : List α) :
    join op d (x :: y :: l) = op x (join op d (y :: l)) := by
  unfold join
  rw [List.reverse_cons]
  cases h : (y :: l).reverse with
  | nil => simp at h
  | cons last others => simp

theorem joinAnd_eval (m : Bool) (E : Env) (l : List VB) : (joinAnd l).eval m E = foldAnd m E l := by
  cases l with
  | nil => rfl
  | cons x xs =>
    simp only [joinAnd]
    induction xs generalizing x with
    | nil => simp [join_single, foldAnd, and_true_right]
    | cons y ys ih => rw [join_cons, VB.eval, ih, foldAnd, foldAnd, foldAnd]

theorem joinOr_eval (m : Bool) (E : Env) (l : List VB) : (joinOr l).eval m E = foldOr m E l := by
  cases l with
  | nil => rfl
  | cons x xs =>
    simp only [joinOr]
    induction xs generalizing x with
    | nil => simp [join_single, foldOr, or_false_right]
    | cons y ys ih => rw [join_cons, VB.eval, ih, foldOr, foldOr, foldOr]

theorem joinSum_eval (m : Bool) (E : Env) (l : List VI) : (joinSum l).eval m E = foldSum m E l := by
  cases l with
  | nil => rfl
  | cons x xs =>
    simp only [joinSum]
    induction xs generalizing x with
    | nil => simp [join_single, foldSum]
    | cons y ys ih => rw [join_cons, VI.eval, ih, foldSum, foldSum, foldSum]

theorem plusOneV_eval (m : Bool) (E : Env) (v : SI) (t : VI) (h : t.eval m E = v.eval m E) :
    (plusOneV v t).eval m E = v.eval m E + 1 := by
  cases v <;> simp [plusOneV, VI.eval, h]
  simp [SI.eval]

mutual
theorem trB_eval (m : Bool) : ∀ (b : SB) (E : Env), b.tr.eval m E = b.eval m E
  | .tt, E => rfl
  | .ff, E => rfl
  | .not b, E => by rw [SB.tr, VB.eval, SB.eval, trB_eval m b]
  | .forPerm v t b, E => by
    rw [SB.tr, VB.eval, SB.eval]
    congr 2
    funext r
    rw [trB_eval m b]
  | .py a, E => rfl
  | .inex i e, E => by rw [SB.tr, VB.eval, SB.eval, trB_eval m i, trB_eval m e]
  | .bigAnd l, E => by rw [SB.tr, joinAnd_eval, SB.eval, trAnd_eval m l]
  | .bigOr l, E => by rw [SB.tr, joinOr_eval, SB.eval, trOr_eval m l]
  | .cond c t e, E => by
    rw [SB.tr, VB.eval, SB.eval, trB_eval m c, trB_eval m t, trB_eval m e]
  | .implies c v, E => by
    rw [SB.tr]
    split
    · rename_i h
      rw [SB.eval, alwaysTrue_eval h, trB_eval m v]
      rfl
    · rw [VB.eval, SB.eval, trB_eval m c, trB_eval m v]
  | .eqI l r, E => by rw [SB.tr, VB.eval, SB.eval, trI_eval m l, trI_eval m r]
  | .neI l r, E => by rw [SB.tr, VB.eval, SB.eval, trI_eval m l, trI_eval m r]
  | .eqP l r, E => by rw [SB.tr, VB.eval, SB.eval, trP_eval m l, trP_eval m r]
  | .neP l r, E => by rw [SB.tr, VB.eval, SB.eval, trP_eval m l, trP_eval m r]
  | .cmpI o l r, E => by rw [SB.tr, VB.eval, SB.eval, trI_eval m l, trI_eval m r]
  | .cmpP o l r, E => by rw [SB.tr, VB.eval, SB.eval, trP_eval m l, trP_eval m r]
  | .acc x p, E => by rw [SB.tr, VB.eval, SB.eval, trP_eval m p]
theorem trAnd_eval (m : Bool) : ∀ (l : List SB) (E : Env), foldAnd m E (trAnd l) = evalAnd m E l
  | [], E => rfl
  | b :: bs, E => by
    rw [trAnd, evalAnd]
    split
    · rename_i h
      rw [alwaysTrue_eval h, and_true_left, trAnd_eval m bs]
    · rw [foldAnd, trB_eval m b, trAnd_eval m bs]
theorem trOr_eval (m : Bool) : ∀ (l : List SB) (E : Env), foldOr m E (trOr l) = evalOr m E l
  | [], E => rfl
  | b :: bs, E => by
    rw [trOr, evalOr]
    split
    · rename_i h
      rw [alwaysFalse_eval h, or_false_left, trOr_eval m bs]
    · rw [foldOr, trB_eval m b, trOr_eval m bs]
theorem trI_eval (m : Bool) : ∀ (i : SI) (E : Env), i.tr.eval m E = i.eval m E
  | .lit n, E => rfl
  | .py a, E => rfl
  | .raw n, E => rfl
  | .add l r, E => by rw [SI.tr, VI.eval, SI.eval, trI_eval m l, trI_eval m r]
  | .sub l r, E => by rw [SI.tr, VI.eval, SI.eval, trI_eval m l, trI_eval m r]
  | .sum l, E => by rw [SI.tr, joinSum_eval, SI.eval, trSum_eval m l]
  | .inc v, E => by rw [SI.tr, VI.eval, SI.eval, trI_eval m v, VI.eval]
  | .condInc c v, E => by
    rw [SI.tr, VI.eval, SI.eval, trB_eval m c, plusOneV_eval m E v _ (trI_eval m v E), trI_eval m v]
theorem trSum_eval (m : Bool) : ∀ (l : List SI) (E : Env), foldSum m E (trSum l) = evalSum m E l
  | [], E => rfl
  | i :: is, E => by rw [trSum, foldSum, evalSum, trI_eval m i, trSum_eval m is]
theorem trP_eval (m : Bool) : ∀ (p : SP) (E : Env), p.tr.eval m E = p.eval m E
  | .atom a, E => rfl
  | .sub l r, E => by rw [SP.tr, VP.eval, SP.eval, trP_eval m l, trP_eval m r]
  | .no, E => rfl
  | .full, E => rfl
  | .int i, E => by rw [SP.tr, VP.eval, SP.eval, trI_eval m i, VP.eval, Rat.mul_one]
end

end Nagini.SilNodes
