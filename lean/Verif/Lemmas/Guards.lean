import Verif.Spec.Guards
set_option linter.unusedVariables false
set_option linter.unusedSimpArgs false
namespace Nagini.Guards

/-- The instances of an assertion under the guard `g`. -/
def coll (g : List Cond) : A → List (Nat × List Cond)
  | .atom _ => []
  | .obl k => [(k, g)]
  | .sif c k => [(k, g ++ [.pos c])]
  | .and l r => coll g l ++ coll g r
  | .implies c a => coll (g ++ [.pos c]) a
  | .ife c a b => coll (g ++ [.pos c]) a ++ coll (g ++ [.neg c]) b
  | .unfolding a => coll g a

theorem visit_eq (a : A) (g : List Cond) (out : List (Nat × List Cond)) :
    visit a ⟨g, out⟩ = ⟨g, out ++ coll g a⟩ := by
  induction a generalizing g out with
  | atom x => simp [visit, coll]
  | obl k => simp [visit, coll]
  | sif c k => simp [visit, coll]
  | and l r ihl ihr => simp [visit, coll, ihl, ihr]
  | implies c a _ ih => simp [visit, coll, St.push, St.pop, ih]
  | ife c a b _ iha ihb => simp [visit, coll, St.push, St.pop, iha, ihb]
  | unfolding a ih => simp [visit, coll, ih]

theorem traverseAll_eq (as : List A) (out : List (Nat × List Cond)) :
    traverseAll out as = some (out ++ as.flatMap (coll [])) := by
  induction as generalizing out with
  | nil => simp [traverseAll]
  | cons a as ih => simp [traverseAll, visit_eq, ih]

theorem active_append (σ : Nat → Bool) (l r : List (Nat × List Cond)) :
    active σ (l ++ r) = active σ l ++ active σ r := by simp [active]

theorem holds_pos (σ : Nat → Bool) (c : A) : (Cond.pos c).holds σ = c.val σ := rfl
theorem holds_neg (σ : Nat → Bool) (c : A) : (Cond.neg c).holds σ = !c.val σ := rfl

theorem active_coll (σ : Nat → Bool) (a : A) (g : List Cond) :
    active σ (coll g a) = if g.all (·.holds σ) then a.inhaled σ else [] := by
  induction a generalizing g with
  | atom x => simp [coll, active, A.inhaled]
  | obl k =>
    simp only [coll, active, A.inhaled, List.filter_cons, List.filter_nil]
    split <;> simp
  | sif c k =>
    simp only [coll, active, A.inhaled, List.filter_cons, List.filter_nil, List.all_append,
      List.all_cons, List.all_nil, holds_pos, holds_neg, Bool.and_true]
    cases g.all (·.holds σ) <;> cases c.val σ <;> simp
  | and l r ihl ihr =>
    simp only [coll, active_append, ihl, ihr, A.inhaled]
    split <;> simp
  | implies c a _ ih =>
    simp only [coll, ih, A.inhaled, List.all_append, List.all_cons, List.all_nil, holds_pos, holds_neg,
      Bool.and_true]
    cases g.all (·.holds σ) <;> cases c.val σ <;> simp
  | ife c a b _ iha ihb =>
    simp only [coll, active_append, iha, ihb, A.inhaled, List.all_append, List.all_cons,
      List.all_nil, holds_pos, holds_neg, Bool.and_true]
    cases g.all (·.holds σ) <;> cases c.val σ <;> simp
  | unfolding a ih => simp [coll, ih, A.inhaled]

theorem inhaled_reach (σ : Nat → Bool) (a : A) (h : a.val σ = true) : a.inhaled σ = a.reach σ := by
  induction a with
  | atom x => rfl
  | obl k => rfl
  | sif c k _ => rfl
  | and l r ihl ihr =>
    simp only [A.val, Bool.and_eq_true] at h
    simp [A.inhaled, A.reach, h.1, ihl h.1, ihr h.2]
  | implies c a _ ih =>
    simp only [A.val] at h
    simp only [A.inhaled, A.reach]
    cases hc : c.val σ with
    | false => rfl
    | true => simp [hc] at h; simpa using ih h
  | ife c a b _ iha ihb =>
    simp only [A.val] at h
    simp only [A.inhaled, A.reach]
    cases hc : c.val σ with
    | false => simp [hc] at h; simpa using ihb h
    | true => simp [hc] at h; simpa using iha h
  | unfolding a ih => exact ih h

theorem coll_ids (a : A) (g : List Cond) : (coll g a).map (·.1) = a.asserted := by
  induction a generalizing g with
  | atom x => rfl
  | obl k => rfl
  | sif c k _ => rfl
  | and l r ihl ihr => simp [coll, A.asserted, ihl, ihr]
  | implies c a _ ih => simp [coll, A.asserted, ih]
  | ife c a b _ iha ihb => simp [coll, A.asserted, iha, ihb]
  | unfolding a ih => simp [coll, A.asserted, ih]

theorem lookup_isSome (out : List (Nat × List Cond)) (k : Nat) :
    (lookup out k).isSome = true ↔ k ∈ out.map (·.1) := by
  simp [lookup, List.find?_isSome]

end Nagini.Guards
