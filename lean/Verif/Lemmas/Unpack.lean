import Verif.Spec.Unpack
import Mathlib.Tactic.Common

set_option linter.unusedVariables false

namespace Nagini.Unpack

theorem execAll_append (a b : List TStmt) (σ : Store) :
    execAll σ (a ++ b) = (execAll σ a).bind fun σ' => execAll σ' b := by
  induction a generalizing σ with
  | nil => simp [execAll]
  | cons x a ih =>
    simp only [List.cons_append, execAll]
    cases h : x.exec σ with
    | none => simp
    | some σ' => simp [ih]

theorem eval_congr (e : RExpr) (σ σ' : Store) (h : ∀ x ∈ e.vars, σ x = σ' x) : e.eval σ = e.eval σ' := by
  induction e with
  | const v => simp [RExpr.eval]
  | var x => simp [RExpr.eval]; exact h x (by simp [RExpr.vars])
  | pair a b iha ihb =>
    simp only [RExpr.vars, List.mem_append] at h
    simp only [RExpr.eval]
    rw [iha (fun x hx => h x (Or.inl hx)), ihb (fun x hx => h x (Or.inr hx))]
  | item e i ih =>
    simp only [RExpr.vars] at h
    simp only [RExpr.eval]
    rw [ih h]

theorem any_isStar_false : ∀ ts : List Target, Target.starFreeList ts = true → ts.any isStar = false
  | [], _ => rfl
  | t :: ts, h => by
    simp only [Target.starFreeList, Bool.and_eq_true] at h
    simp only [List.any_cons, any_isStar_false ts h.2, Bool.or_false]
    cases t <;> simp_all [isStar, Target.starFree]

mutual
/-- Star-free targets only change their own variables. -/
theorem pyAssign_frame : ∀ (t : Target) (v : Val) (σ σ' : Store), t.starFree = true →
    pyAssign t v σ = some σ' → ∀ y, y ∉ t.vars → σ' y = σ y
  | .name x, v, σ, σ', _, h, y, hy => by
    simp only [pyAssign, Option.some.injEq] at h
    simp only [Target.vars, List.mem_singleton] at hy
    subst h
    simp [Store.set, hy]
  | .star _, _, _, _, h, _, _, _ => by simp [Target.starFree] at h
  | .tuple ts, .atom _, σ, σ', _, h, y, _ => by simp [pyAssign] at h
  | .tuple ts, .seq vs, σ, σ', hs, h, y, hy => by
    simp only [Target.starFree] at hs
    simp only [pyAssign, any_isStar_false ts hs, Bool.false_eq_true, if_false] at h
    split at h
    · exact pyAssignList_frame ts vs σ σ' hs h y (by simpa [Target.vars] using hy)
    · simp at h
theorem pyAssignList_frame : ∀ (ts : List Target) (vs : List Val) (σ σ' : Store),
    Target.starFreeList ts = true →
    pyAssignList ts vs σ = some σ' → ∀ y, y ∉ Target.varsList ts → σ' y = σ y
  | [], [], σ, σ', _, h, y, _ => by simp [pyAssignList] at h; rw [h]
  | [], _ :: _, σ, σ', _, h, y, _ => by simp [pyAssignList] at h
  | _ :: _, [], σ, σ', _, h, y, _ => by simp [pyAssignList] at h
  | t :: ts, v :: vs, σ, σ', hs, h, y, hy => by
    simp only [Target.starFreeList, Bool.and_eq_true] at hs
    simp only [Target.varsList, List.mem_append, not_or] at hy
    simp only [pyAssignList, Option.bind_eq_some_iff] at h
    obtain ⟨σ1, h1, h2⟩ := h
    rw [pyAssignList_frame ts vs σ1 σ' hs.2 h2 y hy.2, pyAssign_frame t v σ σ1 hs.1 h1 y hy.1]
end

mutual
theorem assignTo_ok : ∀ (t : Target) (e : RExpr) (v : Val) (σ : Store), t.starFree = true →
    (∀ x ∈ t.vars, x ∉ e.vars) ∨ (∃ x, t = .name x) → e.eval σ = some v →
    execAll σ (assignTo t e) = pyAssign t v σ
  | .name x, e, v, σ, _, _, hv => by simp [assignTo, execAll, TStmt.exec, hv, pyAssign]
  | .star _, _, _, _, h, _, _ => by simp [Target.starFree] at h
  | .tuple ts, e, .atom i, σ, hs, hd, hv => by
    simp [assignTo, execAll, TStmt.exec, hv, pyAssign]
  | .tuple ts, e, .seq vs, σ, hs, hd, hv => by
    simp only [Target.starFree] at hs
    have hd : ∀ x ∈ Target.varsList ts, x ∉ e.vars := by
      rcases hd with hd | ⟨x, hx⟩
      · simpa [Target.vars] using hd
      · cases hx
    have ha := any_isStar_false ts hs
    simp only [assignTo, ha, execAll, TStmt.exec, hv, pyAssign, Bool.not_false, if_true,
      Bool.false_eq_true, if_false]
    by_cases hl : vs.length = ts.length
    · rw [if_pos hl, if_pos hl]
      have := assignElems_ok ts e vs 0 σ hs hd hv (by omega)
      simpa using this
    · rw [if_neg hl, if_neg hl]; simp

theorem assignElems_ok : ∀ (ts : List Target) (e : RExpr) (vs : List Val) (i : Nat) (σ : Store),
    Target.starFreeList ts = true → (∀ x ∈ Target.varsList ts, x ∉ e.vars) →
    e.eval σ = some (.seq vs) → vs.length = i + ts.length →
    execAll σ (assignElems ts e i) = pyAssignList ts (vs.drop i) σ
  | [], e, vs, i, σ, _, _, hv, hl => by
    simp at hl
    have : vs.drop i = [] := by simp [← hl]
    simp [assignElems, execAll, pyAssignList, this]
  | t :: ts, e, vs, i, σ, hs, hd, hv, hl => by
    simp only [Target.starFreeList, Bool.and_eq_true] at hs
    simp only [Target.varsList, List.mem_append] at hd
    simp only [List.length_cons] at hl
    have hi : i < vs.length := by omega
    have hdrop : vs.drop i = vs[i] :: vs.drop (i + 1) := (List.drop_eq_getElem_cons hi)
    have hitem : (RExpr.item e i).eval σ = some vs[i] := by
      simp [RExpr.eval, hv, hi]
    have hfirst : execAll σ (assignElems (t :: ts) e i) =
        (execAll σ (assignTo t (.item e i))).bind fun σ' => execAll σ' (assignElems ts e (i + 1)) := by
      cases t with
      | name x => simp [assignElems, assignTo, execAll]
      | star x => simp [Target.starFree] at hs
      | tuple us => rw [assignElems, execAll_append]
    rw [hfirst, hdrop]
    simp only [pyAssignList]
    rw [assignTo_ok t (.item e i) vs[i] σ hs.1
      (Or.inl (fun x hx => by simpa [RExpr.vars] using hd x (Or.inl hx))) hitem]
    cases hp : pyAssign t vs[i] σ with
    | none => simp
    | some σ1 =>
      simp only [Option.bind_some]
      refine assignElems_ok ts e vs (i + 1) σ1 hs.2 (fun x hx => hd x (Or.inr hx)) ?_ (by omega)
      rw [← hv]
      refine eval_congr _ _ _ (fun x hx => ?_)
      exact pyAssign_frame t _ σ σ1 hs.1 hp x (fun hxt => hd x (Or.inl hxt) hx)
end

theorem transAssign_ok : ∀ (ts : List Target) (e : RExpr) (v : Val) (σ : Store),
    (∀ t ∈ ts, t.starFree = true) →
    (∀ t ∈ ts, ∀ x ∈ t.vars, x ∉ e.vars) → e.eval σ = some v →
    execAll σ (transAssign ts e) = pyAssignAll ts v σ
  | [], e, v, σ, _, _, _ => by simp [transAssign, execAll, pyAssignAll]
  | t :: ts, e, v, σ, hs, hd, hv => by
    have h1 := assignTo_ok t e v σ (hs t (by simp)) (Or.inl (hd t (by simp))) hv
    simp only [transAssign, List.flatMap_cons, execAll_append, h1, pyAssignAll]
    cases hp : pyAssign t v σ with
    | none => simp
    | some σ1 =>
      simp only [Option.bind_some]
      refine transAssign_ok ts e v σ1 (fun u hu => hs u (by simp [hu])) (fun u hu => hd u (by simp [hu])) ?_
      rw [← hv]
      refine eval_congr _ _ _ (fun x hx => ?_)
      exact pyAssign_frame t _ σ σ1 (hs t (by simp)) hp x (fun hxt => hd t (by simp) x hxt hx)

end Nagini.Unpack

namespace Nagini.Unpack

/-- Assign values to variables left to right. -/
def setMany (σ : Store) : List Nat → List Val → Store
  | x :: xs, v :: vs => setMany (σ.set x v) xs vs
  | _, _ => σ

theorem setMany_frame : ∀ (xs : List Nat) (vs : List Val) (σ : Store) (y : Nat), y ∉ xs → setMany σ xs vs y = σ y
  | [], vs, σ, y, _ => by simp [setMany]
  | x :: xs, [], σ, y, _ => by simp [setMany]
  | x :: xs, v :: vs, σ, y, h => by
    simp only [List.mem_cons, not_or] at h
    rw [setMany, setMany_frame xs vs _ y h.2]
    simp [Store.set, h.1]

theorem setMany_congr (xs : List Nat) : ∀ (vs ws : List Val) (σ : Store),
    (∀ i < xs.length, vs[i]? = ws[i]?) → setMany σ xs vs = setMany σ xs ws := by
  induction xs with
  | nil => intro vs ws σ _; cases vs <;> cases ws <;> simp [setMany]
  | cons x xs ih =>
    intro vs ws σ h
    have h0 := h 0 (by simp)
    cases vs with
    | nil =>
      cases ws with
      | nil => rfl
      | cons w ws => simp at h0
    | cons v vs =>
      cases ws with
      | nil => simp at h0
      | cons w ws =>
        simp at h0
        subst h0
        simp only [setMany]
        refine ih vs ws _ (fun i hi => ?_)
        have := h (i + 1) (by simp; omega)
        simpa using this

theorem exec_names : ∀ (xs : List Nat) (rest : List Target) (e : RExpr) (vs : List Val) (i : Nat) (σ : Store),
    (∀ x ∈ xs, x ∉ e.vars) → e.eval σ = some (.seq vs) → i + xs.length ≤ vs.length →
    execAll σ (assignElems (xs.map .name ++ rest) e i) =
      execAll (setMany σ xs (vs.drop i)) (assignElems rest e (i + xs.length))
  | [], rest, e, vs, i, σ, _, _, _ => by simp [setMany]
  | x :: xs, rest, e, vs, i, σ, hd, hv, hl => by
    simp only [List.length_cons] at hl
    have hi : i < vs.length := by omega
    have hdrop : vs.drop i = vs[i] :: vs.drop (i + 1) := (List.drop_eq_getElem_cons hi)
    simp only [List.map_cons, List.cons_append, assignElems, execAll, TStmt.exec, RExpr.eval, hv]
    rw [List.getElem?_eq_getElem hi]
    simp only [Option.map_some, Option.bind_some]
    rw [hdrop, setMany, exec_names xs rest e vs (i + 1) (σ.set x vs[i]) (fun y hy => hd y (by simp [hy])) ?_ (by omega)]
    · congr 1
      simp; congr 1; omega
    · rw [← hv]
      refine eval_congr _ _ _ (fun y hy => ?_)
      have : y ≠ x := fun h => hd x (by simp) (h ▸ hy)
      simp [Store.set, this]

theorem exec_names_fail : ∀ (xs : List Nat) (e : RExpr) (vs : List Val) (i : Nat) (σ : Store),
    (∀ x ∈ xs, x ∉ e.vars) → e.eval σ = some (.seq vs) → vs.length < i + xs.length → xs ≠ [] →
    execAll σ (assignElems (xs.map .name) e i) = none
  | [], e, vs, i, σ, _, _, _, hne => absurd rfl hne
  | x :: xs, e, vs, i, σ, hd, hv, hl, _ => by
    simp only [List.length_cons] at hl
    simp only [List.map_cons, assignElems, execAll, TStmt.exec, RExpr.eval, hv]
    by_cases hi : i < vs.length
    · rw [List.getElem?_eq_getElem hi]
      simp only [Option.map_some, Option.bind_some]
      have hne : xs ≠ [] := by
        rintro rfl
        simp at hl; omega
      refine exec_names_fail xs e vs (i + 1) _ (fun y hy => hd y (by simp [hy])) ?_ (by omega) hne
      rw [← hv]
      refine eval_congr _ _ _ (fun y hy => ?_)
      have : y ≠ x := fun h => hd x (by simp) (h ▸ hy)
      simp [Store.set, this]
    · rw [List.getElem?_eq_none (by omega)]
      simp

theorem pyAssignList_names : ∀ (xs : List Nat) (vs : List Val) (σ : Store), vs.length = xs.length →
    pyAssignList (xs.map .name) vs σ = some (setMany σ xs vs)
  | [], [], σ, _ => by simp [pyAssignList, setMany]
  | [], _ :: _, σ, h => by simp at h
  | _ :: _, [], σ, h => by simp at h
  | x :: xs, v :: vs, σ, h => by
    simp only [List.map_cons, pyAssignList, pyAssign, Option.bind_some, setMany]
    exact pyAssignList_names xs vs _ (by simpa using h)

theorem pyAssignStar_names : ∀ (pre : List Nat) (s : Nat) (post : List Nat) (vs : List Val) (σ : Store),
    pyAssignStar (pre.map .name ++ .star s :: post.map .name) vs σ =
      if pre.length + post.length ≤ vs.length then
        some (setMany ((setMany σ pre vs).set s
          (.seq ((vs.drop pre.length).take (vs.length - pre.length - post.length)))) post
          (vs.drop (vs.length - post.length)))
      else none
  | [], s, post, vs, σ => by
    simp only [List.map_nil, List.nil_append, pyAssignStar, pySplit, List.length_nil, Nat.zero_add,
      List.length_map, List.drop_zero, Nat.sub_zero]
    by_cases h : post.length ≤ vs.length
    · rw [if_pos h, if_pos h]
      simp only
      rw [pyAssignList_names _ _ _ (by simp; omega)]
      simp [setMany]
    · rw [if_neg h, if_neg h]
  | x :: pre, s, post, [], σ => by simp [pyAssignStar]
  | x :: pre, s, post, v :: vs, σ => by
    simp only [List.map_cons, List.cons_append, pyAssignStar, pyAssign, Option.bind_some]
    rw [pyAssignStar_names pre s post vs (σ.set x v)]
    simp only [List.length_cons, setMany, List.drop_succ_cons]
    by_cases h : pre.length + post.length ≤ vs.length
    · rw [if_pos h, if_pos (by omega)]
      have e1 : vs.length + 1 - (pre.length + 1) - post.length = vs.length - pre.length - post.length := by omega
      have e2 : vs.length + 1 - post.length = (vs.length - post.length) + 1 := by omega
      rw [e1, e2, List.drop_succ_cons]
    · rw [if_neg h, if_neg (by omega)]

/-- Exact behaviour of the encoding of one starred assignment over local names. -/
theorem exec_star (pre : List Nat) (s : Nat) (post : List Nat) (e : RExpr) (vs : List Val) (σ : Store)
    (hd : ∀ x ∈ pre ++ s :: post, x ∉ e.vars) (hv : e.eval σ = some (.seq vs)) :
    execAll σ (assignTo (.tuple (pre.map .name ++ .star s :: post.map .name)) e) =
      if pre.length + post.length ≤ vs.length then
        (if post = [] ∨ pre.length + 1 + post.length ≤ vs.length then
          some (setMany ((setMany σ pre vs).set s
            (.seq ((vs.drop pre.length).take (vs.length - pre.length - post.length)))) post
            (vs.drop (pre.length + 1)))
         else none)
      else none := by
  have hany : (pre.map Target.name ++ Target.star s :: post.map Target.name).any isStar = true := by
    simp [isStar]
  simp only [assignTo, hany, Bool.not_true, if_true, execAll, TStmt.exec, hv, Bool.false_eq_true, if_false]
  have hlen : (pre.map Target.name ++ Target.star s :: post.map Target.name).length - 1 = pre.length + post.length := by
    simp
  rw [hlen]
  by_cases h : pre.length + post.length ≤ vs.length
  · rw [if_pos h, if_pos h]
    simp only [Option.bind_some]
    rw [exec_names pre _ e vs 0 σ (fun x hx => hd x (by simp [hx])) hv (by omega)]
    simp only [List.drop_zero, Nat.zero_add, assignElems, execAll, TStmt.exec]
    have hv1 : e.eval (setMany σ pre vs) = some (.seq vs) := by
      rw [← hv]
      refine eval_congr _ _ _ (fun y hy => ?_)
      exact setMany_frame _ _ _ _ (fun hx => hd y (by simp [hx]) hy)
    rw [hv1]
    simp only [Option.bind_some, List.length_map]
    have hseg : (vs.take (vs.length - post.length)).drop pre.length =
        (vs.drop pre.length).take (vs.length - pre.length - post.length) := by
      rw [List.drop_take]
      congr 1; omega
    rw [hseg]
    have hv2 : ∀ w, e.eval ((setMany σ pre vs).set s w) = some (.seq vs) := by
      intro w
      rw [← hv1]
      refine eval_congr _ _ _ (fun y hy => ?_)
      have : y ≠ s := fun hx => hd s (by simp) (hx ▸ hy)
      simp [Store.set, this]
    by_cases hp : post = [] ∨ pre.length + 1 + post.length ≤ vs.length
    · rw [if_pos hp]
      rcases hp with rfl | hp
      · simp [assignElems, execAll, setMany]
      · have := exec_names post [] e vs (pre.length + 1) _ (fun x hx => hd x (by simp [hx])) (hv2
          (.seq ((vs.drop pre.length).take (vs.length - pre.length - post.length)))) (by omega)
        simp only [List.append_nil, assignElems, execAll] at this
        exact this
    · rw [if_neg hp]
      push Not at hp
      exact exec_names_fail post e vs (pre.length + 1) _ (fun x hx => hd x (by simp [hx])) (hv2 _) (by omega) hp.1
  · rw [if_neg h, if_neg h]
    simp

end Nagini.Unpack
