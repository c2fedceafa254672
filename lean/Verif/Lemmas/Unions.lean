import Verif.Spec.Unions

set_option linter.unusedVariables false
set_option linter.unusedSimpArgs false
namespace Nagini.Unions

variable {H V : Type}

/-- The list a method call ends up in if nothing else is added to it. -/
def own (L : List Stmt) (i : Nat) (m : Meth) : List Stmt :=
  L ++ (if m.pure then [.ret (.app m)] else .call m i :: (if m.returns then [.ret (.res i)] else []))

/-- All options with their own lists. -/
def expected (L : List Stmt) : Nat → List Opt → List (Nat × List Stmt)
  | _, [] => []
  | i, (c, m) :: os => (c, own L i m) :: expected L (i + 1) os

theorem loop_pure (L : List Stmt) (i : Nat) (os : List Opt) :
    (loop L i os).2.2 = true ↔ (os = [] ∨ L = []) ∧ ∀ o ∈ os, o.2.pure = true := by
  induction os generalizing L i with
  | nil => simp [loop]
  | cons o os ih =>
    obtain ⟨c, m⟩ := o
    simp only [loop, Bool.and_eq_true, ih]
    cases hp : m.pure <;> cases hs : m.static <;> simp [normalCall, hp, hs] <;> grind

/-- Expressions for pure methods. -/
theorem loop_values (L : List Stmt) (i : Nat) (os : List Opt) (h : ∀ o ∈ os, o.2.pure = true) :
    (loop L i os).2.1.filterMap (fun b => b.value.map fun e => (b.cls, e)) = os.map fun o => (o.1, Ex.app o.2) := by
  induction os generalizing L i with
  | nil => rfl
  | cons o os ih =>
    obtain ⟨c, m⟩ := o
    have hp : m.pure = true := h (c, m) (by simp)
    have ih := ih (normalCall L i m).1 (i + 1) (fun o ho => h o (List.mem_cons_of_mem _ ho))
    simp only [loop, List.filterMap_cons, List.map_cons]
    simp only [normalCall, hp, if_true, Option.map_some] at ih ⊢
    rw [ih]

theorem loop_nonstatic (L : List Stmt) (i : Nat) (os : List Opt) (h : ∀ o ∈ os, o.2.static = false) :
    (loop L i os).1 = L ∧ sharedRets (loop L i os).2.1 = [] ∧
      ∀ X, (loop L i os).2.1.map (fun b => (b.cls, contents X b)) = expected L i os := by
  induction os generalizing L i with
  | nil => simp [loop, sharedRets, expected]
  | cons o os ih =>
    obtain ⟨c, m⟩ := o
    have hs : m.static = false := h (c, m) (by simp)
    have hL : (normalCall L i m).1 = L := by
      cases hp : m.pure <;> simp [normalCall, hp, hs]
    obtain ⟨h1, h2, h3⟩ := ih L (i + 1) (fun o ho => h o (List.mem_cons_of_mem _ ho))
    simp only [loop, hL]
    refine ⟨h1, ?_, ?_⟩
    · simp only [sharedRets, List.flatMap_cons] at h2 ⊢
      rw [h2]
      cases hp : m.pure <;> simp [normalCall, hp, hs]
    · intro X
      rw [List.map_cons, h3 X, expected]
      congr 1
      cases hp : m.pure <;> cases hr : m.returns <;> simp [normalCall, hp, hs, hr, contents, own]

/-- Options before the one with a static method. -/
theorem loop_append (L : List Stmt) (i : Nat) (os os' : List Opt) (h : ∀ o ∈ os, o.2.static = false) :
    (loop L i (os ++ os')).1 = (loop L (i + os.length) os').1 ∧
    sharedRets (loop L i (os ++ os')).2.1 = sharedRets (loop L (i + os.length) os').2.1 ∧
    ∀ X, (loop L i (os ++ os')).2.1.map (fun b => (b.cls, contents X b)) =
      expected L i os ++ (loop L (i + os.length) os').2.1.map (fun b => (b.cls, contents X b)) := by
  induction os generalizing L i with
  | nil => simp [expected]
  | cons o os ih =>
    obtain ⟨c, m⟩ := o
    have hs : m.static = false := h (c, m) (by simp)
    have hL : (normalCall L i m).1 = L := by
      cases hp : m.pure <;> simp [normalCall, hp, hs]
    obtain ⟨h1, h2, h3⟩ := ih L (i + 1) (fun o ho => h o (List.mem_cons_of_mem _ ho))
    have hi : i + (os.length + 1) = i + 1 + os.length := by omega
    simp only [List.cons_append, loop, hL, List.length_cons, hi]
    refine ⟨h1, ?_, ?_⟩
    · simp only [sharedRets, List.flatMap_cons] at h2 ⊢
      rw [h2]
      cases hp : m.pure <;> simp [normalCall, hp, hs]
    · intro X
      rw [List.map_cons, h3 X, expected, List.cons_append]
      congr 1
      cases hp : m.pure <;> cases hr : m.returns <;> simp [normalCall, hp, hs, hr, contents, own]

theorem expected_append (L : List Stmt) (i : Nat) (os os' : List Opt) :
    expected L i (os ++ os') = expected L i os ++ expected L (i + os.length) os' := by
  induction os generalizing i with
  | nil => simp [expected]
  | cons o os ih =>
    obtain ⟨c, m⟩ := o
    have hi : i + (os.length + 1) = i + 1 + os.length := by omega
    simp only [List.cons_append, expected, ih, List.length_cons, hi]

/-- At most one option has a static method, and if that is impure, it is the last option. -/
def OneStatic (os : List Opt) : Prop :=
  ∃ pre o post, os = pre ++ o :: post ∧ (∀ x ∈ pre ++ post, x.2.static = false) ∧
    (o.2.static = true → o.2.pure = false → post = [])

theorem blocks_ok (L : List Stmt) (i : Nat) (os : List Opt) (h : OneStatic os) :
    (loop L i os).2.1.map (fun b => (b.cls, contents ((loop L i os).1 ++ sharedRets (loop L i os).2.1) b)) =
      expected L i os := by
  obtain ⟨pre, ⟨c, m⟩, post, rfl, h1, h2⟩ := h
  obtain ⟨a1, a2, a3⟩ := loop_append L i pre ((c, m) :: post) (fun x hx => h1 x (by simp [hx]))
  rw [a1, a2, a3, expected_append]
  congr 1
  have hpost : ∀ x ∈ post, x.2.static = false := fun x hx => h1 x (by simp [hx])
  cases hs : m.static with
  | false =>
    exact (loop_nonstatic L (i + pre.length) ((c, m) :: post) (fun x hx => by
      rcases List.mem_cons.1 hx with rfl | hx
      · exact hs
      · exact hpost x hx)).2.2 _
  | true =>
    cases hp : m.pure with
    | true =>
      obtain ⟨b1, b2, b3⟩ := loop_nonstatic L (i + pre.length + 1) post hpost
      have hn : normalCall L (i + pre.length) m = (L, none, some (.app m)) := by simp [normalCall, hp, hs]
      have hsh : sharedRets ((⟨c, none, some (.app m)⟩ : Branch) :: (loop L (i + pre.length + 1) post).2.1) =
          [.ret (.app m)] := by
        rw [sharedRets, List.flatMap_cons, ← sharedRets, b2]; rfl
      simp only [loop, hn, b1, hsh, List.map_cons, b3, expected]
      congr 1
      simp [contents, own, hp]
    | false =>
      have := h2 hs hp
      subst this
      cases hr : m.returns <;>
        simp [loop, normalCall, hp, hs, hr, contents, own, sharedRets, expected]

theorem chainIf_pick {α : Type} (g : Nat → Bool) (l r : List (Nat × List α)) (x : Nat × List α)
    (hl : ∀ y ∈ l, g y.1 = false) (hx : g x.1 = true) : chainIf g (l ++ x :: r) = x.2 := by
  induction l with
  | nil => obtain ⟨c, b⟩ := x; simp [chainIf, hx]
  | cons y l ih =>
    obtain ⟨c, b⟩ := y
    have : g c = false := hl (c, b) (by simp)
    simp only [List.cons_append, chainIf, this]
    exact ih (fun y hy => hl y (List.mem_cons_of_mem _ hy))

theorem chainExp_pick {α : Type} (g : Nat → Bool) (l r : List (Nat × α)) (x : Nat × α)
    (hl : ∀ y ∈ l, g y.1 = false) (hx : g x.1 = true) : chainExp g (l ++ x :: r) = some x.2 := by
  induction l with
  | nil =>
    obtain ⟨c, b⟩ := x
    cases r with
    | nil => rfl
    | cons y r => simp [chainExp, hx]
  | cons y l ih =>
    obtain ⟨c, b⟩ := y
    have : g c = false := hl (c, b) (by simp)
    have ih := ih (fun y hy => hl y (List.mem_cons_of_mem _ hy))
    cases hlr : l ++ x :: r with
    | nil => simp at hlr
    | cons z zs =>
      rw [hlr] at ih
      simp only [List.cons_append, hlr, chainExp, this]
      exact ih

/-- The first option that matches is the smallest one. -/
theorem least_first (sub : Nat → Nat → Prop) (os : List Opt) (hord : os.Pairwise fun a b => sub b.1 a.1 → b.1 = a.1)
    (hnd : (os.map (·.1)).Nodup) (d : Nat) (o : Opt) (h : Least sub os d o) :
    ∃ l r, os = l ++ o :: r ∧ ∀ x ∈ l, ¬ sub d x.1 := by
  obtain ⟨ho, hd, hmin⟩ := h
  obtain ⟨l, r, rfl⟩ := List.append_of_mem ho
  refine ⟨l, r, rfl, ?_⟩
  intro x hx hdx
  have hsub := hmin x (by simp [hx]) hdx
  have := (List.pairwise_append.1 hord).2.2 x hx o (by simp) hsub
  rw [List.map_append, List.nodup_append] at hnd
  exact hnd.2.2 x.1 (List.mem_map_of_mem hx) o.1 (by simp) this.symm

theorem execL_append (W : World H V) (a b : List Stmt) (s u : St H V) :
    ExecL W (a ++ b) s u ↔ ∃ t, ExecL W a s t ∧ ExecL W b t u := by
  induction a generalizing s with
  | nil =>
    constructor
    · intro h; exact ⟨s, .nil s, h⟩
    · rintro ⟨t, ht, h⟩; cases ht; exact h
  | cons c a ih =>
    constructor
    · intro h
      cases h with
      | cons h1 h2 =>
        obtain ⟨t, h3, h4⟩ := (ih _).1 h2
        exact ⟨t, .cons h1 h3, h4⟩
    · rintro ⟨t, ht, h⟩
      cases ht with
      | cons h1 h2 => exact .cons h1 ((ih _).2 ⟨t, h2, h⟩)

theorem execL_args (W : World H V) (args : List Nat) (s t : St H V) :
    ExecL W (args.map Stmt.arg) s t ↔ ArgsRun W args s.h t.h ∧ t.res = s.res ∧ t.ret = s.ret := by
  induction args generalizing s with
  | nil =>
    constructor
    · intro h; cases h; exact ⟨.nil _, rfl, rfl⟩
    · rintro ⟨h, h1, h2⟩
      have h3 : s.h = t.h := by
        generalize s.h = a at h
        generalize t.h = b at h
        cases h; rfl
      obtain ⟨h, r, x⟩ := s
      obtain ⟨h', r', x'⟩ := t
      simp only at h1 h2 h3
      subst h1 h2 h3
      exact .nil _
  | cons k args ih =>
    constructor
    · intro h
      cases h with
      | cons h1 h2 =>
        cases h1 with
        | arg _ _ h' ha =>
          obtain ⟨b1, b2, b3⟩ := (ih _).1 h2
          exact ⟨.cons ha b1, b2, b3⟩
    · rintro ⟨h, h1, h2⟩
      generalize hh : s.h = x at h
      generalize hh' : t.h = y at h
      cases h with
      | cons ha hr =>
        subst hh hh'
        exact .cons (.arg k s _ ha) ((ih _).2 ⟨hr, h1, h2⟩)

/-- Executing the list of one method. -/
theorem exec_own (W : World H V) (args : List Nat) (i : Nat) (m : Meth) (hm : m.pure = true → m.returns = true) (s : St H V)
    (v : V) (h' : H) :
    (∃ t, ExecL W (own (args.map Stmt.arg) i m) s t ∧ t.h = h' ∧ (m.returns = true → t.ret = v)) ↔
    ∃ w, Calls W args m s.h w h' ∧ (m.returns = true → w = v) := by
  constructor
  · rintro ⟨t, ht, rfl, hv⟩
    rw [own, execL_append] at ht
    obtain ⟨u, h1, h2⟩ := ht
    obtain ⟨a1, a2, a3⟩ := (execL_args W args s u).1 h1
    cases hp : m.pure with
    | true =>
      rw [hp, if_pos rfl] at h2
      cases h2 with
      | cons h3 h4 =>
        cases h4; cases h3
        refine ⟨W.fn m.id u.h, ⟨u.h, a1, ?_⟩, fun hr => ?_⟩
        · simp [Contract, hp]
        · rw [← hv hr]; rfl
    | false =>
      rw [hp] at h2
      simp only [Bool.false_eq_true, if_false] at h2
      cases h2 with
      | cons h3 h4 =>
        cases h3 with
        | call _ _ _ w x hc =>
          cases hr : m.returns with
          | true =>
            rw [hr, if_pos rfl] at h4
            cases h4 with
            | cons h5 h6 =>
              cases h6; cases h5
              refine ⟨w, ⟨u.h, a1, ?_⟩, fun _ => ?_⟩
              · simpa [Contract, hp] using hc
              · rw [← hv hr]; simp [value]
          | false =>
            rw [hr] at h4
            simp only [Bool.false_eq_true, if_false] at h4
            cases h4
            exact ⟨w, ⟨u.h, a1, by simpa [Contract, hp] using hc⟩, fun h => by simp at h⟩
  · rintro ⟨w, ⟨h1, ha, hc⟩, hv⟩
    have hargs := (execL_args W args s ⟨h1, s.res, s.ret⟩).2 ⟨ha, rfl, rfl⟩
    cases hp : m.pure with
    | true =>
      simp only [Contract, hp, if_true] at hc
      obtain ⟨rfl, rfl⟩ := hc
      refine ⟨⟨h', s.res, W.fn m.id h'⟩, ?_, rfl, hv⟩
      rw [own, execL_append, hp, if_pos rfl]
      exact ⟨_, hargs, .cons (.ret _ _) (.nil _)⟩
    | false =>
      simp only [Contract, hp, Bool.false_eq_true, if_false] at hc
      cases hr : m.returns with
      | true =>
        refine ⟨⟨h', fun j => if j = i then w else s.res j, w⟩, ?_, rfl, fun _ => hv hr⟩
        rw [own, execL_append, hp]
        simp only [Bool.false_eq_true, if_false, hr, if_true]
        refine ⟨_, hargs, .cons (.call m i _ w h' hc) (.cons ?_ (.nil _))⟩
        have := Exec.ret (W := W) (.res i) ⟨h', fun j => if j = i then w else s.res j, s.ret⟩
        simpa [value] using this
      | false =>
        refine ⟨⟨h', fun j => if j = i then w else s.res j, s.ret⟩, ?_, rfl, fun h => by simp at h⟩
        rw [own, execL_append, hp]
        simp only [Bool.false_eq_true, if_false, hr]
        exact ⟨_, hargs, .cons (.call m i _ w h' hc) (.nil _)⟩

theorem expected_guard (g : Nat → Bool) (L : List Stmt) (i : Nat) (l : List Opt) (hl : ∀ x ∈ l, g x.1 = false) :
    ∀ y ∈ expected L i l, g y.1 = false := by
  induction l generalizing i with
  | nil => simp [expected]
  | cons o l ih =>
    obtain ⟨c, m⟩ := o
    intro y hy
    simp only [expected, List.mem_cons] at hy
    rcases hy with rfl | hy
    · exact hl (c, m) (by simp)
    · exact ih (i + 1) (fun x hx => hl x (List.mem_cons_of_mem _ hx)) y hy

end Nagini.Unions
