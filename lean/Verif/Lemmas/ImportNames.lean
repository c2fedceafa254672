import Verif.Model.ImportNames

/-!
Lemmas for C146.
-/
namespace Nagini.ImportNames

variable {N : Type}

/-- `p` is the name of a value. -/
def R (env : Env) (p : Path) : Prop := resolve env p = some .val

theorem R_nil (env : Env) : ¬ R env [] := by simp [R, resolve]

theorem R_empty : ∀ p, ¬ R [] p
  | [] => by simp [R, resolve]
  | [x] => by simp [R, resolve, get]
  | x :: y :: p => by simp [R, resolve, get]

theorem R_ne {env : Env} {p : Path} (h : R env p) : p ≠ [] := by
  rintro rfl; exact R_nil env h

theorem R_define {env : Env} {x : Int} (h : NoModule env x) (p : Path) :
    R ((x, .val) :: env) p ↔ R env p ∨ p = [x] := by
  match p with
  | [] => simp [R, resolve]
  | [y] =>
    by_cases e : x = y
    · simp [R, resolve, get, e]
    · simp [R, resolve, get, e, Ne.symm e]
  | y :: z :: p =>
    by_cases e : x = y
    · subst e
      have := h
      cases hg : get env x with
      | none => simp [R, resolve, get, hg]
      | some o =>
        cases o with
        | val => simp [R, resolve, get, hg]
        | mod as => exact absurd hg (h as)
    · simp [R, resolve, get, e]

theorem get_append (a b : Env) (x : Int) : get (a ++ b) x = (get a x).or (get b x) := by
  induction a with
  | nil => simp [get]
  | cons e a ih =>
    obtain ⟨y, o⟩ := e
    by_cases h : y = x
    · simp [get, h]
    · simp [get, h, ih]

theorem R_all {a env : Env}
    (h : ∀ x, get a x ≠ none → get env x ≠ none → get a x = some .val ∧ get env x = some .val) (p : Path) :
    R (a ++ env) p ↔ R env p ∨ R a p := by
  match p with
  | [] => simp [R, resolve]
  | [x] =>
    have hx := h x
    cases ha : get a x <;> cases he : get env x <;> simp_all [R, resolve, get_append]
  | x :: y :: p =>
    have hx := h x
    cases ha : get a x <;> cases he : get env x <;> simp_all [R, resolve, get_append]

theorem R_bind (o : Env) : ∀ (p : Path) (env : Env) (q : Path), FreshPath env p →
    (R (bind env p (.mod o)) q ↔ R env q ∨ ∃ r, q = p ++ r ∧ R o r)
  | [], env, q, h => by simp [FreshPath] at h
  | [x], env, q, h => by
    simp only [FreshPath] at h
    match q with
    | [] => simp [R, resolve]
    | [y] =>
      by_cases e : x = y
      · subst e
        have h0 := R_nil o
        simp only [R, bind, resolve, get, if_true, h] at h0 ⊢
        simp [resolve]
      · simp [R, bind, resolve, get, e, Ne.symm e]
    | y :: z :: t =>
      by_cases e : x = y
      · subst e
        simp [R, bind, resolve, get, h]
      · simp [R, bind, resolve, get, e, Ne.symm e]
  | x :: y :: p, env, q, h => by
    have hb : ∃ bs, bind env (x :: y :: p) (.mod o) = (x, .mod (bind bs (y :: p) (.mod o))) :: env ∧
        FreshPath bs (y :: p) ∧ (∀ z t, resolve env (x :: z :: t) = some .val ↔ R bs (z :: t)) ∧
        get env x ≠ some .val := by
      cases hg : get env x with
      | none =>
        refine ⟨[], by simp [bind, hg], ?_, ?_, by simp⟩
        · cases p <;> simp [FreshPath, get]
        · intro z t
          simp only [resolve, hg]
          exact ⟨fun h => by simp at h, fun h => absurd h (R_empty _)⟩
      | some v =>
        cases v with
        | val => simp [FreshPath, hg] at h
        | mod bs =>
          refine ⟨bs, by simp [bind, hg], by simpa [FreshPath, hg] using h, ?_, by simp⟩
          intro z t
          simp only [resolve, hg, R]
    obtain ⟨bs, h1, h2, h3, h4⟩ := hb
    rw [h1]
    match q with
    | [] => simp [R, resolve]
    | [w] =>
      by_cases e : x = w
      · subst e
        simp [R, resolve, get, h4]
      · simp [R, resolve, get, e]
    | w :: z :: t =>
      by_cases e : x = w
      · subst e
        have ih := R_bind o (y :: p) bs (z :: t) h2
        have e1 : R ((x, .mod (bind bs (y :: p) (.mod o))) :: env) (x :: z :: t) ↔
            R (bind bs (y :: p) (.mod o)) (z :: t) := by
          simp only [R, resolve, get, if_true]
        have e2 : R env (x :: z :: t) ↔ R bs (z :: t) := h3 z t
        rw [e1, e2, ih]
        simp
      · simp [R, resolve, get, e, Ne.symm e]

/-! ### Encoded names -/

theorem Axioms.single_inj {D : Dom N} (h : Axioms D) {i j : Int} (e : D.single i = D.single j) : i = j := by
  rw [← h.decompose_single i, e, h.decompose_single]

theorem Axioms.combine_inj {D : Dom N} (h : Axioms D) {a b c d : N} (e : D.combine a b = D.combine c d) :
    a = c ∧ b = d := by
  have h1 := h.decompose_combined a b
  rw [e, (h.decompose_combined c d).1, (h.decompose_combined c d).2] at h1
  exact ⟨h1.1.symm, h1.2.symm⟩

theorem Axioms.single_ne {D : Dom N} (h : Axioms D) {i : Int} {a b : N} : D.single i ≠ D.combine a b := by
  intro e
  have h1 := h.type_of_single i
  rw [e, h.type_of_composed] at h1
  cases h1

theorem enc_inj {D : Dom N} (h : Axioms D) : ∀ {p q : Path}, p ≠ [] → q ≠ [] → enc D p = enc D q → p = q
  | [], _, hp, _, _ => absurd rfl hp
  | _ :: _, [], _, hq, _ => absurd rfl hq
  | [x], [y], _, _, e => by rw [h.single_inj e]
  | [x], y :: z :: q, _, _, e => absurd e h.single_ne
  | x :: w :: p, [y], _, _, e => absurd e.symm h.single_ne
  | x :: w :: p, y :: z :: q, _, _, e => by
    obtain ⟨e1, e2⟩ := h.combine_inj e
    rw [h.single_inj e1, enc_inj h (by simp) (by simp) e2]

theorem combineAll_inj {D : Dom N} (h : Axioms D) : ∀ {p : Path} {a b : N},
    combineAll D p a = combineAll D p b → a = b
  | [], _, _, e => e
  | _ :: _, _, _, e => combineAll_inj h (h.combine_inj e).2

theorem combineAll_enc (D : Dom N) : ∀ (p q : Path), q ≠ [] → combineAll D p (enc D q) = enc D (p ++ q)
  | [], _, _ => rfl
  | x :: p, q, hq => by
    have ih := combineAll_enc D p q hq
    have : ∃ y t, p ++ q = y :: t := by
      cases hpq : p ++ q with
      | nil => exact absurd (List.append_eq_nil_iff.1 hpq).2 hq
      | cons y t => exact ⟨y, t, rfl⟩
    obtain ⟨y, t, ht⟩ := this
    simp only [List.cons_append, ht, enc]
    rw [← ht, ← ih]
    rfl

/-- All elements of `V` are names of values. -/
def Sub (D : Dom N) (V : N → Prop) (env : Env) : Prop := ∀ n, V n → ∃ p, n = enc D p ∧ R env p
/-- All names of values are elements of `V`. -/
def Sup (D : Dom N) (V : N → Prop) (env : Env) : Prop := ∀ p, R env p → V (enc D p)

theorem sound {D : Dom N} (h : Axioms D) {M : Nat → N → Prop} {K : (N → Prop) → Prop} {A : Nat → Env}
    (hM : ∀ m, Sub D (M m) (A m)) : ∀ (ss : List Stmt) (env : Env) (V : N → Prop), Tidy A env ss → Sub D V env →
      Verified D M K V ss → ∃ env' V', exec A env ss = some env' ∧ Sub D V' env' ∧ K V'
  | [], env, V, _, hV, hv => ⟨env, V, rfl, hV, hv⟩
  | .define x :: ss, env, V, ht, hV, hv => by
    refine sound h hM ss _ _ ht.2 ?_ hv
    rintro n (hn | rfl)
    · obtain ⟨p, e, hp⟩ := hV n hn
      exact ⟨p, e, (R_define ht.1 p).2 (.inl hp)⟩
    · exact ⟨[x], rfl, (R_define ht.1 _).2 (.inr rfl)⟩
  | .imp p m :: ss, env, V, ht, hV, hv => by
    have hS := hv (fun n => ∃ k, M m k ∧ n = combineAll D p k) (by
      intro n
      constructor
      · intro hn; exact ⟨n, hn, rfl⟩
      · rintro ⟨k, hk, e⟩
        rw [combineAll_inj h e]; exact hk)
    refine sound h hM ss _ _ ht.2 ?_ hS
    rintro n (hn | ⟨k, hk, rfl⟩)
    · obtain ⟨q, e, hq⟩ := hV n hn
      exact ⟨q, e, (R_bind _ p env q ht.1).2 (.inl hq)⟩
    · obtain ⟨q, rfl, hq⟩ := hM m k hk
      exact ⟨p ++ q, combineAll_enc D p q (R_ne hq), (R_bind _ p env _ ht.1).2 (.inr ⟨q, rfl, hq⟩)⟩
  | .from m x y :: ss, env, V, ht, hV, hv => by
    obtain ⟨h1, h2⟩ := hv
    obtain ⟨q, e, hq⟩ := hM m _ h1
    have hx : q = [x] := (enc_inj h (by simp) (R_ne hq) (p := [x]) e).symm
    subst hx
    have hg : get (A m) x = some .val := hq
    have := sound h hM ss ((y, .val) :: env) _ ht.2 (by
      rintro n (hn | rfl)
      · obtain ⟨p, e, hp⟩ := hV n hn
        exact ⟨p, e, (R_define ht.1 p).2 (.inl hp)⟩
      · exact ⟨[y], rfl, (R_define ht.1 _).2 (.inr rfl)⟩) h2
    simpa only [exec, hg] using this
  | .all m :: ss, env, V, ht, hV, hv => by
    refine sound h hM ss _ _ ht.2 ?_ hv
    rintro n (hn | hn)
    · obtain ⟨p, e, hp⟩ := hV n hn
      exact ⟨p, e, (R_all ht.1 p).2 (.inl hp)⟩
    · obtain ⟨p, e, hp⟩ := hM m n hn
      exact ⟨p, e, (R_all ht.1 p).2 (.inr hp)⟩
  | .use x p :: ss, env, V, ht, hV, hv => by
    obtain ⟨h1, h2⟩ := hv
    obtain ⟨q, e, hq⟩ := hV _ h1
    have hx : q = x :: p := (enc_inj h (by simp) (R_ne hq) e).symm
    subst hx
    have hg : resolve env (x :: p) = some .val := hq
    simpa only [exec, hg] using sound h hM ss env V ht hV h2

theorem complete {D : Dom N} {M : Nat → N → Prop} {K : (N → Prop) → Prop} {A : Nat → Env}
    (hM : ∀ m, Sup D (M m) (A m)) : ∀ (ss : List Stmt) (env env' : Env) (V : N → Prop), Tidy A env ss →
      (∀ k x y, Stmt.from k x y ∈ ss → NoModule (A k) x) → Sup D V env →
      exec A env ss = some env' → (∀ V', Sup D V' env' → K V') → Verified D M K V ss
  | [], env, env', V, _, _, hV, he, hK => by
    simp only [exec, Option.some.injEq] at he
    subst he
    exact hK V hV
  | .define x :: ss, env, env', V, ht, hf, hV, he, hK => by
    refine complete hM ss _ env' _ ht.2 (fun k x y h => hf k x y (by simp [h])) ?_ he hK
    intro p hp
    rcases (R_define ht.1 p).1 hp with hp | rfl
    · exact .inl (hV p hp)
    · exact .inr rfl
  | .imp p m :: ss, env, env', V, ht, hf, hV, he, hK => by
    intro S hS
    refine complete hM ss _ env' _ ht.2 (fun k x y h => hf k x y (by simp [h])) ?_ he hK
    intro q hq
    rcases (R_bind _ p env q ht.1).1 hq with hq | ⟨r, rfl, hr⟩
    · exact .inl (hV q hq)
    · refine .inr ?_
      rw [← combineAll_enc D p r (R_ne hr)]
      exact (hS _).1 (hM m r hr)
  | .from m x y :: ss, env, env', V, ht, hf, hV, he, hK => by
    cases hg : get (A m) x with
    | none => simp [exec, hg] at he
    | some o =>
      cases o with
      | mod as => exact absurd hg (hf m x y (by simp) as)
      | val =>
        simp only [exec, hg] at he
        refine ⟨hM m [x] hg, complete hM ss _ env' _ ht.2 (fun k x y h => hf k x y (by simp [h])) ?_ he hK⟩
        intro p hp
        rcases (R_define ht.1 p).1 hp with hp | rfl
        · exact .inl (hV p hp)
        · exact .inr rfl
  | .all m :: ss, env, env', V, ht, hf, hV, he, hK => by
    refine complete hM ss _ env' _ ht.2 (fun k x y h => hf k x y (by simp [h])) ?_ he hK
    intro p hp
    rcases (R_all ht.1 p).1 hp with hp | hp
    · exact .inl (hV p hp)
    · exact .inr (hM m p hp)
  | .use x p :: ss, env, env', V, ht, hf, hV, he, hK => by
    cases hg : resolve env (x :: p) with
    | none => simp [exec, hg] at he
    | some o =>
      cases o with
      | mod as => simp [exec, hg] at he
      | val =>
        simp only [exec, hg] at he
        exact ⟨hV _ hg, complete hM ss env env' V ht (fun k x y h => hf k x y (by simp [h])) hV he hK⟩

end Nagini.ImportNames
