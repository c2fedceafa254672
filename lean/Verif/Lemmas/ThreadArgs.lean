import Verif.Model.ThreadArgs

/-! Lemmas about creating and starting threads. -/
namespace Nagini.ThreadArgs

variable {E V X : Type}

/-! ### Type checks -/

theorem foldl_iff (e : E) : ∀ (as : List (E → V)) (ps : List (V → Prop)) (acc : Prop),
    (as.zip ps).foldl (fun acc x => (acc ↔ x.2 (x.1 e))) acc ↔ (acc ↔ Even (wrong ps (vals as e)))
  | [], ps, acc => by cases ps <;> simp [vals, wrong]
  | a :: as, [], acc => by simp [wrong]
  | a :: as, P :: ps, acc => by
    have ih := foldl_iff e as ps (acc ↔ P (a e))
    simp only [List.zip_cons_cons, List.foldl_cons]
    rw [ih]
    by_cases h : P (a e)
    · have hw : wrong (P :: ps) (vals (a :: as) e) = wrong ps (vals as e) := by simp [wrong, vals, h]
      rw [hw]
      simp [h]
    · have hw : wrong (P :: ps) (vals (a :: as) e) = wrong ps (vals as e) + 1 := by simp [wrong, vals, h]
      rw [hw, Nat.even_add_one]
      by_cases hacc : acc <;> simp [h, hacc]

theorem argChecks_iff (e : E) (as : List (E → V)) (ps : List (V → Prop)) :
    argChecks e as ps ↔ Even (wrong ps (vals as e)) := by
  unfold argChecks
  rw [foldl_iff]
  simp

theorem wrong_zero : ∀ {ps : List (V → Prop)} {vs : List V}, vs.length = ps.length →
    (wrong ps vs = 0 ↔ TypesOk ps vs)
  | [], [], _ => by simp [wrong, TypesOk]
  | [], _ :: _, h => by simp at h
  | _ :: _, [], h => by simp at h
  | P :: ps, v :: vs, h => by
    have ih := wrong_zero (ps := ps) (vs := vs) (by simpa using h)
    unfold TypesOk at ih ⊢
    rw [List.forall₂_cons, ← ih]
    by_cases hp : P v <;> simp [wrong, hp]

theorem wrong_le {ps : List (V → Prop)} {vs : List V} : wrong ps vs ≤ ps.length := by
  unfold wrong
  refine Nat.le_trans (List.length_filter_le _ _) ?_
  simp only [List.length_zip]
  omega

/-! ### getArg -/

theorem assumptions_iff (e : E) (G : Ghost V) : ∀ (as : List (E → V)) (i : Nat),
    argAssumptions e G i as ↔ (List.range' i as.length).map G.arg = vals as e
  | [], i => by simp [argAssumptions, vals]
  | a :: as, i => by
    simp [argAssumptions, vals, List.range'_succ, assumptions_iff e G as (i + 1)]

theorem paramVals_eq {e : E} {G : Ghost V} {m : Meth V} {as : List (E → V)} (hl : as.length = m.params.length)
    (h : argAssumptions e G 0 as) : paramVals G m = vals as e := by
  rw [assumptions_iff] at h
  rw [← h, hl, paramVals, List.range_eq_range']

theorem ghost_exists [Nonempty V] (e : E) (t : Nat) (as : List (E → V)) :
    ∃ G : Ghost V, G.meth = t ∧ argAssumptions e G 0 as := by
  obtain ⟨d⟩ := ‹Nonempty V›
  refine ⟨⟨t, fun i => (vals as e).getD i d⟩, rfl, ?_⟩
  rw [assumptions_iff]
  apply List.ext_getElem
  · simp [vals]
  · intro i h1 h2
    simp [List.getElem?_eq_getElem h2]

/-! ### Statements -/

theorem paramTypes_fails (e : E) (G : Ghost V) : ∀ (ps : List (V → Prop)) (i : Nat) (s : St),
    ¬ Fails e G (paramTypes i ps) s
  | [], _, _ => by simp [paramTypes, Fails]
  | _ :: ps, i, s => by
    rintro (h | ⟨m, _, h⟩)
    · exact h
    · exact paramTypes_fails e G ps (i + 1) m h

theorem paramTypes_ends (e : E) (G : Ghost V) : ∀ (ps : List (V → Prop)) (i : Nat) (s s' : St),
    Ends e G (paramTypes i ps) s s' ↔ TypesOk ps ((List.range' i ps.length).map G.arg) ∧ s' = s
  | [], _, _, _ => by simp [paramTypes, Ends, TypesOk]
  | P :: ps, i, s, s' => by
    have ih := fun m => paramTypes_ends e G ps (i + 1) m s'
    simp only [paramTypes, Ends, ih, List.length_cons, List.range'_succ, List.map_cons, TypesOk, List.forall₂_cons]
    constructor
    · rintro ⟨m, ⟨h1, rfl⟩, h2, h3⟩
      exact ⟨⟨h1, h2⟩, h3⟩
    · rintro ⟨⟨h1, h2⟩, h3⟩
      exact ⟨s, ⟨h1, rfl⟩, h2, h3⟩

open Classical in
/-- What starting `opts` adds to the permission to `ThreadPost`. -/
noncomputable def gain (G : Ghost V) (m : Meth V) (n : Nat) : Nat := if m.term (paramVals G m) then n else 0

theorem forkOne_fails (e : E) (G : Ghost V) (m : Meth V) (s : St) :
    Fails e G (forkOne m) s ↔ TypesOk m.params (paramVals G m) ∧ ¬ m.pre (paramVals G m) := by
  simp only [forkOne, Fails, Ends, paramTypes_ends, paramVals, List.range_eq_range']
  constructor
  · rintro (h | ⟨m', ⟨h1, rfl⟩, h2 | ⟨_, _, h⟩⟩)
    · exact (paramTypes_fails _ _ _ _ _ h).elim
    · exact ⟨h1, h2⟩
    · exact h.elim
  · rintro ⟨h1, h2⟩
    exact .inr ⟨s, ⟨h1, rfl⟩, .inl h2⟩

theorem forkOne_ends (e : E) (G : Ghost V) (m : Meth V) (s s' : St) :
    Ends e G (forkOne m) s s' ↔
      TypesOk m.params (paramVals G m) ∧ m.pre (paramVals G m) ∧ s' = ⟨s.start, s.post + gain G m 1⟩ := by
  simp only [forkOne, Ends, paramTypes_ends, ← List.range_eq_range']
  change (∃ x, (TypesOk m.params (paramVals G m) ∧ x = s) ∧ _) ↔ _
  constructor
  · rintro ⟨x, ⟨h1, rfl⟩, y, ⟨h2, rfl⟩, ⟨h3, rfl⟩ | ⟨h3, rfl⟩⟩
    · exact ⟨h1, h2, by simp [gain, h3]⟩
    · exact ⟨h1, h2, by simp [gain, h3]⟩
  · rintro ⟨h1, h2, rfl⟩
    refine ⟨s, ⟨h1, rfl⟩, s, ⟨h2, rfl⟩, ?_⟩
    by_cases h3 : m.term (paramVals G m)
    · exact .inl ⟨h3, by simp [gain, h3]⟩
    · exact .inr ⟨h3, by simp [gain, h3]⟩

theorem forks_ends (ms : Nat → Meth V) (e : E) (G : Ghost V) : ∀ (opts : List Nat) (s s' : St),
    Ends e G (forks ms opts) s s' ↔
      (G.meth ∈ opts → TypesOk (ms G.meth).params (paramVals G (ms G.meth)) ∧ (ms G.meth).pre (paramVals G (ms G.meth))) ∧
      s' = ⟨s.start, s.post + gain G (ms G.meth) (opts.count G.meth)⟩
  | [], s, s' => by simp [forks, Ends, gain]
  | m :: r, s, s' => by
    have ih := fun x => forks_ends ms e G r x s'
    simp only [forks, Ends, ih]
    by_cases hm : G.meth = m
    · subst hm
      simp only [forkOne_ends, true_and, not_true, false_and, or_false, List.mem_cons, true_or, forall_true_left,
        List.count_cons_self]
      constructor
      · rintro ⟨x, ⟨h1, h2, rfl⟩, _, h4⟩
        refine ⟨⟨h1, h2⟩, ?_⟩
        rw [h4]
        by_cases h3 : (ms G.meth).term (paramVals G (ms G.meth)) <;> simp [gain, h3]
        omega
      · rintro ⟨⟨h1, h2⟩, rfl⟩
        refine ⟨_, ⟨h1, h2, rfl⟩, fun _ => ⟨h1, h2⟩, ?_⟩
        by_cases h3 : (ms G.meth).term (paramVals G (ms G.meth)) <;> simp [gain, h3]
        omega
    · simp [hm, Ne.symm hm]

theorem forks_fails (ms : Nat → Meth V) (e : E) (G : Ghost V) : ∀ (opts : List Nat) (s : St),
    Fails e G (forks ms opts) s ↔
      G.meth ∈ opts ∧ TypesOk (ms G.meth).params (paramVals G (ms G.meth)) ∧
        ¬ (ms G.meth).pre (paramVals G (ms G.meth))
  | [], s => by simp [forks, Fails]
  | m :: r, s => by
    have ih := forks_fails ms e G r
    simp only [forks, Fails, Ends, ih]
    by_cases hm : G.meth = m
    · subst hm
      simp only [forkOne_fails, forkOne_ends, true_and, not_true, false_and, or_false, List.mem_cons, true_or]
      constructor
      · rintro (h | ⟨_, ⟨_, h, _⟩, _, _, h'⟩)
        · exact h
        · exact (h' h).elim
      · exact .inl
    · simp [hm]

theorem listed_iff (g : Nat) : ∀ (opts : List Nat) (acc : Prop),
    opts.foldl (fun acc m => acc ∨ g = m) acc ↔ acc ∨ g ∈ opts
  | [], acc => by simp
  | m :: r, acc => by simp [listed_iff g r, or_assoc]

theorem start_ends (ms : Nat → Meth V) (e : E) (G : Ghost V) (opts : List Nat) (s s' : St) :
    Ends e G (start ms opts) s s' ↔
      1 ≤ s.start ∧ G.meth ∈ opts ∧ TypesOk (ms G.meth).params (paramVals G (ms G.meth)) ∧
      (ms G.meth).pre (paramVals G (ms G.meth)) ∧
      s' = ⟨s.start - 1, s.post + gain G (ms G.meth) (opts.count G.meth)⟩ := by
  simp only [start, Ends, listed_iff, false_or, forks_ends]
  constructor
  · rintro ⟨x, ⟨h1, rfl⟩, y, ⟨h2, rfl⟩, h3, h4⟩
    exact ⟨h1, h2, (h3 h2).1, (h3 h2).2, h4⟩
  · rintro ⟨h1, h2, h3, h4, h5⟩
    exact ⟨_, ⟨h1, rfl⟩, _, ⟨h2, rfl⟩, fun _ => ⟨h3, h4⟩, h5⟩

theorem start_fails (ms : Nat → Meth V) (e : E) (G : Ghost V) (opts : List Nat) (s : St) :
    Fails e G (start ms opts) s ↔
      ¬ 1 ≤ s.start ∨ G.meth ∉ opts ∨
      (TypesOk (ms G.meth).params (paramVals G (ms G.meth)) ∧ ¬ (ms G.meth).pre (paramVals G (ms G.meth))) := by
  simp only [start, Fails, Ends, listed_iff, false_or, forks_fails]
  constructor
  · rintro (h | ⟨x, ⟨h1, rfl⟩, h | ⟨y, ⟨h2, rfl⟩, _, h3⟩⟩)
    · exact .inl h
    · exact .inr (.inl h)
    · exact .inr (.inr h3)
  · rintro (h | h | h)
    · exact .inl h
    · by_cases h1 : 1 ≤ s.start
      · exact .inr ⟨_, ⟨h1, rfl⟩, .inl h⟩
      · exact .inl h1
    · by_cases h1 : 1 ≤ s.start
      · by_cases h2 : G.meth ∈ opts
        · exact .inr ⟨_, ⟨h1, rfl⟩, .inr ⟨_, ⟨h2, rfl⟩, h2, h⟩⟩
        · exact .inr ⟨_, ⟨h1, rfl⟩, .inl h2⟩
      · exact .inl h1

/-- The body after creation: starts and the assertion. -/
abbrev rest (ms : Nat → Meth V) (starts : List (List Nat)) (Q : E → Prop) : Cmd E V :=
  .seq (startAll ms starts) (.assert fun e _ => Q e)

theorem rest_fails (ms : Nat → Meth V) (e : E) (G : Ghost V) (starts : List (List Nat)) (Q : E → Prop) :
    Fails e G (rest ms starts Q) ⟨1, 0⟩ ↔
      match starts with
      | [] => ¬ Q e
      | o :: r => G.meth ∉ o ∨ (TypesOk (ms G.meth).params (paramVals G (ms G.meth)) ∧
          ¬ ((ms G.meth).pre (paramVals G (ms G.meth)) ∧ r = [] ∧ Q e)) := by
  match starts with
  | [] => simp [startAll, Fails, Ends]
  | [o] =>
    simp only [startAll, Fails, Ends, start_fails, start_ends]
    constructor
    · rintro ((((h | h | ⟨h1, h2⟩) | ⟨_, _, h⟩)) | ⟨x, ⟨y, ⟨_, _, h3, h4, _⟩, _⟩, h5⟩)
      · exact (h (Nat.le_refl 1)).elim
      · exact .inl h
      · exact .inr ⟨h1, fun h => h2 h.1⟩
      · exact h.elim
      · exact .inr ⟨h3, fun h => h5 h.2.2⟩
    · rintro (h | ⟨h1, h2⟩)
      · exact .inl (.inl (.inr (.inl h)))
      · by_cases hm : G.meth ∈ o
        · by_cases hp : (ms G.meth).pre (paramVals G (ms G.meth))
          · exact .inr ⟨_, ⟨_, ⟨Nat.le_refl 1, hm, h1, hp, rfl⟩, rfl⟩, fun hq => h2 ⟨hp, trivial, hq⟩⟩
          · exact .inl (.inl (.inr (.inr ⟨h1, hp⟩)))
        · exact .inl (.inl (.inr (.inl hm)))
  | o :: o' :: r =>
    simp only [startAll, Fails, Ends, start_fails, start_ends]
    constructor
    · rintro ((((h | h | ⟨h1, h2⟩) | ⟨_, ⟨_, _, h3, _⟩, _⟩)) | ⟨x, ⟨y, ⟨_, _, h3, _⟩, _⟩, _⟩)
      · exact (h (Nat.le_refl 1)).elim
      · exact .inl h
      · exact .inr ⟨h1, fun h => h2 h.1⟩
      · exact .inr ⟨h3, fun h => by cases h.2.1⟩
      · exact .inr ⟨h3, fun h => by cases h.2.1⟩
    · rintro (h | ⟨h1, h2⟩)
      · exact .inl (.inl (.inr (.inl h)))
      · by_cases hm : G.meth ∈ o
        · by_cases hp : (ms G.meth).pre (paramVals G (ms G.meth))
          · exact .inl (.inr ⟨_, ⟨Nat.le_refl 1, hm, h1, hp, rfl⟩, .inl (.inl (by simp))⟩)
          · exact .inl (.inl (.inr (.inr ⟨h1, hp⟩)))
        · exact .inl (.inl (.inr (.inl hm)))

/-- The statements of a creation. -/
abbrev made (ms : Nat → Meth V) (t : Nat) (as : List (E → V)) : Cmd E V :=
  .seq (.assume fun _ G => G.meth = t)
    (.seq (.assert fun e _ => argChecks e as (ms t).params)
      (.seq (.assume fun e G => argAssumptions e G 0 as)
        .giveStart))

theorem create_some {ms : Nat → Meth V} {t : Nat} {recv : Option (E → V)} {args : List (E → V)} {c : Cmd E V}
    (h : create ms t recv args = some c) :
    (methArgs recv args).length = (ms t).params.length ∧ c = made ms t (methArgs recv args) := by
  unfold create at h
  by_cases hl : (methArgs recv args).length = (ms t).params.length
  · refine ⟨hl, ?_⟩
    rw [if_neg (by simpa using hl)] at h
    exact (Option.some.inj h).symm
  · rw [if_pos (by simpa using hl)] at h
    cases h

theorem made_ends (ms : Nat → Meth V) (t : Nat) (as : List (E → V)) (e : E) (G : Ghost V) (s : St) :
    Ends e G (made ms t as) ⟨0, 0⟩ s ↔
      G.meth = t ∧ argChecks e as (ms t).params ∧ argAssumptions e G 0 as ∧ s = ⟨1, 0⟩ := by
  simp only [Ends]
  constructor
  · rintro ⟨x, ⟨h1, rfl⟩, y, ⟨h2, rfl⟩, z, ⟨h3, rfl⟩, h4⟩
    exact ⟨h1, h2, h3, h4⟩
  · rintro ⟨h1, h2, h3, h4⟩
    exact ⟨_, ⟨h1, rfl⟩, _, ⟨h2, rfl⟩, _, ⟨h3, rfl⟩, h4⟩

theorem made_fails (ms : Nat → Meth V) (t : Nat) (as : List (E → V)) (e : E) (G : Ghost V) :
    Fails e G (made ms t as) ⟨0, 0⟩ ↔ G.meth = t ∧ ¬ argChecks e as (ms t).params := by
  simp only [Fails, Ends]
  constructor
  · rintro (h | ⟨x, ⟨h1, rfl⟩, h | ⟨_, _, h | ⟨_, _, h⟩⟩⟩)
    · exact h.elim
    · exact ⟨h1, h⟩
    · exact h.elim
    · exact h.elim
  · rintro ⟨h1, h2⟩
    exact .inr ⟨_, ⟨h1, rfl⟩, .inl h2⟩

/-! ### Arguments of the constructor -/

theorem getArg_expr (pos : List X) (kws : List (Kw × X)) (k : Kw) :
    (getArg pos.length (kws.map (·.1)) k.pos k).bind ((pos ++ kws.map (·.2))[·]?) = binds pos kws k := by
  unfold getArg binds
  by_cases h : pos.length > k.pos
  · rw [if_pos h]
    simp [List.getElem?_append_left h, List.getElem?_eq_getElem h]
  · rw [if_neg h, List.getElem?_eq_none (by omega)]
    have key : ∀ kws : List (Kw × X), (if k ∈ kws.map (·.1) then some (pos.length + (kws.map (·.1)).idxOf k) else none).bind
        ((pos ++ kws.map (·.2))[·]?) = kws.lookup k := by
      intro kws
      induction kws with
      | nil => simp
      | cons x r ih =>
        obtain ⟨k', x⟩ := x
        by_cases hk : k = k'
        · subst hk
          simp [List.lookup]
        · have hb : (k == k') = false := by simpa using hk
          rw [List.lookup_cons, hb]
          simp only [List.map_cons, List.mem_cons, hk, false_or]
          rw [← ih]
          by_cases hm : k ∈ r.map (·.1)
          · have hb' : (k' == k) = false := by simpa using Ne.symm hk
            rw [if_pos hm, if_pos hm, List.idxOf_cons, hb']
            simp [List.getElem?_append_right]
          · rw [if_neg hm, if_neg hm]
            rfl
    exact key kws

theorem getArg_lt (pos : List X) (kws : List (Kw × X)) (k : Kw) {i : Nat}
    (h : getArg pos.length (kws.map (·.1)) k.pos k = some i) : i < (pos ++ kws.map (·.2)).length := by
  unfold getArg at h
  split at h
  · cases h
    simp
    omega
  · split at h
    · rename_i hm
      cases h
      have := List.idxOf_lt_length_of_mem hm
      simp only [List.length_append, List.length_map] at this ⊢
      omega
    · cases h

theorem getArg_none (pos : List X) (kws : List (Kw × X)) (k : Kw) :
    getArg pos.length (kws.map (·.1)) k.pos k = none ↔ binds pos kws k = none := by
  rw [← getArg_expr]
  cases h : getArg pos.length (kws.map (·.1)) k.pos k with
  | none => simp
  | some i =>
    have := getArg_lt pos kws k h
    simp only [Option.bind_some, reduceCtorEq, false_iff]
    rw [List.getElem?_eq_getElem this]
    simp

/-- An index is missed iff there are no positional arguments and the parameter is the first keyword. -/
theorem truthy_iff (pos : List X) (kws : List (Kw × X)) (k : Kw) (hk : k.pos ≠ 0) :
    truthy (getArg pos.length (kws.map (·.1)) k.pos k) = false ↔
      binds pos kws k = none ∨ (pos = [] ∧ kws.head?.map (·.1) = some k) := by
  rw [← getArg_none]
  cases h : getArg pos.length (kws.map (·.1)) k.pos k with
  | none => simp [truthy]
  | some i =>
    simp only [reduceCtorEq, false_or]
    unfold getArg at h
    split at h
    · rename_i hl
      cases h
      constructor
      · intro ht
        cases hi : k.pos with
        | zero => exact (hk hi).elim
        | succ n => rw [hi] at ht; cases ht
      · rintro ⟨rfl, _⟩
        simp at hl
    · split at h
      · rename_i hm
        cases h
        cases pos with
        | cons a p =>
          simp only [List.length_cons, reduceCtorEq, false_and, iff_false, Bool.not_eq_false]
          rw [Nat.add_right_comm]
          rfl
        | nil =>
          simp only [List.length_nil, Nat.zero_add, true_and]
          cases kws with
          | nil => simp at hm
          | cons x r =>
            by_cases hx : x.1 = k
            · subst hx
              simp [truthy]
            · simp only [List.map_cons, List.head?_cons, Option.map_some, Option.some.injEq, hx, iff_false]
              have hb : (x.1 == k) = false := by simpa using hx
              rw [List.idxOf_cons, hb]
              simp [truthy]
      · cases h

end Nagini.ThreadArgs
