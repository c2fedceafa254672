import Verif.Lemmas.Placement
/-!
C136, C137: where contracts may stand and which contracts are used.
-/
namespace Nagini.Placement

open Nagini.Body (Fn Nm)

/-- An ordinary method. -/
abbrev method : U := ⟨false, false, false, false⟩

/-- The statements of a module. -/
abbrev modul : U := ⟨false, false, false, true⟩

/-- **C136, full claim**: accepted units have their contracts where they belong; a contract in any
other place is reported. -/
def AllPlaced : Prop :=
  ∀ (u : U) (ss : List S) (rs : List Rec), run u ss = some rs → Placed u ss

/-- `Requires` as the first statement of the body of a loop. -/
abbrev loopRequires : List S :=
  [.simple 0 [], .whileLoop 1 (.atom 0) [.call (.name .invariant) [.atom 1],
    .call (.name .requires) [.atom 2], .simple 3 []] []]

theorem not_placed_loopRequires : ¬ Placed method loopRequires := by
  rintro ⟨hd, code, tl, heq, hh, hc, ht⟩
  have hmem : S.whileLoop 1 (.atom 0) [.call (.name .invariant) [.atom 1],
      .call (.name .requires) [.atom 2], .simple 3 []] [] ∈ hd ++ code ++ tl := by
    rw [← heq]; simp
  simp only [List.mem_append] at hmem
  rcases hmem with (h | h) | h
  · cases hh _ h
  · have := code_occ (hc _ h) .requires [.atom 2]
      (.whileS _ _ _ _ (.call (.name .requires) [.atom 2]) _ _ (by simp)
        (.call _ _ _ _ (.here .requires _)))
    cases this
  · obtain ⟨_, h, _⟩ := ht _ h; cases h

/-- C136 is violated: `Requires` in front of the code of a loop is accepted and becomes a
precondition of the method. -/
theorem C136_fails : ¬ AllPlaced := by
  intro h
  exact not_placed_loopRequires (h method loopRequires
    [⟨.invariant, some 1, [.atom 1]⟩, ⟨.requires, none, [.atom 2]⟩] rfl)

/-- C136 is violated for methods whose body is not translated: `Requires` in a branch of an `if`
is an unconditional precondition. -/
theorem C136_contract_only_fails :
    ∃ (ss : List S) (rs : List Rec), run ⟨false, false, true, false⟩ ss = some rs ∧
      ⟨.requires, none, [.atom 2]⟩ ∈ rs ∧ ¬ Placed ⟨false, false, true, false⟩ ss := by
  refine ⟨[.block [.atom 1] [.call (.name .requires) [.atom 2]] []],
    [⟨.requires, none, [.atom 2]⟩], rfl, by simp, ?_⟩
  rintro ⟨hd, code, tl, heq, hh, hc, ht⟩
  have hmem : S.block [.atom 1] [.call (.name .requires) [.atom 2]] [] ∈ hd ++ code ++ tl := by
    rw [← heq]; simp
  simp only [List.mem_append] at hmem
  rcases hmem with (h | h) | h
  · cases hh _ h
  · have := code_occ (hc _ h) .requires [.atom 2]
      (.blockS _ _ _ (.call (.name .requires) [.atom 2]) _ _ (by simp)
        (.call _ _ _ _ (.here .requires _)))
    cases this
  · obtain ⟨_, h, _⟩ := ht _ h; cases h

/-- **C136, proved part**: the claim holds for units whose body is translated, without calls that
merely end in the name of a contract function and without method contracts among the statements of
the body of a loop. -/
theorem C136_partial (u : U) (ss : List S) (rs : List Rec) (h : run u ss = some rs)
    (hu : u.contractOnly = false) (hr : regularL ss = true) (hn : noStrayL ss = true) :
    Placed u ss := by
  obtain ⟨hv, hb, hp⟩ := run_some h
  have hinv : ∀ r ∈ rs, r.kind = .invariant → plainEs r.args = true := by
    intro r hr hk
    exact hp r hr (by unfold checked; rw [hk, hu]; rfl)
  have hall := code_ofL u ss none rs hv hinv hr hn
  unfold Placed
  unfold bodyOk at hb
  rw [hu] at hb
  simp only [Bool.false_eq_true, if_false] at hb
  split
  · rename_i hm
    rw [if_pos hm, Bool.and_eq_true, codeSs_all] at hb
    exact fun s hs => hall s hs (hb.2 s hs)
  · rename_i hm
    rw [if_neg hm] at hb
    obtain ⟨hd, code, tl, heq, w1, w2, w3⟩ := window_split hb
    have hkind : ∀ (k : Kind) (args : List E), .call (.name k.nm) args ∈ ss →
        k ≠ .invariant ∧ ∀ e ∈ args, Plain e := by
      intro k args hk
      obtain ⟨x, hx, hxr⟩ := visitSs_mem hv _ hk
      obtain ⟨he, ha⟩ := visit_entry hx
      have hki : k ≠ .invariant := fun hki => by rw [hki] at ha; cases ha
      refine ⟨hki, ?_⟩
      have := hp _ (hxr _ he) (by
        unfold checked
        rw [(entry_kind none k args).1]
        cases k <;> first | (exact absurd rfl hki) | (simpa using hm))
      rw [(entry_kind none k args).2] at this
      exact (plainEs_iff _).1 this
    refine ⟨hd, code, tl, heq, fun s hs => ?_, fun s hs => hall s (by rw [heq]; simp [hs]) (w2 s hs),
      fun s hs => ?_⟩
    · have hss : s ∈ ss := by rw [heq]; simp [hs]
      rcases skipped_cases (regularL_mem hr s hss) (w1 s hs) with e | e | ⟨k, args, e⟩ <;> subst e
      · exact .str
      · exact .glob
      · exact .contract k args (hkind k args hss).1 (hkind k args hss).2
    · have hss : s ∈ ss := by rw [heq]; simp [hs]
      obtain ⟨h1, h2⟩ := w3 s hs
      rcases skipped_cases (regularL_mem hr s hss) h1 with e | e | ⟨k, args, e⟩ <;> subst e
      · simp [toBody, Body.isNamed, Body.funcName] at h2
      · simp [toBody, Body.isNamed, Body.funcName] at h2
      · have hk := named_ensures h2
        subst hk
        exact ⟨args, rfl, (hkind _ args hss).2⟩

/-- **C136, conversely** methods whose contracts are where they belong, in the order of the manual,
are accepted: docstrings, global declarations, preconditions, measures (of pure methods),
postconditions, exceptional postconditions, code, postconditions.  Inlined methods have none of
these contracts. -/
theorem C136_accepts (u : U) (hm : u.isModule = false)
    (docs globs reqs decs ens exs code tl : List S) (h1 : ∀ s ∈ docs, s = .str)
    (h2 : ∀ s ∈ globs, s = .glob) (h3 : ∀ s ∈ reqs, IsContract .requires s)
    (h4 : ∀ s ∈ decs, IsContract .decreases s) (h5 : ∀ s ∈ ens, IsContract .ensures s)
    (h6 : ∀ s ∈ exs, IsContract .exsures s) (hc : ∀ s ∈ code, Tidy s)
    (ht : ∀ s ∈ tl, IsContract .ensures s) (hpure : decs ≠ [] → u.pure = true)
    (hinl : u.inlined = true → reqs = [] ∧ decs = [] ∧ ens = [] ∧ exs = [] ∧ tl = []) :
    ∃ rs, run u (docs ++ globs ++ reqs ++ decs ++ ens ++ exs ++ code ++ tl) = some rs := by
  have hno : ∀ (l : List S) (s : S), s ∈ l → (u.inlined = true → l = []) → u.inlined = false := by
    intro l s hs hl
    cases hi : u.inlined with
    | false => rfl
    | true => rw [hl hi] at hs; cases hs
  obtain ⟨rs, hv, hp⟩ := visit_list (u := u) (cur := none)
    (ss := docs ++ globs ++ reqs ++ decs ++ ens ++ exs ++ code ++ tl) (by
      intro s hs
      simp only [List.mem_append] at hs
      rcases hs with ((((((hs | hs) | hs) | hs) | hs) | hs) | hs) | hs
      · rw [h1 s hs]; exact ⟨[], by rw [visitS], by simp⟩
      · rw [h2 s hs]; exact ⟨[], by rw [visitS], by simp⟩
      · exact visit_isContract (h3 s hs)
          (by simp [allowed, hno reqs s hs (fun h => (hinl h).1)])
      · exact visit_isContract (h4 s hs) (by
          simp [allowed, hno decs s hs (fun h => (hinl h).2.1), hm,
            hpure (List.ne_nil_of_mem hs)])
      · exact visit_isContract (h5 s hs)
          (by simp [allowed, hno ens s hs (fun h => (hinl h).2.2.1)])
      · exact visit_isContract (h6 s hs)
          (by simp [allowed, hno exs s hs (fun h => (hinl h).2.2.2.1), hm])
      · exact tidy_visit (hc s hs) none
      · exact visit_isContract (ht s hs)
          (by simp [allowed, hno tl s hs (fun h => (hinl h).2.2.2.2)]))
  refine ⟨rs, run_of hv ?_ hp⟩
  unfold bodyOk
  split
  · rfl
  · rw [hm]
    refine window_of (sorted_method h1 h2 h3 h4 h5 h6) ?_
      (fun s hs => (contract_named (ht s hs)).2) (fun s hs => tidy_code (hc s hs))
    intro s hs
    simp only [List.mem_append] at hs
    rcases hs with ((((((hs | hs) | hs) | hs) | hs) | hs) | hs) | hs
    · rw [h1 s hs]; simp [toBody, Body.funcName]
    · rw [h2 s hs]; simp [toBody, Body.funcName]
    · exact (contract_named (h3 s hs)).1
    · exact (contract_named (h4 s hs)).1
    · exact (contract_named (h5 s hs)).1
    · exact (contract_named (h6 s hs)).1
    · exact tidy_named (hc s hs)
    · exact (contract_named (ht s hs)).1

/-- **C137, full claim**: every contract in an accepted unit is used: it is among the conditions
that Viper checks. -/
def AllChecked : Prop :=
  ∀ (u : U) (ss : List S) (rs : List Rec), run u ss = some rs → u.contractOnly = false →
    ∀ s ∈ ss, ∀ k as, OccS s k as → ∃ r ∈ rs, r.kind = k ∧ r.args = as ∧ checked u r = true

/-- C137 is violated: `Ensures` in front of the code of a loop in the statements of a module is
accepted and never checked. -/
theorem C137_fails : ¬ AllChecked := by
  intro h
  obtain ⟨r, hr, hk, _, hc⟩ := h modul
    [.whileLoop 1 (.atom 0) [.call (.name .ensures) [.atom 2], .simple 3 []] []]
    [⟨.ensures, none, [.atom 2]⟩] rfl rfl
    (.whileLoop 1 (.atom 0) [.call (.name .ensures) [.atom 2], .simple 3 []] []) (by simp) .ensures [.atom 2]
    (.whileS _ _ _ _ (.call (.name .ensures) [.atom 2]) _ _ (by simp)
      (.call _ _ _ _ (.here .ensures _)))
  rw [List.mem_singleton] at hr
  subst hr
  cases hc

/-- **C137 for methods**: the claim holds for all methods with a body. -/
theorem C137_methods (u : U) (ss : List S) (rs : List Rec) (h : run u ss = some rs)
    (hu : u.contractOnly = false) (hm : u.isModule = false) (s : S) (hs : s ∈ ss) (k : Kind)
    (as : List E) (ho : OccS s k as) :
    ∃ r ∈ rs, r.kind = k ∧ r.args = as ∧ checked u r = true := by
  obtain ⟨hv, hb, _⟩ := run_some h
  unfold bodyOk at hb
  rw [hu, hm] at hb
  simp only [Bool.false_eq_true, if_false] at hb
  obtain ⟨x, hx, hxr⟩ := visitSs_mem hv s hs
  obtain ⟨c, hc⟩ := occS_visit ho hx (window_mem hb s hs)
  refine ⟨_, hxr _ hc, (entry_kind c k as).1, (entry_kind c k as).2, ?_⟩
  unfold checked
  rw [(entry_kind c k as).1, hu, hm]
  cases k <;> rfl

/-- **C137 for modules**: the claim holds without method contracts in loops.  Missing: loops with
such contracts, where the claim is false. -/
theorem C137_partial (u : U) (ss : List S) (rs : List Rec) (h : run u ss = some rs)
    (hu : u.contractOnly = false) (hr : regularL ss = true) (hn : noStrayL ss = true) (s : S)
    (hs : s ∈ ss) (k : Kind) (as : List E) (ho : OccS s k as) :
    ∃ r ∈ rs, r.kind = k ∧ r.args = as ∧ checked u r = true := by
  cases hm : u.isModule with
  | false => exact C137_methods u ss rs h hu hm s hs k as ho
  | true =>
    have hpl := C136_partial u ss rs h hu hr hn
    unfold Placed at hpl
    rw [if_pos hm] at hpl
    have hk := code_occ (hpl s hs) k as ho
    obtain ⟨hv, hb, _⟩ := run_some h
    unfold bodyOk at hb
    rw [hu, hm] at hb
    simp only [Bool.false_eq_true, if_false, if_true] at hb
    rw [Bool.and_eq_true, codeSs_all] at hb
    obtain ⟨x, hx, hxr⟩ := visitSs_mem hv s hs
    obtain ⟨c, hc⟩ := occS_visit ho hx (.inl (hb.2 s hs))
    refine ⟨_, hxr _ hc, (entry_kind c k as).1, (entry_kind c k as).2, ?_⟩
    unfold checked
    rw [(entry_kind c k as).1, hk, hu]
    rfl

/-- **C137, exactly the written contracts**: the contracts of an accepted method are those stated
by its statements and the statements of the bodies of its loops, in the order of the text; the
invariants of a loop are those stated by the statements of its own body. -/
theorem C137_exact (u : U) (ss : List S) (rs : List Rec) (h : run u ss = some rs)
    (hu : u.contractOnly = false) (hm : u.isModule = false) (hr : regularL ss = true) :
    rs = written ss := by
  obtain ⟨hv, hb, hp⟩ := run_some h
  unfold bodyOk at hb
  rw [hu, hm] at hb
  simp only [Bool.false_eq_true, if_false] at hb
  refine visTop u ss rs hv (fun r hrr => hp r hrr ?_) hr (window_mem hb)
  unfold checked
  rw [hu, hm]
  cases r.kind <;> rfl

/-- Non-vacuity: a method with preconditions, a loop with an invariant and a loop in it, and a
postcondition at the end is accepted and has exactly these contracts. -/
abbrev sample : List S :=
  [.str, .call (.name .requires) [.atom 1], .call (.name .requires) [.op 0 [.atom 2]],
   .simple 5 [.call (.name (.user 4)) [.atom 1]],
   .forLoop 6 (.atom 3) (.atom 4) [.call (.name .invariant) [.atom 7],
     .block [.atom 8] [.whileLoop 9 (.atom 3) [.call (.name .invariant) [.atom 10], .simple 11 []] []]
       []] [.simple 12 []],
   .call (.name .ensures) [.atom 13]]

example : run method sample = some [⟨.requires, none, [.atom 1]⟩, ⟨.requires, none, [.op 0 [.atom 2]]⟩,
      ⟨.invariant, some 6, [.atom 7]⟩, ⟨.invariant, some 9, [.atom 10]⟩, ⟨.ensures, none, [.atom 13]⟩] ∧
    regularL sample = true ∧ noStrayL sample = true := ⟨rfl, rfl, rfl⟩

example : Tidy (.whileLoop 1 (.atom 0) ([.str] ++ [] ++ [.call (.name .invariant) [.atom 1]] ++
    [.simple 2 []]) []) :=
  .whileLoop 1 (.atom 0) [.str] [] [.call (.name .invariant) [.atom 1]] [.simple 2 []] []
    (fun _ _ h => by cases h) (by simp) (by simp)
    (by
      intro s hs
      rw [List.mem_singleton] at hs
      exact ⟨[.atom 1], hs, fun e he k as ho => by
        rw [List.mem_singleton] at he
        subst he
        cases ho⟩)
    (by
      intro s hs
      rw [List.mem_singleton] at hs
      rw [hs]
      exact .simple 2 [] (by simp))
    (by simp)

/-- Contracts in code are rejected: in the middle of a method, in a branch, in the `else` block of
a loop, in an expression, in another contract; an invariant outside of loops. -/
example : run method [.simple 0 [], .call (.name .requires) [.atom 1], .simple 2 []] = none ∧
    run method [.block [.atom 0] [.call (.name .ensures) [.atom 1]] []] = none ∧
    run method [.whileLoop 0 (.atom 0) [.simple 1 []] [.call (.name .invariant) [.atom 1]]] = none ∧
    run method [.simple 0 [.call (.name .requires) [.atom 1]]] = none ∧
    run method [.call (.name .requires) [.call (.name .ensures) [.atom 1]]] = none ∧
    run method [.call (.name .invariant) [.atom 1], .simple 0 []] = none := by
  refine ⟨rfl, rfl, rfl, rfl, rfl, rfl⟩

end Nagini.Placement
