import Verif.Lemmas.For

/-!
C13: the iterator encoding of for loops.
-/
set_option linter.unusedVariables false
namespace Nagini.For

variable {V S : Type}

/-- **C13** (full claim): for every accepted loop whose elements have the element type, the runs of the
generated code are the runs of the Python loop, where the body sees the elements before as `Previous(x)`;
the generated invariant holds whenever the head of the loop is reached; the loop is done after the last
element; and all permission for the container is available behind the loop. -/
def C13 : Prop :=
  ∀ (V S : Type) (L : Loop V S) (hasElse : Bool) (p : List VStmt), translateFor L.kind hasElse = .ok p →
    (∀ x ∈ L.contents, L.ty x) → (∀ u x, L.bound (L.bind u x) x) → ∀ (s : St V S), iterNeeds L.kind ≤ s.perm →
    (∀ o u, (∃ s', Exec L p s o s' ∧ s'.user = u) ↔ ∃ e done, PyFor L hasElse [] L.contents s.user e done u ∧ o = outOf e) ∧
    (∀ k t, Reaches L p s k t → (t.err = true ↔ k = L.contents.length) ∧ t.it.prev = L.contents.take k ∧
      holdsAll (invariant L) t) ∧
    (∀ s', Exec L p s .norm s' → s'.perm = s.perm)

/-- **C13** (partial, the runs): every run of the generated code, whatever `__next__` returns within its
contract, is a run of the Python loop, and the other way round.  (Missing: the invariant and the
permissions, which the following theorems are about.) -/
theorem C13_runs_partial (L : Loop V S) (hasElse : Bool) (p : List VStmt) (ht : translateFor L.kind hasElse = .ok p)
    (hty : ∀ x ∈ L.contents, L.ty x) (s : St V S) (hp : iterNeeds L.kind ≤ s.perm) (o : Out) (u : S) :
    (∃ s', Exec L p s o s' ∧ s'.user = u) ↔ ∃ e done, PyFor L hasElse [] L.contents s.user e done u ∧ o = outOf e := by
  constructor
  · rintro ⟨s', h, rfl⟩
    obtain ⟨_, e, done, hpy, ho, _⟩ := for_sound ht h
    exact ⟨e, done, hpy, ho⟩
  · rintro ⟨e, done, hpy, rfl⟩
    exact for_complete ht hty hp hpy

/-- The loop visits the elements in their order and stops after the last one: at the `k`-th arrival at the
head of the loop, either `k` is the number of elements and the loop stops, with all elements as
`Previous(x)`, or the target is bound to the `k`-th element and `Previous(x)` are the elements before. -/
theorem C13_elements (L : Loop V S) (hasElse : Bool) (p : List VStmt) (ht : translateFor L.kind hasElse = .ok p)
    (s t : St V S) (k : Nat) (h : Reaches L p s k t) :
    k ≤ L.contents.length ∧ (t.err = true ↔ k = L.contents.length) ∧ t.it.prev = L.contents.take k ∧
    (t.err = false → L.contents[k]? = some t.cur ∧ ∃ u, t.user = L.bind u t.cur) := by
  obtain ⟨⟨u, hh⟩, _⟩ := reaches_head ht h
  rcases hh with ⟨hlt, he, ha, hc, hu⟩ | ⟨rfl, he, ha, hu, _⟩
  · exact ⟨by omega, by rw [he]; simp; omega, by rw [ha]; rfl, fun _ => ⟨hc, u, hu⟩⟩
  · refine ⟨Nat.le_refl _, by simp [he], by rw [ha, List.take_length], fun h => ?_⟩
    rw [he] at h
    cases h

/-- The generated invariant says exactly this: the temporary variable has the contents, and either the
iterator has returned the element the target is bound to, and `Previous(x)` are the elements before it, or
it is at the end. -/
theorem C13_invariant_exact (L : Loop V S) (s : St V S) : holdsAll (invariant L) s ↔
    invNeeds L.kind ≤ s.perm ∧ s.tmp = L.contents ∧
    ((∃ n, n < L.contents.length ∧ s.err = false ∧ At L.contents (n + 1) s.it ∧ L.contents[n]? = some s.cur ∧ L.ty s.cur ∧
        L.bound s.user s.cur) ∨
     (s.err = true ∧ AtEnd L.contents s.it ∧ (L.contents ≠ [] → L.contents[L.contents.length - 1]? = some s.cur ∧ L.ty s.cur ∧
        L.bound s.user s.cur))) := invariant_iff

/-- The generated invariant is well-defined in every state. -/
theorem C13_invariant_defined (L : Loop V S) (s : St V S) : wdAll (invariant L) s := invariant_wd L s

/-- **C13** (partial, the invariant): when the head of the loop is reached, the generated invariant holds,
except that, when the loop is about to stop, the target has to be bound to the last element still.
(Missing: bodies that assign to the target, for which the claim is false.) -/
theorem C13_invariant_partial (L : Loop V S) (hasElse : Bool) (p : List VStmt) (ht : translateFor L.kind hasElse = .ok p)
    (hty : ∀ x ∈ L.contents, L.ty x) (hb : ∀ u x, L.bound (L.bind u x) x) (s t : St V S) (k : Nat) (h : Reaches L p s k t) :
    holdsAll (invariant L) t ↔ (t.err = true → ∀ x, L.contents.getLast? = some x → L.bound t.user x) := by
  obtain ⟨⟨u, hh⟩, hperm, htmp, hn⟩ := reaches_head ht h
  have hk := translate_kind ht
  rw [C13_invariant_exact]
  have hi : invNeeds L.kind ≤ t.perm := by omega
  simp only [List.getLast?_eq_getElem?]
  rcases hh with ⟨hlt, he, ha, hc, hu⟩ | ⟨rfl, he, ha, hu, hc⟩
  · refine ⟨fun _ h => ?_, fun _ => ⟨hi, htmp, .inl ⟨k, hlt, he, ha, hc, hty _ (List.mem_of_getElem? hc), ?_⟩⟩⟩
    · rw [he] at h; cases h
    · rw [hu]
      exact hb _ _
  · constructor
    · rintro ⟨_, _, ⟨_, _, h, _⟩ | ⟨_, _, h⟩⟩
      · rw [he] at h; cases h
      · intro _ x hx
        have hne : L.contents ≠ [] := by rintro e; rw [e] at hx; simp at hx
        have := h hne
        rw [this.1] at hx
        cases hx
        exact this.2.2
    · intro h
      refine ⟨hi, htmp, .inr ⟨he, ha, fun hne => ?_⟩⟩
      exact ⟨hc hne, hty _ (List.mem_of_getElem? (hc hne)), h he _ (hc hne)⟩

/-- Every iteration keeps the invariant, from any state that satisfies it, unless it was the last one and
the target is not bound to the element any more. -/
theorem C13_invariant_step (L : Loop V S) (hasElse : Bool) (pre b rest : List VStmt)
    (ht : translateFor L.kind hasElse = .ok (pre ++ .loop b :: rest)) (hb : ∀ u x, L.bound (L.bind u x) x)
    (s s' : St V S) (hi : holdsAll (invariant L) s) (he : s.err = false) (hx : Exec L b s .norm s') :
    (holdsAll (invariant L) s' ↔ (s'.err = true → L.bound s'.user s'.cur)) ∧
    (s'.err = true ↔ s.it.idx = L.contents.length) ∧ s'.it.prev = s.it.prev ++ [s.cur] := by
  have hbl : b = loopBody := (loop_parts ht).2
  subst hbl
  obtain ⟨h1, h2, ⟨n, hlt, _, ha, hc, hty, hbd⟩ | ⟨h, _⟩⟩ := (C13_invariant_exact L s).1 hi
  · rcases exec_body.1 hx with ⟨e, v, it', res, err, hen, hbody, hnp, _, rfl⟩ | ⟨_, _, h, _⟩ | ⟨_, _, _, h, _⟩
    · have hprev : s.it.prev ++ [s.cur] = L.contents.take (n + 1) := by
        rw [ha, List.take_add_one, hc]; rfl
      rw [hprev, C13_invariant_exact]
      by_cases hn : n + 1 < L.contents.length
      · obtain ⟨rfl, ha', hc', hty'⟩ := next_more hnp ha hn
        refine ⟨⟨fun _ h => (by cases h), fun _ => ⟨h1, h2, .inl ⟨n + 1, hn, rfl, ha', hc', hty', hb _ _⟩⟩⟩, ?_, ?_⟩
        · have hi : s.it.idx = (n : Int) + 1 := by rw [ha]; rfl
          simp only [advance, Bool.false_eq_true, false_iff]
          omega
        · simp only [advance]
          rw [ha']
          rfl
      · have hl : s.it.list = L.contents := by rw [ha]
        have hi : s.it.idx = (L.contents.length : Int) := by rw [ha]; simp only; omega
        obtain ⟨rfl, ha', hlast⟩ := next_end hnp hl hi
        have hne : L.contents ≠ [] := by rintro e; rw [e] at hlt; simp at hlt
        refine ⟨⟨?_, fun h => ⟨h1, h2, .inr ⟨rfl, ha', fun _ => ⟨(hlast hne).1, (hlast hne).2, h rfl⟩⟩⟩⟩, by simp [advance, hi], ?_⟩
        · rintro ⟨_, _, ⟨_, _, h, _⟩ | ⟨_, _, h⟩⟩
          · cases h
          · exact fun _ => (h hne).2.2
        · simp only [advance]
          rw [ha', List.take_of_length_le (by omega)]
    · cases h
    · cases h
  · rw [he] at h; cases h

/-- The permission for the container behind the loop: all of it if all elements were visited, and without
the share of the iterator otherwise. -/
theorem C13_permission_partial (L : Loop V S) (hasElse : Bool) (p : List VStmt) (ht : translateFor L.kind hasElse = .ok p)
    (s s' : St V S) (o : Out) (h : Exec L p s o s') :
    iterNeeds L.kind ≤ s.perm ∧ ∃ e done, PyFor L hasElse [] L.contents s.user e done s'.user ∧ o = outOf e ∧
      s'.perm = (if done then s.perm else s.perm - delGives L.kind) := by
  obtain ⟨h1, e, done, h2, h3, h4, _⟩ := for_sound ht h
  exact ⟨h1, e, done, h2, h3, h4⟩

/-- The contract of `__next__`: the implementation in the comment satisfies it in every state a loop
reaches, and no implementation can satisfy it if the index is out of bounds. -/
theorem C13_next (ty : V → Prop) (it : It V) (hty : ∀ x ∈ it.list, ty x) (d : V) :
    ((∃ n, n ≤ it.list.length ∧ At it.list n it) ∨ AtEnd it.list it →
      NextPost ty it (nextImpl d it).1 (nextImpl d it).2.1 (nextImpl d it).2.2) ∧
    ((∃ it' res err, NextPost ty it it' res err) → 0 ≤ it.idx ∧ it.idx ≤ it.list.length) := by
  constructor
  · rintro (⟨n, hn, ha⟩ | ha)
    · exact impl_at hty hn ha d
    · exact impl_end hty ha d
  · rintro ⟨it', res, err, h⟩
    cases err with
    | true =>
      have := h.stops.2 rfl
      omega
    | false =>
      have h1 := h.inc rfl
      have h2 := h.pos rfl
      have h3 := h.le
      rw [h.same] at h3
      omega

/-- The contract of `__next__` determines what it does in every state a loop reaches: before the end, the
next element is returned; at the end, the end is reported, and stays so. -/
theorem C13_next_unique (ty : V → Prop) (it it' : It V) (res : V) (err : Bool) (h : NextPost ty it it' res err) :
    (∀ n, n < it.list.length → At it.list n it → err = false ∧ At it.list (n + 1) it' ∧ it.list[n]? = some res) ∧
    (At it.list it.list.length it ∨ AtEnd it.list it → err = true ∧ AtEnd it.list it') := by
  refine ⟨fun n hn ha => ?_, fun hor => ?_⟩
  · obtain ⟨h1, h2, h3, _⟩ := next_more h ha hn
    exact ⟨h1, h2, h3⟩
  · have hi : it.idx = (it.list.length : Int) := by
      rcases hor with ha | ha
      · exact congrArg It.idx ha
      · exact congrArg It.idx ha
    obtain ⟨h1, h2, _⟩ := next_end h rfl hi
    exact ⟨h1, h2⟩

/-- Which loops are accepted. -/
theorem C13_accepted (k : Kind) (hasElse : Bool) :
    ((∃ p, translateFor k hasElse = .ok p) ↔ k = .list ∨ k = .set ∨ k = .dict ∨ k = .bytearray ∨ k = .range) ∧
    (translateFor k hasElse = .error .unsupported ↔ k = .bytes) := by
  constructor
  · cases k <;> simp [translateFor, targetKnown, invKnown]
  · cases k <;> simp [translateFor, targetKnown, invKnown]

/-! A loop over `[7, 8]` that counts -/

/-- The state are the target and a sum; `mode` 0: `s += x`; 1: `x = 0`; 2: `break`. -/
def sample (mode : Nat) (xs : List Nat) : Loop Nat (Nat × Nat) where
  kind := .list
  contents := xs
  ty := fun _ => True
  bind := fun s x => (x, s.2)
  bound := fun s x => s.1 = x
  body := fun _ s e s' => match mode with
    | 0 => e = .norm ∧ s' = (s.1, s.2 + s.1)
    | 1 => e = .norm ∧ s' = (0, s.2)
    | _ => e = .brk ∧ s' = s
  orelse := fun _ _ _ => False

def sampleStart (perm : Int) : St Nat (Nat × Nat) := ⟨⟨[], 0, []⟩, 0, false, [], (0, 0), perm, false⟩

theorem sample_runs : ∃ s', Exec (sample 0 [7, 8]) ([.iter, .next, .assignIf, .tmp, .loop loopBody] ++ tail false) (sampleStart 20) .norm s' ∧
    s'.user = (8, 15) := by
  refine (C13_runs_partial (sample 0 [7, 8]) false _ rfl (fun _ _ => trivial) (sampleStart 20) (by decide) .norm (8, 15)).2
    ⟨.behind, true, ?_, rfl⟩
  exact .step _ _ _ _ (7, 7) _ _ _ .norm (.inl rfl) ⟨rfl, rfl⟩ (.step _ _ _ _ (8, 15) _ _ _ .norm (.inl rfl) ⟨rfl, rfl⟩ (.done _ _ _ _ rfl))

/-- A run that reaches the end of a loop with one element. -/
theorem sample_reaches (mode : Nat) (hm : mode < 2) (perm : Int) (hp : 2 ≤ perm) :
    ∃ t, Reaches (sample mode [7]) ([.iter, .next, .assignIf, .tmp, .loop loopBody] ++ tail false) (sampleStart perm) 1 t ∧
      t.err = true ∧ t.user = (if mode = 0 then (7, 7) else (0, 0)) := by
  have h0 := impl_at (ty := fun _ : Nat => True) (xs := [7]) (fun _ _ => trivial) (n := 0) (by simp) (at_zero _) 0
  have h1 := impl_at (ty := fun _ : Nat => True) (xs := [7]) (fun _ _ => trivial) (n := 1) (by simp) (it := ⟨[7], 1, []⟩) rfl 0
  refine ⟨_, ⟨[.iter, .next, .assignIf, .tmp], loopBody, tail false, _, rfl, (exec_start (r := [])).2 ⟨hp, _, _, _, h0, .nil _⟩,
    .again _ _ _ .first rfl (exec_body.2 (.inl ⟨.norm, if mode = 0 then (7, 7) else (0, 0), _, _, _, .inl rfl, ?_, h1, rfl, rfl⟩))⟩, rfl, rfl⟩
  match mode, hm with
  | 0, _ => exact ⟨rfl, rfl⟩
  | 1, _ => exact ⟨rfl, rfl⟩

/-- The claim is false: a body that assigns to the loop variable is fine in Python, but does not keep the
generated invariant in the last iteration. -/
theorem C13_fails : ¬ C13 := by
  intro h
  obtain ⟨t, hr, he, hu⟩ := sample_reaches 1 (by decide) 20 (by decide)
  have h := (h _ _ (sample 1 [7]) false _ rfl (fun _ _ => trivial) (fun _ _ => rfl) (sampleStart 20) (by decide)).2.1 1 t hr
  have := (C13_invariant_partial (sample 1 [7]) false _ rfl (fun _ _ => trivial) (fun _ _ => rfl) _ _ _ hr).1 h.2.2 he 7 rfl
  change t.user.1 = 7 at this
  rw [hu] at this
  cases this

/-- The claim is also false because `break` does not give back the permission that the iterator has. -/
theorem C13_break_fails : ∃ (L : Loop Nat (Nat × Nat)) (p : List VStmt) (s s' : St Nat (Nat × Nat)), translateFor L.kind false = .ok p ∧
    iterNeeds L.kind ≤ s.perm ∧ Exec L p s .norm s' ∧ s'.perm < s.perm := by
  obtain ⟨s', hs, _⟩ := (C13_runs_partial (sample 2 [7]) false _ rfl (fun _ _ => trivial) (sampleStart 20) (by decide) .norm (7, 0)).2
    ⟨.behind, false, .brk _ _ _ _ _ ⟨rfl, rfl⟩, rfl⟩
  refine ⟨sample 2 [7], _, sampleStart 20, s', rfl, by decide, hs, ?_⟩
  obtain ⟨_, e, done, hpy, _, hperm⟩ := C13_permission_partial (sample 2 [7]) false _ rfl _ _ _ hs
  cases hpy with
  | step _ _ _ _ _ _ _ _ o ho hb _ =>
    have := hb.1
    subst this
    rcases ho with h | h <;> cases h
  | brk => rw [hperm]; decide
  | leave _ _ _ _ _ n hb => cases hb.1

/-! The hypotheses can be met -/

example : ∃ s', Exec (sample 0 [7, 8]) ([.iter, .next, .assignIf, .tmp, .loop loopBody] ++ tail false) (sampleStart 20) .norm s' ∧
    s'.perm = 20 := by
  obtain ⟨s', h, _⟩ := sample_runs
  refine ⟨s', h, ?_⟩
  obtain ⟨_, e, done, hpy, _, hperm⟩ := C13_permission_partial (sample 0 [7, 8]) false _ rfl _ _ _ h
  rw [hperm]
  cases hpy with
  | step _ _ _ _ _ _ _ _ _ _ _ hpy => cases hpy with
    | step _ _ _ _ _ _ _ _ _ _ _ hpy => cases hpy; rfl
    | brk _ _ _ _ _ hb => cases hb.1
    | leave _ _ _ _ _ _ hb => cases hb.1
  | brk _ _ _ _ _ hb => cases hb.1
  | leave _ _ _ _ _ _ hb => cases hb.1

example : ∃ t, Reaches (sample 0 [7]) ([.iter, .next, .assignIf, .tmp, .loop loopBody] ++ tail false) (sampleStart 20) 1 t ∧
    t.it.prev = [7] ∧ holdsAll (invariant (sample 0 [7])) t := by
  obtain ⟨t, hr, he, hu⟩ := sample_reaches 0 (by decide) 20 (by decide)
  refine ⟨t, hr, (C13_elements (sample 0 [7]) false _ rfl _ _ _ hr).2.2.1,
    (C13_invariant_partial (sample 0 [7]) false _ rfl (fun _ _ => trivial) (fun _ _ => rfl) _ _ _ hr).2 fun _ x hx => ?_⟩
  cases hx
  change t.user.1 = 7
  rw [hu]
  rfl

example : NextPost (fun _ : Nat => True) ⟨[7, 8], 1, []⟩ ⟨[7, 8], 2, [7]⟩ 8 false :=
  (C13_next _ ⟨[7, 8], 1, []⟩ (fun _ _ => trivial) 0).1 (.inl ⟨1, by simp, rfl⟩)

end Nagini.For
