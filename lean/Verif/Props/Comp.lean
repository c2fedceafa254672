import Verif.Lemmas.Comp

/-!
C12: what is assumed about the result of a comprehension is true of the container Python builds.
-/
set_option linter.unusedVariables false
namespace Nagini.Comp

/-- **C12** (full claim): if a comprehension is accepted, Python builds a container, and everything that
is assumed about the result holds for it.  `E` is the comparison of sets and dicts. -/
def C12 : Prop :=
  ∀ (E : Val → Val → Bool), (∀ a, E a a = true) → ∀ (src : Src) (k f : Fn) (ifs : List Cond) (ss : List Stmt),
    (translateList src f ifs = .ok ss → accepted src false ss → ∃ r, comp f ifs (elems src) = some r ∧
      ∀ set map, known src false (built src r set map) ss) ∧
    (translateSet src f ifs = .ok ss → accepted src false ss → ∃ S, setComp E f ifs (elems src) = some S ∧
      ∀ seq map, known src false (built src seq (fun a => a ∈ S) map) ss) ∧
    (translateDict src k f ifs = .ok ss → accepted src false ss → ∃ d, dictComp E k f ifs (elems src) = some d ∧
      ∀ seq set, known src false (built src seq set (asMap d)) ss)

/-- **C12** (partial, lists without filter): exactly the list Python builds is assumed, and the
comprehension is accepted if and only if Python raises no exception.  (Missing: dicts as sources, for
which the claim is false.) -/
theorem C12_list_partial (src : Src) (hd : ∀ kvs, src ≠ .dict kvs) (f : Fn) (ss : List Stmt)
    (h : translateList src f [] = .ok ss) :
    (accepted src false ss ↔ (comp f [] (elems src)).isSome) ∧
    ∀ W, known src false W ss ↔ W.src = src ∧ W.typ = true ∧ W.perm = true ∧ comp f [] (elems src) = some W.seq :=
  ⟨list_wd h hd, fun W => list_known h hd W⟩

/-- **C12** (partial, lists): a comprehension, with or without filter, is accepted if and only if Python
raises no exception, and what is assumed holds for Python's list.  (Missing: dicts as sources.) -/
theorem C12_filtered_partial (src : Src) (hd : ∀ kvs, src ≠ .dict kvs) (f : Fn) (ifs : List Cond) (ss : List Stmt)
    (h : translateList src f ifs = .ok ss) :
    (accepted src false ss ↔ (comp f ifs (elems src)).isSome) ∧
    ∀ r, comp f ifs (elems src) = some r → ∀ set map, known src false (built src r set map) ss := by
  unfold translateList at h
  cases hc : filterCond ifs with
  | none =>
    rw [hc] at h
    have := filter_none hc
    subst this
    exact ⟨list_wd h hd, fun r hr set map => (list_known h hd _).2 ⟨rfl, rfl, rfl, hr⟩⟩
  | some p =>
    rw [hc] at h
    have hp := filter_some hc
    refine ⟨filtered_wd h hp hd, fun r hr set map => (filtered_known h hp hd _).2 ⟨rfl, rfl, rfl, comp_length hr, ?_⟩⟩
    intro x hx hpx
    have hfine := (comp_isSome f ifs (elems src)).1 (by rw [hr]; rfl) x hx
    obtain ⟨y, hy⟩ := Option.isSome_iff_exists.1 (hfine.2 hpx)
    exact ⟨y, hy, (mem_comp hr y).2 ⟨x, hx, hpx, hy⟩⟩

/-- What is known after a filtered list comprehension: every value of an element that passes is in the
list.  So assertions about such elements can be proved. -/
theorem C12_filtered_contains (src : Src) (hd : ∀ kvs, src ≠ .dict kvs) (f : Fn) (ifs : List Cond) (ss : List Stmt)
    (h : translateList src f ifs = .ok ss) (W : World) (hk : known src false W ss) (r : List Val)
    (hr : comp f ifs (elems src) = some r) : (∀ y ∈ r, y ∈ W.seq) ∧ W.seq.length ≤ (elems src).length := by
  unfold translateList at h
  cases hc : filterCond ifs with
  | none =>
    rw [hc] at h
    have := filter_none hc
    subst this
    have hk := ((list_known h hd W).1 hk).2.2.2
    rw [hr] at hk
    cases hk
    exact ⟨fun _ hy => hy, comp_length hr⟩
  | some p =>
    rw [hc] at h
    have hk := ((filtered_known h (filter_some hc) hd W).1 hk).2.2.2
    refine ⟨fun y hy => ?_, hk.1⟩
    obtain ⟨x, hx, hp, hf⟩ := (mem_comp hr y).1 hy
    obtain ⟨z, hz, hm⟩ := hk.2 x hx hp
    rw [hf] at hz
    cases hz
    exact hm

/-- **C12** (partial, sets): the comprehension is accepted if and only if Python raises no exception.
What is assumed holds for Python's set if `in` is meant by membership, and for the members themselves if
equal values are identical.  (Missing: equal values that are not identical, and dicts as sources, for
which the claim is false.) -/
theorem C12_set_partial (E : Val → Val → Bool) (hr : ∀ a, E a a = true) (src : Src) (hd : ∀ kvs, src ≠ .dict kvs)
    (f : Fn) (ifs : List Cond) (ss : List Stmt) (h : translateSet src f ifs = .ok ss) :
    (accepted src false ss ↔ (setComp E f ifs (elems src)).isSome) ∧
    (∀ S, setComp E f ifs (elems src) = some S → ∀ seq map,
      known src false (built src seq (fun a => ∃ z ∈ S, E z a = true) map) ss ∧
      (Identity E f (elems src) → known src false (built src seq (fun a => a ∈ S) map) ss)) ∧
    (∀ W, known src false W ss → ∀ S, setComp E f ifs (elems src) = some S → ∀ z ∈ S, W.set z) := by
  refine ⟨?_, ?_, ?_⟩
  · rw [set_wd h hd]
    unfold setComp
    cases comp f ifs (elems src) <;> simp
  · intro S hS seq map
    unfold setComp at hS
    cases hc : comp f ifs (elems src) with
    | none => rw [hc] at hS; cases hS
    | some ys =>
      rw [hc] at hS
      cases hS
      obtain ⟨_, h2, h3⟩ := addSet_fold E hr ys []
      have hval : ∀ x ∈ elems src, passes ifs x = some true → ∃ y, f x = some y ∧ y ∈ ys := by
        intro x hx hp
        have := ((comp_isSome f ifs (elems src)).1 (by rw [hc]; rfl) x hx).2 hp
        obtain ⟨y, hy⟩ := Option.isSome_iff_exists.1 this
        exact ⟨y, hy, (mem_comp hc y).2 ⟨x, hx, hp, hy⟩⟩
      constructor
      · refine (set_known h hd _).2 ⟨rfl, rfl, rfl, fun x hx hp => ?_⟩
        obtain ⟨y, hy, hm⟩ := hval x hx hp
        exact ⟨y, hy, h2 y hm⟩
      · intro hid
        refine (set_known h hd _).2 ⟨rfl, rfl, rfl, fun x hx hp => ?_⟩
        obtain ⟨y, hy, hm⟩ := hval x hx hp
        refine ⟨y, hy, ?_⟩
        obtain ⟨z, hz, hE⟩ := h2 y hm
        rcases h3 z hz with h | h
        · cases h
        · obtain ⟨x', hx', hp', hf'⟩ := (mem_comp hc z).1 h
          have := (hid x' hx' x hx z y hf' hy).1 hE
          subst this
          exact hz
  · intro W hk S hS z hz
    have hk := ((set_known h hd W).1 hk).2.2.2
    unfold setComp at hS
    cases hc : comp f ifs (elems src) with
    | none => rw [hc] at hS; cases hS
    | some ys =>
      rw [hc] at hS
      cases hS
      rcases (addSet_fold E hr ys []).2.2 z hz with h | h
      · cases h
      · obtain ⟨x, hx, hp, hf⟩ := (mem_comp hc z).1 h
        obtain ⟨y, hy, hm⟩ := hk x hx hp
        rw [hf] at hy
        cases hy
        exact hm

/-- **C12** (partial, dicts): if the comprehension is accepted, the values of all elements that pass are
well-defined and equal keys are identical, Python builds a dict, what is assumed holds for it, and at
every key of Python's dict the value is known.  (Missing: values that are not well-defined, equal keys
that are not identical, and dicts as sources; the claim is false for all of them.) -/
theorem C12_dict_partial (E : Val → Val → Bool) (src : Src) (hd : ∀ kvs, src ≠ .dict kvs) (k f : Fn) (ifs : List Cond)
    (ss : List Stmt) (h : translateDict src k f ifs = .ok ss) (ha : accepted src false ss)
    (hval : ∀ x ∈ elems src, passes ifs x = some true → (f x).isSome) (hid : Identity E k (elems src)) :
    ∃ d, dictComp E k f ifs (elems src) = some d ∧ (∀ seq set, known src false (built src seq set (asMap d)) ss) ∧
      ∀ W, known src false W ss → ∀ a, (asMap d a).isSome → W.map a = asMap d a := by
  have hfine := (dict_wd h hd).1 ha
  have hkx : ∀ y ∈ elems src, (k y).isSome ∧ (passes ifs y).isSome := by
    intro y hy
    obtain ⟨pre, post, hs⟩ := List.append_of_mem hy
    obtain ⟨a, h1, h2, _⟩ := hfine pre y post hs
    exact ⟨by rw [h1]; rfl, h2⟩
  have hsome : (comp (pair k f) ifs (elems src)).isSome :=
    (comp_isSome _ ifs _).2 fun x hx => ⟨(hkx x hx).2, fun hp => pair_isSome.2 ⟨(hkx x hx).1, hval x hx hp⟩⟩
  obtain ⟨ps, hps⟩ := Option.isSome_iff_exists.1 hsome
  obtain ⟨d, hdc⟩ : ∃ d, dictComp E k f ifs (elems src) = some d := by
    unfold dictComp
    rw [hps]
    exact ⟨_, rfl⟩
  have hlast : ∀ {pre x post a}, elems src = pre ++ x :: post → passes ifs x = some true → k x = some a →
      Last k ifs a post → ∃ b, f x = some b ∧ asMap d a = some b := by
    intro pre x post a hs hp hka hl
    obtain ⟨b, hb⟩ := Option.isSome_iff_exists.1 (hval x (by rw [hs]; simp) hp)
    exact ⟨b, hb, asMap_last hdc hid hs hka hb hp hl⟩
  refine ⟨d, hdc, fun seq set => (dict_known h hd _).2 ⟨rfl, rfl, rfl, ?_⟩, ?_⟩
  · intro pre x post hs
    obtain ⟨a, hka⟩ := Option.isSome_iff_exists.1 (hkx x (by rw [hs]; simp)).1
    refine ⟨a, hka, fun hp => ⟨?_, fun hl => ?_⟩⟩
    · obtain ⟨pre', x', post', hs', hp', hk', hl'⟩ := last_split (ifs := ifs) (a := a) (fun y hy => (hkx y hy).1)
        ⟨x, by rw [hs]; simp, hp, hka⟩
      obtain ⟨b, _, hb⟩ := hlast hs' hp' hk' hl'
      change (asMap d a).isSome
      rw [hb]
      rfl
    · obtain ⟨b, hb, hm⟩ := hlast hs hp hka hl
      exact ⟨b, hm, hb⟩
  · intro W hW a hda
    have hfacts := ((dict_known h hd W).1 hW).2.2.2
    obtain ⟨pre, x, post, hs, hp, hka, hl⟩ := last_split (fun y hy => (hkx y hy).1) (asMap_keys hdc hda)
    obtain ⟨b, hb, hm⟩ := hlast hs hp hka hl
    obtain ⟨a', hk', hrest⟩ := hfacts pre x post hs
    rw [hka] at hk'
    cases hk'
    obtain ⟨w, hw, hfw⟩ := (hrest hp).2 hl
    rw [hb] at hfw
    cases hfw
    rw [hw, hm]

/-- **C12** (dicts, completeness): if Python raises no exception and the key is well-defined for elements
that do not pass, too, the comprehension is accepted. -/
theorem C12_dict_accepts (E : Val → Val → Bool) (src : Src) (hd : ∀ kvs, src ≠ .dict kvs) (k f : Fn) (ifs : List Cond)
    (ss : List Stmt) (h : translateDict src k f ifs = .ok ss) (hk : ∀ x ∈ elems src, (k x).isSome)
    (hpy : (dictComp E k f ifs (elems src)).isSome) : accepted src false ss := by
  rw [dict_wd h hd]
  have hc : (comp (pair k f) ifs (elems src)).isSome := by
    unfold dictComp at hpy
    cases hc : comp (pair k f) ifs (elems src) with
    | none => rw [hc] at hpy; cases hpy
    | some _ => rfl
  have hfine := (comp_isSome _ ifs _).1 hc
  intro pre x post hs
  have hx : x ∈ elems src := by rw [hs]; simp
  obtain ⟨a, ha⟩ := Option.isSome_iff_exists.1 (hk x hx)
  exact ⟨a, ha, (hfine x hx).1, fun hp _ => (pair_isSome.1 ((hfine x hx).2 hp)).2⟩

/-- The key is evaluated for elements that do not pass: `{10 // x: x for x in [0] if x}` is rejected. -/
theorem C12_dict_key_incomplete :
    ∃ (src : Src) (k f : Fn) (ifs : List Cond) (ss : List Stmt), translateDict src k f ifs = .ok ss ∧
      (dictComp (fun a b => a = b) k f ifs (elems src)).isSome ∧ ¬ accepted src false ss := by
  refine ⟨.list [.int 0], fun x => if x = .int 0 then none else some x, some, [fun x => some (x ≠ .int 0)], _, rfl,
    by decide, ?_⟩
  rw [dict_wd (ifs := [fun x => some (x ≠ .int 0)]) rfl (by intro _ h; cases h)]
  intro h
  obtain ⟨a, ha, _⟩ := h [] (.int 0) [] rfl
  simp at ha

/-- Lists, tuples, `PSeq`s, `bytes` and dicts. -/
inductive Supported : Src → Prop
  | list (xs) : Supported (.list xs)
  | tuple (xs) : Supported (.tuple xs)
  | pseq (xs) : Supported (.pseq xs)
  | bytes (bs) : Supported (.bytes bs)
  | dict (kvs) : Supported (.dict kvs)

/-- Which sources are supported; comprehensions over all others are rejected. -/
theorem C12_sources (src : Src) (k f : Fn) (ifs : List Cond) :
    ((∃ ss, translateList src f ifs = .ok ss) ↔ Supported src) ∧
    ((∃ ss, translateSet src f ifs = .ok ss) ↔ Supported src) ∧
    ((∃ ss, translateDict src k f ifs = .ok ss) ↔ Supported src) := by
  refine ⟨⟨?_, ?_⟩, ⟨?_, ?_⟩, ⟨?_, ?_⟩⟩
  all_goals first
    | (rintro ⟨ss, h⟩; cases src <;> first | constructor | (cases ifs <;> cases h))
    | (intro h; cases h <;> cases ifs <;> exact ⟨_, rfl⟩)

/-- **C12** is false: `[x for x in {0: 5, 1: 6}]` is `[0, 1]`; the encoding says `[5, 6]`. -/
theorem C12_fails : ¬ C12 := by
  intro h
  let src : Src := .dict [(.int 0, .int 5), (.int 1, .int 6)]
  have hit : ∀ n : Int, 0 ≤ n ∧ n < 2 → n = 0 ∨ n = 1 := by omega
  obtain ⟨h1, _, _⟩ := h (fun a b => a = b) (by simp) src some some [] _
  obtain ⟨r, hr, hk⟩ := h1 rfl (by
    refine ⟨fun W hW _ => ?_, trivial⟩
    refine ⟨⟨trivial, fun _ => trivial⟩, fun hp => ⟨⟨by simpa [evalI, holds] using hp, rfl⟩, fun hlen n => ⟨⟨⟨rfl, rfl⟩, fun _ => ⟨rfl, rfl⟩⟩, fun hb => ?_⟩⟩⟩
    simp only [holds, inBounds, evalI, both, if_true, hW] at hb
    have hp1 : W.perm = true := hp.2
    have ht : W.typ = true := hp.1
    have hl : W.seq.length = 2 := by
      simp only [holds, evalI, ht, hp1, both, Bool.and_self, if_true, hW] at hlen
      have : (silSeq src).length = 2 := rfl
      omega
    rcases hit n ⟨hb.1, hb.2⟩ with rfl | rfl
    · simp [wd, evalR, evalI, hW, src, getItem, hp1, hl]
    · simp [wd, evalR, evalI, hW, src, getItem, hp1, hl])
  cases hr
  have hk := (hk (fun _ => True) (fun _ => none)).1.2.2 0
  have := hk (by simp [holds, inBounds, evalI, both, built, src, silSeq])
  simp [holds, evalR, evalI, built, src, getItem, both, elems] at this

/-- Division by the element. -/
def tenOver (x : Val) : Option Val :=
  match x with
  | .int n => if n = 0 then none else some (.int (10 / n))
  | _ => none

/-- **C12** is false for dicts: `{0: 10 // x for x in [0, 1]}` is accepted, although Python raises an
exception, since the value is checked only where no later element has the same key. -/
theorem C12_value_fails :
    ∃ (src : Src) (k f : Fn) (ss : List Stmt), (∀ kvs, src ≠ .dict kvs) ∧ translateDict src k f [] = .ok ss ∧
      accepted src false ss ∧ ∀ E, dictComp E k f [] (elems src) = none := by
  refine ⟨.list [.int 0, .int 1], fun _ => some (.int 0), tenOver, _, (by intro _ h; cases h), rfl, ?_, fun E => rfl⟩
  rw [dict_wd (ifs := []) rfl (by intro _ h; cases h)]
  intro pre x post hs
  refine ⟨.int 0, rfl, rfl, fun _ hl => ?_⟩
  match pre, hs with
  | [], hs =>
    simp only [elems, List.nil_append, List.cons.injEq] at hs
    obtain ⟨_, rfl⟩ := hs
    obtain ⟨b, hb, hne⟩ := hl (.int 1) (by simp) rfl
    cases hb
    exact absurd rfl hne
  | [_], hs =>
    simp only [elems, List.cons_append, List.nil_append, List.cons.injEq] at hs
    obtain ⟨_, rfl, _⟩ := hs
    rfl
  | _ :: _ :: _, hs => simp [elems] at hs

/-- Python's `==` for the values of the model: `1 == True` and `0 == False`. -/
def pyEq (a b : Val) : Bool :=
  match a, b with
  | .int n, .bool c => n = if c then 1 else 0
  | .bool c, .int n => n = if c then 1 else 0
  | a, b => a = b

/-- **C12** is false for sets and dicts with equal values that are not identical: `{x for x in [1, True]}`
has one element, but two different references are known to be in it; `{x: x for x in [1, True]}` maps 1
to True, but is known to map it to 1. -/
theorem C12_equal_fails :
    ∃ (src : Src) (f : Fn) (ss ss' : List Stmt), (∀ kvs, src ≠ .dict kvs) ∧ translateSet src f [] = .ok ss ∧
      translateDict src f f [] = .ok ss' ∧ accepted src false ss ∧ accepted src false ss' ∧
      (∃ S, setComp pyEq f [] (elems src) = some S ∧ S.length = 1) ∧
      (∀ W, known src false W ss → ∃ a b, a ≠ b ∧ W.set a ∧ W.set b) ∧
      (∃ d, dictComp pyEq f f [] (elems src) = some d ∧ asMap d (.int 1) = some (.bool true)) ∧
      (∀ W, known src false W ss' → W.map (.int 1) = some (.int 1)) := by
  refine ⟨.list [.int 1, .bool true], some, _, _, (by intro _ h; cases h), rfl, rfl, ?_, ?_, ⟨_, rfl, by decide⟩, ?_, ⟨_, rfl, by decide⟩, ?_⟩
  · rw [set_wd (ifs := []) rfl (by intro _ h; cases h)]
    decide
  · exact C12_dict_accepts pyEq _ (by intro _ h; cases h) _ _ [] _ rfl (by simp) (by decide)
  · intro W hk
    have hk := ((set_known (ifs := []) rfl (by intro _ h; cases h) W).1 hk).2.2.2
    obtain ⟨a, ha, h1⟩ := hk (.int 1) (by simp [elems]) rfl
    obtain ⟨b, hb, h2⟩ := hk (.bool true) (by simp [elems]) rfl
    cases ha
    cases hb
    exact ⟨.int 1, .bool true, nofun, h1, h2⟩
  · intro W hk
    have hk := ((dict_known (ifs := []) rfl (by intro _ h; cases h) W).1 hk).2.2.2
    obtain ⟨a, ha, h⟩ := hk [] (.int 1) [.bool true] rfl
    cases ha
    obtain ⟨w, hw, hf⟩ := (h rfl).2 (by
      intro y hy _
      simp only [List.mem_singleton] at hy
      subst hy
      exact ⟨_, rfl, nofun⟩)
    cases hf
    exact hw

/-! Cases that meet the hypotheses -/

/-- Increment. -/
def incr (x : Val) : Option Val :=
  match x with
  | .int n => some (.int (n + 1))
  | _ => none

/-- Positive. -/
def pos (x : Val) : Option Bool :=
  match x with
  | .int n => some (decide (0 < n))
  | _ => none

example : ∃ ss, translateList (.tuple [.int 3, .int 4]) incr [] = .ok ss ∧ accepted (.tuple [.int 3, .int 4]) false ss ∧
    ∀ W, known (.tuple [.int 3, .int 4]) false W ss → W.seq = [.int 4, .int 5] := by
  obtain ⟨h1, h2⟩ := C12_list_partial (.tuple [.int 3, .int 4]) (by intro _ h; cases h) incr _ rfl
  refine ⟨_, rfl, h1.2 (by decide), fun W hW => ?_⟩
  have := ((h2 W).1 hW).2.2.2
  simpa [comp, elems, passes, incr] using this.symm

example : ∃ ss, translateList (.list [.int 3, .int 0, .int 4]) tenOver [pos] = .ok ss ∧
    accepted (.list [.int 3, .int 0, .int 4]) false ss ∧
    ∀ W, known (.list [.int 3, .int 0, .int 4]) false W ss → .int 2 ∈ W.seq ∧ .int 3 ∈ W.seq := by
  obtain ⟨h1, h2⟩ := C12_filtered_partial (.list [.int 3, .int 0, .int 4]) (by intro _ h; cases h) tenOver [pos] _ rfl
  refine ⟨_, rfl, h1.2 (by decide), fun W hW => ?_⟩
  have := C12_filtered_contains _ (by intro _ h; cases h) tenOver [pos] _ rfl W hW [.int 3, .int 2] (by decide)
  exact ⟨this.1 _ (by simp), this.1 _ (by simp)⟩

example : ∃ ss, translateSet (.pseq [.int 3, .int 0, .int 3]) incr [pos] = .ok ss ∧
    accepted (.pseq [.int 3, .int 0, .int 3]) false ss ∧
    ∀ W, known (.pseq [.int 3, .int 0, .int 3]) false W ss → W.set (.int 4) := by
  obtain ⟨h1, _, h3⟩ := C12_set_partial pyEq (fun a => by cases a <;> simp [pyEq]) (.pseq [.int 3, .int 0, .int 3])
    (by intro _ h; cases h) incr [pos] _ rfl
  exact ⟨_, rfl, h1.2 (by decide), fun W hW => h3 W hW [.int 4] (by decide) _ (by simp)⟩

example : ∃ ss, translateDict (.bytes [3, 0, 4]) (fun _ => some (.int 7)) tenOver [pos] = .ok ss ∧
    accepted (.bytes [3, 0, 4]) false ss ∧
    ∀ W, known (.bytes [3, 0, 4]) false W ss → W.map (.int 7) = some (.int 2) := by
  have ha := C12_dict_accepts pyEq (.bytes [3, 0, 4]) (by intro _ h; cases h) (fun _ => some (.int 7)) tenOver [pos] _ rfl
    (by simp) (by decide)
  obtain ⟨d, hd, _, h2⟩ := C12_dict_partial pyEq (.bytes [3, 0, 4]) (by intro _ h; cases h) (fun _ => some (.int 7)) tenOver [pos] _ rfl
    ha (by simp [elems, passes, pos, tenOver]) (by
      intro x _ y _ a b ha hb
      cases ha
      cases hb
      simp [pyEq])
  have he : dictComp pyEq (fun _ => some (.int 7)) tenOver [pos] (elems (.bytes [3, 0, 4])) = some [(.int 7, .int 2)] := by decide
  rw [he] at hd
  cases hd
  exact ⟨_, rfl, ha, fun W hW => h2 W hW _ (by decide)⟩

end Nagini.Comp
