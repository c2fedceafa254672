import Verif.Model.Coverage
import Verif.Lemmas.Names

/-! Lemmas about names, method lookup and the members given to Viper (C124, C125). -/
set_option linter.unusedVariables false
namespace Nagini.Coverage

theorem fresh_not_mem (used : List Str) (n : Str) : fresh used n ∉ used := by
  unfold fresh
  cases h : Names.getFreshName (used.length + 1) (fun _ => used) (.root 0) n with
  | some r => exact (Names.getFreshName_spec (r := r.1) (σ' := r.2) h).1
  | none =>
    exfalso
    unfold Names.getFreshName at h
    split at h
    · have ht := Names.searchName_total (fun _ => used) (.root 0) n (used.length + 1) 0 (by simp)
      split at h
      · simp at h
      · next hs => rw [hs] at ht; simp at ht
    · simp at h

theorem search_candidate {σ : Names.Store} {sc : Names.Scope} {n r : Str} :
    ∀ {fuel c}, Names.searchName σ sc n fuel c = some r → (95 : Nat) ∈ r := by
  intro fuel
  induction fuel with
  | zero => intro c h; simp [Names.searchName] at h
  | succ f ih =>
    intro c h
    rw [Names.searchName] at h
    split at h
    · exact ih h
    · simp at h; subst h; simp [Names.candidate]

theorem fresh_cases (used : List Str) (n : Str) : (n ∉ used ∧ fresh used n = n) ∨ (n ∈ used ∧ (95 : Nat) ∈ fresh used n) := by
  by_cases hn : n ∈ used
  · right
    refine ⟨hn, ?_⟩
    have hc : Names.containsName (fun _ => used) (.root 0) n = true := by simpa [Names.containsName] using hn
    have ht := Names.searchName_total (fun _ => used) (.root 0) n (used.length + 1) 0 (by simp)
    cases hs : Names.searchName (fun _ => used) (.root 0) n (used.length + 1) 0 with
    | none => rw [hs] at ht; simp at ht
    | some r =>
      have : fresh used n = r := by simp [fresh, Names.getFreshName, hc, hs]
      rw [this]; exact search_candidate hs
  · left
    have hc : Names.containsName (fun _ => used) (.root 0) n = false := by simpa [Names.containsName] using hn
    exact ⟨hn, by simp [fresh, Names.getFreshName, hc]⟩

theorem assign_not_used {rs : List (Key × Str)} : ∀ {used : List Str} {e}, e ∈ assign used rs → e.2 ∉ used := by
  induction rs with
  | nil => intro used e h; simp [assign] at h
  | cons r rs ih =>
    intro used e h
    simp only [assign, List.mem_cons] at h
    rcases h with rfl | h
    · exact fresh_not_mem _ _
    · have := ih h; simp at this; exact this.2

/-- Different entries have different names. -/
theorem assign_inj {rs : List (Key × Str)} : ∀ {used : List Str} {e f}, e ∈ assign used rs → f ∈ assign used rs →
    e.2 = f.2 → e = f := by
  induction rs with
  | nil => intro used e f h; simp [assign] at h
  | cons r rs ih =>
    intro used e f he hf hef
    simp only [assign, List.mem_cons] at he hf
    rcases he with rfl | he <;> rcases hf with rfl | hf
    · rfl
    · have := assign_not_used hf; simp at this; exact absurd hef.symm this.1
    · have := assign_not_used he; simp at this; exact absurd hef this.1
    · exact ih he hf hef

theorem assign_keys (rs : List (Key × Str)) : ∀ used, (assign used rs).map Prod.fst = rs.map Prod.fst := by
  induction rs with
  | nil => intro used; rfl
  | cons r rs ih => intro used; simp [assign, ih]

theorem silName_mem {p sel M k n} (h : silName p sel M k = some n) : (k, n) ∈ namesOf p sel M := by
  unfold silName at h
  cases hf : (namesOf p sel M).find? fun e => decide (e.1 = k) with
  | none => simp [hf] at h
  | some e =>
    simp [hf] at h
    have h1 := List.mem_of_find?_eq_some hf
    have h2 := List.find?_some hf
    simp at h2
    subst h h2; exact h1

theorem silName_inj {p sel M k k' n} (h : silName p sel M k = some n) (h' : silName p sel M k' = some n) : k = k' := by
  have := assign_inj (silName_mem h) (silName_mem h') rfl
  exact congrArg Prod.fst this

theorem silName_some {p sel M k} (h : k ∈ (namesOf p sel M).map Prod.fst) : ∃ n, silName p sel M k = some n := by
  unfold silName
  cases hf : (namesOf p sel M).find? fun e => decide (e.1 = k) with
  | some e => exact ⟨e.2, by simp⟩
  | none =>
    exfalso
    rw [List.find?_eq_none] at hf
    simp only [List.mem_map] at h
    obtain ⟨e, he, rfl⟩ := h
    exact hf e he (by simp)

theorem keys_namesOf (p sel M) : (namesOf p sel M).map Prod.fst =
    ((memberRequests p M ++ checkRequests p sel M) ++ [(Key.main, mainStr)]).map Prod.fst := assign_keys _ _

theorem mem_key_mem {p sel M i} (h : i ∈ loadedMembers p M) : ∃ n, silName p sel M (.mem i) = some n := by
  apply silName_some
  rw [keys_namesOf]
  simp only [memberRequests, List.map_append, List.mem_append, List.map_map]
  left; left; left; right
  exact List.mem_map.2 ⟨i, h, rfl⟩

theorem mem_key_ovr {p sel M i} (h : i ∈ overrideChecks p M) : ∃ n, silName p sel M (.ovr i) = some n := by
  apply silName_some
  rw [keys_namesOf]
  simp only [checkRequests, List.map_append, List.mem_append, List.map_map]
  left; right; left
  exact List.mem_map.2 ⟨i, h, rfl⟩

theorem mem_key_inh {p sel M q} (h : q ∈ inheritChecks p sel M) : ∃ n, silName p sel M (.inh q.1 q.2) = some n := by
  apply silName_some
  rw [keys_namesOf]
  simp only [checkRequests, List.map_append, List.mem_append, List.map_map]
  left; right; right
  exact List.mem_map.2 ⟨q, h, rfl⟩

theorem mem_key_main {p sel M} : ∃ n, silName p sel M .main = some n := by
  apply silName_some
  rw [keys_namesOf]
  simp

/-- The name `main` is taken if it was taken before or was requested by somebody else. -/
theorem assign_append (rs ss : List (Key × Str)) : ∀ used,
    ∃ used', assign used (rs ++ ss) = assign used rs ++ assign used' ss ∧
      (∀ n : Str, (95 : Nat) ∉ n → (n ∈ used' ↔ n ∈ used ∨ n ∈ rs.map Prod.snd)) := by
  induction rs with
  | nil => intro used; exact ⟨used, by simp [assign], by simp⟩
  | cons r rs ih =>
    intro used
    obtain ⟨u, h1, h2⟩ := ih (fresh used r.2 :: used)
    refine ⟨u, by simp [assign, h1], ?_⟩
    intro n hn
    rw [h2 n hn]
    rcases fresh_cases used r.2 with ⟨ha, hb⟩ | ⟨ha, hb⟩
    · simp only [hb, List.mem_cons, List.map_cons]
      constructor
      · rintro ((h | h) | h) <;> simp [h]
      · rintro (h | h | h) <;> simp [h]
    · simp only [List.mem_cons, List.map_cons]
      constructor
      · rintro ((h | h) | h)
        · exact absurd (h ▸ hb) hn
        · exact .inl h
        · exact .inr (.inr h)
      · rintro (h | h | h)
        · exact .inl (.inr h)
        · exact .inl (.inr (h ▸ ha))
        · exact .inr h

theorem main_underscore : (95 : Nat) ∉ mainStr := by decide

theorem main_key_last {p sel M n} (h : (Key.main, n) ∈ assign p.reserved (memberRequests p M ++ checkRequests p sel M)) :
    False := by
  have : Key.main ∈ (assign p.reserved (memberRequests p M ++ checkRequests p sel M)).map Prod.fst :=
    List.mem_map.2 ⟨_, h, rfl⟩
  rw [assign_keys] at this
  simp [memberRequests, checkRequests] at this

/-- The main method is called `main` unless that name is reserved or requested by something else. -/
theorem main_name (p sel M) : silName p sel M .main = some mainStr ↔
    mainStr ∉ p.reserved ∧ mainStr ∉ (memberRequests p M ++ checkRequests p sel M).map Prod.snd := by
  obtain ⟨u, h1, h2⟩ := assign_append (memberRequests p M ++ checkRequests p sel M) [(Key.main, mainStr)] p.reserved
  have h3 := h2 mainStr main_underscore
  have hlast : ∀ n, (Key.main, n) ∈ namesOf p sel M → n = fresh u mainStr := by
    intro n hn
    unfold namesOf at hn
    rw [h1, List.mem_append] at hn
    rcases hn with hn | hn
    · exact (main_key_last hn).elim
    · simpa [assign] using hn
  constructor
  · intro h
    have hh := hlast _ (silName_mem h)
    rcases fresh_cases u mainStr with ⟨ha, _⟩ | ⟨_, hb⟩
    · rw [h3] at ha
      exact ⟨fun x => ha (.inl x), fun x => ha (.inr x)⟩
    · rw [← hh] at hb
      exact absurd hb main_underscore
  · rintro ⟨ha, hb⟩
    obtain ⟨n, hn⟩ := mem_key_main (p := p) (sel := sel) (M := M)
    have hh := hlast _ (silName_mem hn)
    rcases fresh_cases u mainStr with ⟨_, hc⟩ | ⟨hc, _⟩
    · rw [hn, hh, hc]
    · rw [h3] at hc
      rcases hc with hc | hc
      · exact absurd hc ha
      · exact absurd hc hb

theorem loadedMembers_iff {p M i} : i ∈ loadedMembers p M ↔ ∃ m, p.members[i]? = some m ∧ m.mod ∈ p.loaded M := by
  simp only [loadedMembers, List.mem_filter, List.mem_range]
  constructor
  · rintro ⟨_, h2⟩
    cases hm : p.members[i]? with
    | none => simp [hm] at h2
    | some m => exact ⟨m, rfl, by simpa [hm] using h2⟩
  · rintro ⟨m, hm, h⟩
    exact ⟨(List.getElem?_eq_some_iff.1 hm).1, by simpa [hm] using h⟩

theorem loadedClasses_iff {p M c} : c ∈ loadedClasses p M ↔ ∃ cd, p.classes[c]? = some cd ∧ cd.mod ∈ p.loaded M := by
  simp only [loadedClasses, List.mem_filter, List.mem_range]
  constructor
  · rintro ⟨_, h2⟩
    cases hm : p.classes[c]? with
    | none => simp [hm] at h2
    | some m => exact ⟨m, rfl, by simpa [hm] using h2⟩
  · rintro ⟨m, hm, h⟩
    exact ⟨(List.getElem?_eq_some_iff.1 hm).1, by simpa [hm] using h⟩

theorem ownMethod_some {p c n i} (h : ownMethod p c n = some i) : Own p c n i := by
  have h2 := List.find?_some h
  cases hm : p.members[i]? with
  | none => simp [hm] at h2
  | some m =>
    simp [hm] at h2
    refine ⟨m, hm, h2.1.1, h2.1.2, ?_⟩
    rcases h2.2 with (h | h) | h
    · exact .inl h
    · exact .inr (.inl h)
    · exact .inr (.inr h)

theorem ownMethod_none {p c n} (h : ownMethod p c n = none) (i) : ¬ Own p c n i := by
  rintro ⟨m, hm, hc, hn, hk⟩
  unfold ownMethod at h
  rw [List.find?_eq_none] at h
  have := h i (List.mem_range.2 (List.getElem?_eq_some_iff.1 hm).1)
  apply this
  simp only [hm, hc, hn]
  rcases hk with hk | hk | hk <;> simp [hk]

theorem getMethod_sound {p n} : ∀ {fuel c i}, getMethod p n fuel c = some i → Finds p n c i := by
  intro fuel
  induction fuel with
  | zero => intro c i h; simp [getMethod] at h
  | succ f ih =>
    intro c i h
    rw [getMethod] at h
    cases ho : ownMethod p c n with
    | some j => simp [ho] at h; subst h; exact .own (ownMethod_some ho)
    | none =>
      simp only [ho] at h
      cases hc : p.classes[c]? with
      | none => simp [hc] at h
      | some cd =>
        simp only [hc] at h
        cases hs : cd.sup with
        | none => simp [hs] at h
        | some d => simp only [hs] at h; exact .up (ownMethod_none ho) hc hs (ih h)

theorem getMethod_complete {p n} (w : WF p) {c i} (h : Finds p n c i) : ∀ fuel, c < fuel → getMethod p n fuel c = some i := by
  induction h with
  | @own c i h =>
    intro fuel hf
    cases fuel with
    | zero => omega
    | succ f =>
      rw [getMethod]
      cases ho : ownMethod p c n with
      | some j => simp [w.once _ _ _ _ (ownMethod_some ho) h]
      | none => exact absurd h (ownMethod_none ho i)
  | @up c d i cd hno hc hs _ ih =>
    intro fuel hf
    cases fuel with
    | zero => omega
    | succ f =>
      rw [getMethod]
      cases ho : ownMethod p c n with
      | some j => exact absurd (ownMethod_some ho) (hno j)
      | none =>
        simp only [hc, hs]
        exact ih f (by have := w.sup _ _ _ hc hs; omega)

theorem overrides_iff {p m} (w : WF p) : overrides p m = true ↔
    ∃ c cd d j, m.cls = some c ∧ p.classes[c]? = some cd ∧ cd.sup = some d ∧ Finds p m.name d j := by
  unfold overrides
  constructor
  · intro h
    cases hc : m.cls with
    | none => simp [hc] at h
    | some c =>
      cases hd : p.classes[c]? with
      | none => simp [hc, hd] at h
      | some cd =>
        cases hs : cd.sup with
        | none => simp [hc, hd, hs] at h
        | some d =>
          simp [hc, hd, hs] at h
          obtain ⟨j, hj⟩ := Option.isSome_iff_exists.1 h
          exact ⟨c, cd, d, j, rfl, hd, hs, getMethod_sound hj⟩
  · rintro ⟨c, cd, d, j, hc, hd, hs, hf⟩
    simp [hc, hd, hs, getMethod_complete w hf (d + 1) (by omega)]

theorem overrideChecks_iff {p M i} (w : WF p) : i ∈ overrideChecks p M ↔ Need p (.override i) ∧ Loaded p M (.override i) := by
  simp only [overrideChecks, List.mem_filter, loadedMembers_iff, Need, Loaded]
  constructor
  · rintro ⟨⟨m, hm, hl⟩, h⟩
    simp only [hm] at h
    refine ⟨?_, m, hm, hl⟩
    have hmm : m ∈ p.members := List.mem_of_getElem? hm
    cases hk : m.kind <;> simp only [hk] at h <;> try (simp at h; done)
    all_goals try simp only [Bool.and_eq_true, Bool.not_eq_true', decide_eq_true_eq] at h
    · obtain ⟨c, cd, d, j, h1, h2, h3, h4⟩ := (overrides_iff w).1 h.2
      exact ⟨m, c, cd, d, j, hm, h1, h2, h3, by simp [hk], h.1.2, h.1.1, h4⟩
    · obtain ⟨c, cd, d, j, h1, h2, h3, h4⟩ := (overrides_iff w).1 h.2
      exact ⟨m, c, cd, d, j, hm, h1, h2, h3, by simp [hk], h.1.2, h.1.1, h4⟩
    · obtain ⟨c, cd, d, j, h1, h2, h3, h4⟩ := (overrides_iff w).1 h
      have := w.static m hmm hk
      exact ⟨m, c, cd, d, j, hm, h1, h2, h3, by simp [hk], this.2, this.1, h4⟩
  · rintro ⟨⟨m, c, cd, d, j, hm, h1, h2, h3, hk, hn, hi, hf⟩, hl⟩
    refine ⟨hl, ?_⟩
    have ho : overrides p m = true := (overrides_iff w).2 ⟨c, cd, d, j, h1, h2, h3, hf⟩
    simp only [hm]
    rcases hk with hk | hk | hk <;> simp [hk, hn, hi, ho]

theorem inheritChecks_iff {p sel M c i} (w : WF p) : (c, i) ∈ inheritChecks p sel M ↔
    Loaded p M (.inherit c i) ∧ ∃ m, p.members[i]? = some m ∧ m.kind = .method ∧ m.name ≠ initStr ∧ m.cls ≠ some c ∧
      Finds p m.name c i ∧ contractOnly p sel M m = false := by
  simp only [inheritChecks, List.mem_flatMap, loadedClasses_iff, List.mem_map, List.mem_filter, loadedMembers_iff,
    Prod.mk.injEq, Loaded]
  constructor
  · rintro ⟨c', ⟨cd, hcd, hl⟩, i', ⟨⟨m, hm, hml⟩, h⟩, rfl, rfl⟩
    simp only [hm, Bool.and_eq_true, decide_eq_true_eq, Bool.not_eq_true', beq_iff_eq] at h
    obtain ⟨⟨⟨⟨h1, h2⟩, h3⟩, h4⟩, h5⟩ := h
    exact ⟨⟨m, cd, hm, hcd, hml, hl⟩, m, hm, h4, h3, h2, getMethod_sound h1, h5⟩
  · rintro ⟨⟨m, cd, hm, hcd, hml, hl⟩, m', hm', h4, h3, h2, h1, h5⟩
    cases hm.symm.trans hm'
    refine ⟨c, ⟨cd, hcd, hl⟩, i, ⟨⟨m, hm, hml⟩, ?_⟩, rfl, rfl⟩
    simp only [hm, Bool.and_eq_true, decide_eq_true_eq, Bool.not_eq_true', beq_iff_eq]
    exact ⟨⟨⟨⟨getMethod_complete w h1 _ (by omega), h2⟩, h3⟩, h4⟩, h5⟩

theorem isSelected_iff {p sel i m} (hm : p.members[i]? = some m) : isSelected p sel m = true ↔ MemberSelected p sel i := by
  unfold isSelected MemberSelected
  constructor
  · intro h
    refine ⟨m, hm, ?_⟩
    simp only [Bool.or_eq_true, List.contains_iff_mem] at h
    rcases h with h | h
    · exact .inl h
    · right
      cases hc : m.cls with
      | none => simp [hc] at h
      | some c =>
        cases hd : p.classes[c]? with
        | none => simp [hc, hd] at h
        | some cd =>
          simp [hc, hd] at h
          exact ⟨c, cd, rfl, hd, h.symm⟩
  · rintro ⟨m', hm', h⟩
    cases hm.symm.trans hm'
    rcases h with h | ⟨c, cd, hc, hd, h⟩
    · simp [h]
    · rcases h with h | h <;> simp [hc, hd, h]

/-- What the generated program checks, before chopping. -/
theorem generated_iff {p sel M k o} : (k, o) ∈ generated p sel M ↔
    (∃ i m, k = .mem i ∧ o = .body i ∧ p.members[i]? = some m ∧ m.mod ∈ p.loaded M ∧ m.inline = false ∧
      contractOnly p sel M m = false) ∨
    (∃ i, k = .ovr i ∧ o = .override i ∧ i ∈ overrideChecks p M) ∨
    (∃ c i, k = .inh c i ∧ o = .inherit c i ∧ (c, i) ∈ inheritChecks p sel M) ∨
    (k = .main ∧ o = .code M) := by
  simp only [generated, List.mem_append, List.mem_map, List.mem_filter, loadedMembers_iff, Prod.mk.injEq,
    List.mem_singleton]
  constructor
  · rintro (((⟨i, ⟨⟨m, hm, hl⟩, h⟩, rfl, rfl⟩ | ⟨i, h, rfl, rfl⟩) | ⟨q, h, rfl, rfl⟩) | ⟨rfl, rfl⟩)
    · simp only [hm, Bool.and_eq_true, Bool.not_eq_true'] at h
      exact .inl ⟨i, m, rfl, rfl, hm, hl, h.1, h.2⟩
    · exact .inr (.inl ⟨i, rfl, rfl, h⟩)
    · exact .inr (.inr (.inl ⟨q.1, q.2, rfl, rfl, h⟩))
    · exact .inr (.inr (.inr ⟨rfl, rfl⟩))
  · rintro (⟨i, m, rfl, rfl, hm, hl, h1, h2⟩ | ⟨i, rfl, rfl, h⟩ | ⟨c, i, rfl, rfl, h⟩ | ⟨rfl, rfl⟩)
    · exact .inl (.inl (.inl ⟨i, ⟨⟨m, hm, hl⟩, by simp [hm, h1, h2]⟩, rfl, rfl⟩))
    · exact .inl (.inl (.inr ⟨i, h, rfl, rfl⟩))
    · exact .inl (.inr ⟨(c, i), h, rfl, rfl⟩)
    · exact .inr ⟨rfl, rfl⟩

theorem key_name {p sel M k o} (h : (k, o) ∈ generated p sel M) : ∃ n, silName p sel M k = some n := by
  rcases generated_iff.1 h with ⟨i, m, rfl, _, hm, hl, _⟩ | ⟨i, rfl, _, h⟩ | ⟨c, i, rfl, _, h⟩ | ⟨rfl, _⟩
  · exact mem_key_mem (loadedMembers_iff.2 ⟨m, hm, hl⟩)
  · exact mem_key_ovr h
  · exact mem_key_inh (q := (c, i)) h
  · exact mem_key_main

theorem mem_filterMap_name {p sel M k n} {ks : List Key} (h : silName p sel M k = some n) :
    n ∈ ks.filterMap (silName p sel M) ↔ k ∈ ks := by
  rw [List.mem_filterMap]
  constructor
  · rintro ⟨k', hk', h'⟩; rw [silName_inj h h']; exact hk'
  · intro hk; exact ⟨k, hk, h⟩

/-- Checked with a selection. -/
theorem checked_sel {p sel M o} (hs : sel ≠ []) : Checked p sel M o ↔
    ∃ k, (k, o) ∈ generated p sel M ∧ k ∈ trackedKeys p sel M := by
  have he : sel.isEmpty = false := by cases sel <;> simp_all
  constructor
  · rintro ⟨k, n, hg, hn, hc⟩
    simp only [chopNames, he] at hc
    exact ⟨k, hg, (mem_filterMap_name hn).1 (by simpa using hc)⟩
  · rintro ⟨k, hg, hk⟩
    obtain ⟨n, hn⟩ := key_name hg
    refine ⟨k, n, hg, hn, ?_⟩
    simp only [chopNames, he]
    simpa using (mem_filterMap_name hn).2 hk

/-- Checked without a selection. -/
theorem checked_all {p M o} : Checked p [] M o ↔
    ∃ k, (k, o) ∈ generated p [] M ∧ (k ∈ allKeys p [] M ∨ silName p [] M k = some mainStr) := by
  constructor
  · rintro ⟨k, n, hg, hn, hc⟩
    simp only [chopNames, List.isEmpty_nil, if_true, List.mem_append, List.mem_singleton] at hc
    refine ⟨k, hg, ?_⟩
    rcases hc with hc | rfl
    · exact .inl ((mem_filterMap_name hn).1 hc)
    · exact .inr hn
  · rintro ⟨k, hg, hk⟩
    obtain ⟨n, hn⟩ := key_name hg
    refine ⟨k, n, hg, hn, ?_⟩
    simp only [chopNames, List.isEmpty_nil, if_true, List.mem_append, List.mem_singleton]
    rcases hk with hk | hk
    · exact .inl ((mem_filterMap_name hn).2 hk)
    · rw [hn] at hk; exact .inr (Option.some.inj hk)

theorem main_not_all {p sel M} : Key.main ∉ allKeys p sel M := by simp [allKeys]

end Nagini.Coverage
