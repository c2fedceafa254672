import Verif.Lemmas.IO
/-!
Lemmas about the termination checks of IO operations.
-/
set_option linter.unusedVariables false
set_option linter.unusedSimpArgs false
namespace Nagini.IO

variable {V H : Type} {I : Interp V}

/-! ### Binders -/

theorem binders_perm : ∀ b : B, (binders b).Perm ((unis b).map (·.1) ++ exis b) := by
  intro b
  induction b with
  | call => simp [binders, unis, exis]
  | pure => simp [binders, unis, exis]
  | and l r ihl ihr =>
    simp only [binders, unis, exis, List.map_append]
    refine (ihl.append ihr).trans ?_
    rw [List.append_assoc, List.append_assoc]
    refine List.Perm.append_left _ ?_
    rw [← List.append_assoc, ← List.append_assoc]
    exact List.Perm.append_right _ List.perm_append_comm
  | implies e b ih => simpa only [binders, unis, exis] using ih
  | ife e l r ihl ihr =>
    simp only [binders, unis, exis, List.map_append]
    refine (ihl.append ihr).trans ?_
    rw [List.append_assoc, List.append_assoc]
    refine List.Perm.append_left _ ?_
    rw [← List.append_assoc, ← List.append_assoc]
    exact List.Perm.append_right _ List.perm_append_comm
  | all t x b ih =>
    simp only [binders, unis, exis, List.map_cons, List.cons_append]
    exact ih.cons x
  | ex xs b ih =>
    simp only [binders, unis, exis]
    refine (ih.append_left xs).trans ?_
    rw [← List.append_assoc, ← List.append_assoc]
    exact List.Perm.append_right _ List.perm_append_comm

theorem exis_binders {b : B} {x : Nat} (h : x ∈ exis b) : x ∈ binders b :=
  (binders_perm b).mem_iff.2 (List.mem_append_right _ h)

theorem unis_binders {b : B} {u : Nat × Nat} (h : u ∈ unis b) : u.1 ∈ binders b :=
  (binders_perm b).mem_iff.2 (List.mem_append_left _ (List.mem_map_of_mem h))

theorem binders_split {b : B} (h : (binders b).Nodup) :
    ((unis b).map (·.1)).Nodup ∧ (exis b).Nodup ∧ ∀ u ∈ unis b, u.1 ∉ exis b := by
  have h' := (binders_perm b).nodup_iff.1 h
  rw [List.nodup_append] at h'
  exact ⟨h'.1, h'.2.1, fun u hu he => h'.2.2 u.1 (List.mem_map_of_mem hu) u.1 he rfl⟩

/-! ### The check of bodies -/

theorem cNames_some {s s' : CSt} {e : E} (h : cNames s e = some s') : s' = s := by
  rw [cNames] at h
  split at h
  · cases h
  · exact (Option.some.inj h).symm

theorem cArgs_some {s : CSt} : ∀ {es : List E} {s' : CSt}, cArgs s es = some s' → s' = s := by
  intro es
  induction es generalizing s with
  | nil => intro s' h; exact (Option.some.inj h).symm
  | cons e es ih =>
    intro s' h
    rw [cArgs, Option.bind_eq_some_iff] at h
    obtain ⟨s1, h1, h2⟩ := h
    rw [← cNames_some h1]
    exact ih h2

theorem cResults_scRes {allowed : Nat → Bool} {U : List Nat} {o : Nat} {args : List E} :
    ∀ {rs xs G : List Nat} {s s' : CSt} {q : List Nat × List Def},
      cResults allowed o args xs rs s = some s' → scRes U o args rs xs G = some q →
      (∀ x ∈ U, x ∉ G → x ∈ s.undef) → (∀ x ∈ G, x ∉ s.undef) →
      s'.defs = s.defs ++ q.2 ∧ ∀ x, x ∈ s'.undef ↔ x ∈ s.undef ∧ x ∉ q.1 := by
  intro rs
  induction rs with
  | nil =>
    intro xs G s s' q h hq hU hG
    cases xs with
    | nil =>
      rw [scRes] at hq; cases hq
      rw [cResults] at h; cases h
      exact ⟨by simp, fun x => ⟨fun h => ⟨h, fun hx => hG x hx h⟩, fun h => h.1⟩⟩
    | cons => simp [scRes] at hq
  | cons r rs ih =>
    intro xs G s s' q h hq hU hG
    cases xs with
    | nil => simp [scRes] at hq
    | cons x xs =>
      rw [cResults] at h
      split at h
      rotate_left
      · cases h
      rw [scRes] at hq
      by_cases hx : x ∈ G
      · rw [if_pos hx] at hq
        rw [if_neg (by simpa using hG x hx)] at h
        exact ih h hq hU hG
      · rw [if_neg hx] at hq
        by_cases hxU : x ∈ U
        · rw [if_pos hxU, Option.map_eq_some_iff] at hq
          obtain ⟨q', hq, rfl⟩ := hq
          rw [if_pos (by simpa using hU x hxU hx)] at h
          obtain ⟨h1, h2⟩ := ih h hq
            (fun y hy hn => by
              simp only [List.mem_filter, bne_iff_ne, ne_eq]
              refine ⟨hU y hy fun hg => hn (List.mem_cons_of_mem _ hg), ?_⟩
              rintro rfl
              exact hn List.mem_cons_self)
            (fun y hy => by
              simp only [List.mem_filter, bne_iff_ne, ne_eq, not_and, Classical.not_not]
              rcases List.mem_cons.1 hy with rfl | hy
              · exact fun _ => rfl
              · exact fun h => (hG y hy h).elim)
          refine ⟨by rw [h1]; simp, fun y => ?_⟩
          rw [h2]
          have := (scRes_sub hq).1 x List.mem_cons_self
          simp only [List.mem_filter, bne_iff_ne, ne_eq]
          constructor
          · exact fun h => ⟨h.1.1, h.2⟩
          · exact fun h => ⟨⟨h.1, fun he => h.2 (he ▸ this)⟩, h.2⟩
        · rw [if_neg hxU] at hq; cases hq

theorem check_scope {P : Prog} {allowed : Nat → Bool} : ∀ {b : B} {G U : List Nat} {s s' : CSt}
    {q : List Nat × List Def}, check P allowed b s = some s' → scope P b G U = some q →
      (∀ x ∈ U, x ∉ G → x ∈ s.undef) → (∀ x ∈ G, x ∉ s.undef) → (∀ x ∈ exis b, x ∈ s.undef) →
      (binders b).Nodup → (∀ x ∈ binders b, x ∉ G ∧ x ∉ U) → (∀ u ∈ unis b, u.1 ∉ s.undef) →
      s'.defs = s.defs ++ q.2 ∧ ∀ x, x ∈ s'.undef ↔ x ∈ s.undef ∧ x ∉ q.1 ∧ x ∉ exis b := by
  intro b
  induction b with
  | call o args rs =>
    intro G U s s' q h hq hU hG hE hn hd hu
    obtain ⟨op, hop, _, _, hq⟩ := scope_call hq
    rw [check, hop] at h
    simp only [Option.bind_eq_some_iff] at h
    obtain ⟨s1, h1, h2⟩ := h
    rw [cArgs_some h2]
    obtain ⟨r1, r2⟩ := cResults_scRes h1 hq hU hG
    exact ⟨r1, fun x => by rw [r2]; simp [exis]⟩
  | pure e =>
    intro G U s s' q h hq hU hG hE hn hd hu
    obtain ⟨_, rfl⟩ := scope_pure hq
    rw [check] at h
    rw [cNames_some h]
    exact ⟨by simp, fun x => ⟨fun h => ⟨h, fun hx => hG x hx h, by simp [exis]⟩, fun h => h.1⟩⟩
  | and l r ihl ihr =>
    intro G U s s' q h hq hU hG hE hn hd hu
    obtain ⟨q1, q2, h1, h2, rfl⟩ := scope_and hq
    rw [check, Option.bind_eq_some_iff] at h
    obtain ⟨s1, hs1, hs2⟩ := h
    simp only [binders, unis, exis, List.mem_append] at hd hu hE hn ⊢
    rw [List.nodup_append] at hn
    obtain ⟨a1, a2⟩ := ihl hs1 h1 hU hG (fun x hx => hE x (.inl hx)) hn.1
      (fun x hx => hd x (.inl hx)) (fun u h => hu u (.inl h))
    obtain ⟨b1, b2⟩ := ihr hs2 h2
      (fun x hx hx1 => (a2 x).2 ⟨hU x hx fun hg => hx1 ((scope_sub h1).1 x hg), hx1,
        fun he => (hd x (.inl (exis_binders he))).2 hx⟩)
      (fun x hx hu => ((a2 x).1 hu).2.1 hx)
      (fun x hx => (a2 x).2 ⟨hE x (.inr hx), fun hx1 => by
          rcases (scope_sub h1).2 x hx1 with hg | hg
          · exact (hd x (.inr (exis_binders hx))).1 hg
          · exact (hd x (.inr (exis_binders hx))).2 hg,
        fun he => hn.2.2 x (exis_binders he) x (exis_binders hx) rfl⟩)
      hn.2.1
      (fun x hx => ⟨fun hx1 => by
          rcases (scope_sub h1).2 x hx1 with hg | hg
          · exact (hd x (.inr hx)).1 hg
          · exact (hd x (.inr hx)).2 hg, (hd x (.inr hx)).2⟩)
      (fun u h hc => hu u (.inr h) ((a2 u.1).1 hc).1)
    refine ⟨by rw [b1, a1]; simp, fun x => ?_⟩
    rw [b2, a2]
    constructor
    · exact fun h => ⟨h.1.1, h.2.1, fun he => he.elim h.1.2.2 h.2.2⟩
    · exact fun h => ⟨⟨h.1, fun hx => h.2.1 ((scope_sub h2).1 x hx), fun he => h.2.2 (.inl he)⟩,
        h.2.1, fun he => h.2.2 (.inr he)⟩
  | implies e b ih =>
    intro G U s s' q h hq hU hG hE hn hd hu
    obtain ⟨_, q1, h1, rfl⟩ := scope_implies hq
    rw [check, Option.bind_eq_some_iff] at h
    obtain ⟨s1, hs1, hs2⟩ := h
    cases cNames_some hs1
    simp only [binders, unis, exis] at hd hu hE hn ⊢
    obtain ⟨a1, a2⟩ := ih hs2 h1 (by simp) hG hE hn (fun x hx => ⟨(hd x hx).1, by simp⟩) hu
    refine ⟨a1, fun x => ?_⟩
    rw [a2]
    have := (scope_sub h1).1 x
    have h3 := (scope_sub h1).2 x
    simp only [List.not_mem_nil, or_false] at h3
    grind
  | ife e l r ihl ihr =>
    intro G U s s' q h hq hU hG hE hn hd hu
    obtain ⟨_, q1, q2, h1, h2, rfl⟩ := scope_ife hq
    rw [check, Option.bind_eq_some_iff] at h
    obtain ⟨s0, hs0, h⟩ := h
    cases cNames_some hs0
    rw [Option.bind_eq_some_iff] at h
    obtain ⟨s1, hs1, hs2⟩ := h
    simp only [binders, unis, exis, List.mem_append] at hd hu hE hn ⊢
    rw [List.nodup_append] at hn
    obtain ⟨a1, a2⟩ := ihl hs1 h1 (by simp) hG (fun x hx => hE x (.inl hx)) hn.1
      (fun x hx => ⟨(hd x (.inl hx)).1, by simp⟩) (fun u h => hu u (.inl h))
    have g1 := fun x => (scope_sub h1).1 x
    have g2 := fun x => (scope_sub h1).2 x
    have g3 := fun x => (scope_sub h2).1 x
    have g4 := fun x => (scope_sub h2).2 x
    simp only [List.not_mem_nil, or_false] at g2 g4
    obtain ⟨b1, b2⟩ := ihr hs2 h2 (by simp)
      (fun x hx hu => ((a2 x).1 hu).2.1 (g1 x hx))
      (fun x hx => (a2 x).2 ⟨hE x (.inr hx), fun hx1 => (hd x (.inr (exis_binders hx))).1 (g2 x hx1),
        fun he => hn.2.2 x (exis_binders he) x (exis_binders hx) rfl⟩)
      hn.2.1
      (fun x hx => ⟨(hd x (.inr hx)).1, by simp⟩)
      (fun u h hc => hu u (.inr h) ((a2 u.1).1 hc).1)
    refine ⟨by rw [b1, a1]; simp, fun x => ?_⟩
    rw [b2, a2]
    grind
  | all t x b ih =>
    intro G U s s' q h hq hU hG hE hn hd hu
    obtain ⟨q1, h1, rfl⟩ := scope_all hq
    rw [check] at h
    simp only [binders, unis, exis, List.mem_cons] at hd hu hE hn ⊢
    rw [List.nodup_cons] at hn
    have hx : x ∉ s.undef := hu (x, t) (.inl rfl)
    obtain ⟨a1, a2⟩ := ih h h1 (by simp)
      (fun y hy => by
        rcases List.mem_cons.1 hy with rfl | hy
        · exact hx
        · exact hG y hy) hE hn.2
      (fun y hy => ⟨fun hc => by
        rcases List.mem_cons.1 hc with rfl | hc
        · exact hn.1 hy
        · exact (hd y (.inr hy)).1 hc, by simp⟩) (fun u h => hu u (.inr h))
    refine ⟨a1, fun y => ?_⟩
    rw [a2]
    have g1 := (scope_sub h1).1 y
    have g2 := (scope_sub h1).2 y
    simp only [List.not_mem_nil, or_false, List.mem_cons] at g1 g2
    grind
  | ex xs b ih =>
    intro G U s s' q h hq hU hG hE hn hd hu
    obtain ⟨q1, h1, hx1, rfl⟩ := scope_ex hq
    rw [check] at h
    simp only [binders, unis, exis, List.mem_append] at hd hu hE hn ⊢
    rw [List.nodup_append] at hn
    obtain ⟨a1, a2⟩ := ih h h1 (fun x hx _ => hE x (.inl hx)) hG (fun x hx => hE x (.inr hx)) hn.2.1
      (fun x hx => ⟨(hd x (.inr hx)).1, fun hc => hn.2.2 x hc x hx rfl⟩) hu
    refine ⟨a1, fun y => ?_⟩
    rw [a2]
    have g1 := (scope_sub h1).1 y
    have g2 := (scope_sub h1).2 y
    grind

/-- The definitions of different names. -/
theorem scRes_ds {U : List Nat} {o : Nat} {args : List E} : ∀ {rs xs G : List Nat}
    {q : List Nat × List Def}, scRes U o args rs xs G = some q →
      (q.2.map (·.x)).Nodup ∧ (∀ d ∈ q.2, d.x ∈ U ∧ d.x ∉ G ∧ d.x ∈ q.1) ∧
        ∀ d ∈ q.2, d.args = args := by
  intro rs
  induction rs with
  | nil =>
    intro xs G q h
    cases xs with
    | nil => rw [scRes] at h; cases h; simp
    | cons => simp [scRes] at h
  | cons r rs ih =>
    intro xs G q h
    cases xs with
    | nil => simp [scRes] at h
    | cons x xs =>
      rw [scRes] at h
      split at h
      · exact ih h
      · rename_i hx
        split at h
        · rename_i hU
          rw [Option.map_eq_some_iff] at h
          obtain ⟨q', hq, rfl⟩ := h
          obtain ⟨h1, h2, h3⟩ := ih hq
          simp only [List.map_cons, List.nodup_cons, List.mem_map, not_exists, not_and]
          refine ⟨⟨fun d hd he => (h2 d hd).2.1 (he ▸ List.mem_cons_self), h1⟩, fun d hd => ?_,
            fun d hd => ?_⟩
          · rcases List.mem_cons.1 hd with rfl | hd
            · exact ⟨hU, hx, (scRes_sub hq).1 _ List.mem_cons_self⟩
            · exact ⟨(h2 d hd).1, fun hg => (h2 d hd).2.1 (List.mem_cons_of_mem _ hg), (h2 d hd).2.2⟩
          · rcases List.mem_cons.1 hd with rfl | hd
            · rfl
            · exact h3 d hd
        · cases h

theorem scope_ds {P : Prog} : ∀ {b : B} {G U : List Nat} {q : List Nat × List Def},
    scope P b G U = some q → (binders b).Nodup → (∀ x ∈ binders b, x ∉ G ∧ x ∉ U) →
      (q.2.map (·.x)).Nodup ∧
        ∀ d ∈ q.2, (d.x ∈ U ∧ d.x ∉ G ∧ d.x ∈ q.1) ∨ d.x ∈ exis b := by
  intro b
  induction b with
  | call o args rs =>
    intro G U q h hn hd
    obtain ⟨op, _, _, _, h⟩ := scope_call h
    exact ⟨(scRes_ds h).1, fun d hd => .inl ((scRes_ds h).2.1 d hd)⟩
  | pure e => intro G U q h hn hd; obtain ⟨_, rfl⟩ := scope_pure h; simp
  | and l r ihl ihr =>
    intro G U q h hn hd
    obtain ⟨q1, q2, h1, h2, rfl⟩ := scope_and h
    simp only [binders, List.mem_append, exis] at hd hn ⊢
    rw [List.nodup_append] at hn
    obtain ⟨a1, a2⟩ := ihl h1 hn.1 fun x hx => hd x (.inl hx)
    obtain ⟨b1, b2⟩ := ihr h2 hn.2.1 fun x hx => ⟨fun hx1 => by
      rcases (scope_sub h1).2 x hx1 with hg | hg
      · exact (hd x (.inr hx)).1 hg
      · exact (hd x (.inr hx)).2 hg, (hd x (.inr hx)).2⟩
    refine ⟨?_, fun d hdd => ?_⟩
    · rw [List.map_append, List.nodup_append]
      refine ⟨a1, b1, fun x hx y hy => ?_⟩
      rintro rfl
      obtain ⟨d1, hd1, rfl⟩ := List.mem_map.1 hx
      obtain ⟨d2, hd2, he⟩ := List.mem_map.1 hy
      rcases a2 d1 hd1 with k1 | k1 <;> rcases b2 d2 hd2 with k2 | k2 <;> rw [he] at k2
      · exact k2.2.1 k1.2.2
      · exact (hd _ (.inr (exis_binders k2))).2 k1.1
      · exact (hd _ (.inl (exis_binders k1))).2 k2.1
      · exact hn.2.2 _ (exis_binders k1) _ (exis_binders k2) rfl
    · rcases hdd with hdd | hdd
      · rcases a2 d hdd with k | k
        · exact .inl ⟨k.1, k.2.1, (scope_sub h2).1 _ k.2.2⟩
        · exact .inr (.inl k)
      · rcases b2 d hdd with k | k
        · exact .inl ⟨k.1, fun hg => k.2.1 ((scope_sub h1).1 _ hg), k.2.2⟩
        · exact .inr (.inr k)
  | implies e b ih =>
    intro G U q h hn hd
    obtain ⟨_, q1, h1, rfl⟩ := scope_implies h
    simp only [binders, exis] at hd hn ⊢
    obtain ⟨a1, a2⟩ := ih h1 hn fun x hx => ⟨(hd x hx).1, by simp⟩
    exact ⟨a1, fun d hd => .inr (by simpa using a2 d hd)⟩
  | ife e l r ihl ihr =>
    intro G U q h hn hd
    obtain ⟨_, q1, q2, h1, h2, rfl⟩ := scope_ife h
    simp only [binders, List.mem_append, exis] at hd hn ⊢
    rw [List.nodup_append] at hn
    obtain ⟨a1, a2⟩ := ihl h1 hn.1 fun x hx => ⟨(hd x (.inl hx)).1, by simp⟩
    obtain ⟨b1, b2⟩ := ihr h2 hn.2.1 fun x hx => ⟨(hd x (.inr hx)).1, by simp⟩
    refine ⟨?_, fun d hdd => ?_⟩
    · rw [List.map_append, List.nodup_append]
      refine ⟨a1, b1, fun x hx y hy => ?_⟩
      rintro rfl
      obtain ⟨d1, hd1, rfl⟩ := List.mem_map.1 hx
      obtain ⟨d2, hd2, he⟩ := List.mem_map.1 hy
      have k1 := a2 d1 hd1
      have k2 := b2 d2 hd2
      simp only [List.not_mem_nil, false_and, false_or] at k1 k2
      rw [he] at k2
      exact hn.2.2 _ (exis_binders k1) _ (exis_binders k2) rfl
    · rcases hdd with hdd | hdd
      · exact .inr (.inl (by simpa using a2 d hdd))
      · exact .inr (.inr (by simpa using b2 d hdd))
  | all t x b ih =>
    intro G U q h hn hd
    obtain ⟨q1, h1, rfl⟩ := scope_all h
    simp only [binders, exis, List.mem_cons] at hd hn ⊢
    rw [List.nodup_cons] at hn
    obtain ⟨a1, a2⟩ := ih h1 hn.2 fun y hy => ⟨fun hc => by
        rcases List.mem_cons.1 hc with rfl | hc
        · exact hn.1 hy
        · exact (hd y (.inr hy)).1 hc, by simp⟩
    exact ⟨a1, fun d hd => .inr (by simpa using a2 d hd)⟩
  | ex xs b ih =>
    intro G U q h hn hd
    obtain ⟨q1, h1, _, rfl⟩ := scope_ex h
    simp only [binders, exis, List.mem_append] at hd hn ⊢
    rw [List.nodup_append] at hn
    obtain ⟨a1, a2⟩ := ih h1 hn.2.1 fun x hx => ⟨(hd x (.inr hx)).1, fun hc => hn.2.2 x hc x hx rfl⟩
    refine ⟨a1, fun d hd => .inr ?_⟩
    rcases a2 d hd with k | k
    · exact .inl k.1
    · exact .inr k

/-! ### Defining getters -/

theorem getVariable_mono {op : Op} {us : List (Nat × Nat)} {refs refs' : Nat → Option S}
    (h : ∀ x s, refs x = some s → refs' x = some s) :
    ∀ x s, getVariable op us refs x = some s → getVariable op us refs' x = some s := by
  intro x s hx
  rw [getVariable] at hx ⊢
  split at hx
  · simp_all
  · split at hx
    · simp_all
    · simp_all

theorem trE_mono {R R' : Nat → Option S} (h : ∀ x s, R x = some s → R' x = some s) :
    ∀ {e : E} {s : S}, trE R e = some s → trE R' e = some s := by
  intro e
  induction e with
  | name x => intro s hs; exact h x s hs
  | bool b => intro s hs; exact hs
  | const k => intro s hs; exact hs
  | bin f l r ihl ihr =>
    intro s hs
    obtain ⟨sl, sr, h1, h2, rfl⟩ := trE_bin hs
    rw [trE, ihl h1, ihr h2]

theorem trArgs_mono {R R' : Nat → Option S} (h : ∀ x s, R x = some s → R' x = some s) :
    ∀ {es : List E} {ss : List S}, trArgs R es = some ss → trArgs R' es = some ss := by
  intro es
  induction es with
  | nil => intro ss hs; exact hs
  | cons e es ih =>
    intro ss hs
    obtain ⟨s, ss', h1, h2, rfl⟩ := trArgs_cons hs
    rw [trArgs, trE_mono h h1, ih h2]

theorem defGetters_fix {op : Op} {us : List (Nat × Nat)} : ∀ {ds : List Def}
    {refs0 refs : Nat → Option S}, defGetters op us ds refs0 = some refs → (ds.map (·.x)).Nodup →
      (∀ d ∈ ds, refs0 d.x = none) →
      (∀ x s, refs0 x = some s → refs x = some s) ∧
      (∀ x, x ∉ ds.map (·.x) → refs x = refs0 x) ∧
      ∀ d ∈ ds, ∃ as, trArgs (getVariable op us refs) d.args = some as ∧
        refs d.x = some (.get d.o d.r as) := by
  intro ds
  induction ds with
  | nil => intro refs0 refs h _ _; cases h; simp
  | cons d ds ih =>
    intro refs0 refs h hn h0
    rw [defGetters] at h
    split at h
    · cases h
    · rename_i args ha
      rw [List.map_cons, List.nodup_cons] at hn
      obtain ⟨a1, a2, a3⟩ := ih h hn.2 (fun d' hd' => by
        have : d'.x ≠ d.x := fun he => hn.1 (he ▸ List.mem_map_of_mem hd')
        simp only [this, if_false]
        exact h0 d' (List.mem_cons_of_mem _ hd'))
      have hm : ∀ x s, refs0 x = some s → refs x = some s := by
        intro x s hx
        refine a1 x s ?_
        have : x ≠ d.x := by
          rintro rfl
          rw [h0 d List.mem_cons_self] at hx
          cases hx
        simp only [this, if_false, hx]
      refine ⟨hm, fun x hx => ?_, fun d' hd' => ?_⟩
      · simp only [List.map_cons, List.mem_cons, not_or] at hx
        rw [a2 x hx.2]
        simp only [hx.1, if_false]
      · rcases List.mem_cons.1 hd' with rfl | hd'
        · refine ⟨args, trArgs_mono (getVariable_mono hm) ha, ?_⟩
          rw [a2 _ hn.1]
          simp
        · exact a3 d' hd'

/-! ### Guards and aliases of parameters -/

theorem trGuard_cons {R : Nat → Option S} {p : Bool × E} {gs : List (Bool × E)}
    {ss : List (Bool × S)} (h : trGuard R (p :: gs) = some ss) :
    ∃ s ss', trE R p.2 = some s ∧ trGuard R gs = some ss' ∧ ss = (p.1, s) :: ss' := by
  obtain ⟨p, e⟩ := p
  rw [trGuard] at h
  split at h
  · rename_i s ss' h1 h2
    exact ⟨s, ss', h1, h2, (Option.some.inj h).symm⟩
  · cases h

theorem trGuard_ev {R : Nat → Option S} {σ : Nat → V} : ∀ {gs : List (Bool × E)}
    {ss : List (Bool × S)}, trGuard R gs = some ss →
      (∀ p ∈ gs, ∀ s, trE R p.2 = some s → (I.truth (evS I σ s) ↔ p.1 = true)) →
      ∀ p ∈ ss, (I.truth (evS I σ p.2) ↔ p.1 = true) := by
  intro gs
  induction gs with
  | nil => intro ss h _; cases h; simp
  | cons g gs ih =>
    intro ss h hg p hp
    obtain ⟨s, ss', h1, h2, rfl⟩ := trGuard_cons h
    rcases List.mem_cons.1 hp with rfl | hp
    · exact hg g List.mem_cons_self s h1
    · exact ih h2 (fun p hp => hg p (List.mem_cons_of_mem _ hp)) p hp

theorem inputAliases_V {R : Nat → Option S} {σ ρ : Nat → V} : ∀ {ps : List (Nat × Nat)}
    {as : List S}, as.length = ps.length →
      InvV I (inputAliases R ps as) σ (updL ρ (ps.map (·.1)) (evSL I σ as)) (ps.map (·.1)) := by
  intro ps
  induction ps with
  | nil => intro as _ x hx; cases hx
  | cons p ps ih =>
    intro as hl x hx s hs
    cases as with
    | nil => cases hl
    | cons a as =>
      obtain ⟨p, t⟩ := p
      simp only [List.map_cons, List.mem_cons] at hx
      simp only [inputAliases] at hs
      simp only [List.map_cons, evSL, updL]
      by_cases hxp : x = p
      · subst hxp
        rw [if_pos rfl] at hs
        cases hs
        rw [upd_same]
      · rw [if_neg hxp] at hs
        rw [upd_ne _ _ hxp]
        exact ih (by simpa using hl) x (by simpa [hxp] using hx) s hs

/-! ### Instances reached satisfy the checks -/

/-- What the checks say about an instance of a sub-operation. -/
def Good (I : Interp V) (P : Prog) (m : Int) (c : Nat × List V) : Prop :=
  c.1 ≠ gapIO ∧ ∃ op, P c.1 = some op ∧ c.2.length = op.params.length ∧
    I.truth (evE I (opEnv I c.1 op c.2) op.getTerminates) ∧
    m > I.num (evE I (opEnv I c.1 op c.2) op.getMeasure)

theorem propOk_names {op : Op} (h : propOk op = true) :
    (∀ x ∈ op.getTerminates.names, x ∈ op.params.map (·.1)) ∧
    (∀ x ∈ op.getMeasure.names, x ∈ op.params.map (·.1)) := by
  rw [propOk, List.all_eq_true] at h
  have h' : ∀ x ∈ op.getTerminates.names ++ op.getMeasure.names, x ∈ op.params.map (·.1) := by
    intro x hx
    have := h x hx
    simp only [List.any_eq_true, beq_iff_eq] at this
    obtain ⟨p, hp, rfl⟩ := this
    exact List.mem_map_of_mem (List.mem_append_right _ hp)
  exact ⟨fun x hx => h' x (List.mem_append_left _ hx), fun x hx => h' x (List.mem_append_right _ hx)⟩

theorem childChecks_good {P : Prog} {R : Nat → Option S} {tc tm : S} {g : List (Bool × E)} {o : Nat}
    {args : List E} {cs : List Chk} {σ ρ : Nat → V} {G : List Nat} {op : Op}
    (h : childChecks P R tc tm g o args = some cs) (hop : P o = some op)
    (hl : args.length = op.params.length) (hp : propOk op = true) (hI : InvV I R σ ρ G)
    (ha : ∀ e ∈ args, ∀ x ∈ e.names, x ∈ G)
    (hg : ∀ p ∈ g, ∀ s, trE R p.2 = some s → (I.truth (evS I σ s) ↔ p.1 = true))
    (htc : I.truth (evS I σ tc)) (hc : ∀ c ∈ cs, c.Holds I σ) :
    Good I P (I.num (evS I σ tm)) (o, args.map (evE I ρ)) := by
  rw [childChecks, hop] at h
  split at h
  · rename_i op' gs as h0 h1 h2
    cases h0
    simp only at h
    split at h
    · rename_i c m h3 h4
      have hv : evSL I σ as = args.map (evE I ρ) := trArgs_ev hI ha h2
      have hA : InvV I (inputAliases R op.params as) σ (opEnv I o op (args.map (evE I ρ)))
          (op.params.map (·.1)) := by
        rw [← hv]
        exact inputAliases_V (by rw [trArgs_length h2, hl])
      have hgs : ∀ p ∈ (true, tc) :: gs, (I.truth (evS I σ p.2) ↔ p.1 = true) := by
        intro p hp
        rcases List.mem_cons.1 hp with rfl | hp
        · exact ⟨fun _ => rfl, fun _ => htc⟩
        · exact trGuard_ev h1 hg p hp
      have hcs := Option.some.inj h
      subst hcs
      simp only [List.mem_append, List.mem_cons, List.not_mem_nil, or_false] at hc
      have k1 := hc _ (.inr (.inl rfl)) hgs
      have k2 := hc _ (.inr (.inr rfl)) hgs
      simp only [Concl.Holds] at k1 k2
      rw [trE_ev hA (propOk_names hp).1 h3] at k1
      rw [trE_ev hA (propOk_names hp).2 h4] at k2
      refine ⟨fun hgap => ?_, op, hop, by simp [hl], k1, k2⟩
      exact hc ⟨(true, tc) :: gs, .falsum⟩ (.inl (by simp only at hgap; simp [hgap])) hgs
    · cases h
  · cases h

/-- Every instance that a body consists of satisfies the checks, for suitable values of the bound
variables. -/
theorem reach_good {P : Prog} {R : Nat → Option S} {op : Op} {tc tm : S}
    (hp : ∀ o op, P o = some op → propOk op = true) :
    ∀ {b : B} {G U : List Nat} {q : List Nat × List Def} {g : List (Bool × E)} {cs : List Chk}
      {σ ρ : Nat → V} {Z : Nat → Prop} {c : Nat × List V},
      scope P b G U = some q → gen P R tc tm b g = some cs → Fix R q.2 →
      InvV I R σ ρ q.1 → InvF R q.1 Z →
      (∀ p ∈ g, ∀ s, trE R p.2 = some s → (I.truth (evS I σ s) ↔ p.1 = true) ∧ ∀ z ∈ s.fv, Z z) →
      I.truth (evS I σ tc) → (∀ z ∈ tc.fv, Z z) → (∀ z ∈ tm.fv, Z z) →
      (∀ u ∈ unis b, ¬ Z (op.sil u.1)) → ((unis b).map fun u => op.sil u.1).Nodup →
      (∀ u ∈ unis b, R u.1 = some (.var (op.sil u.1))) →
      (binders b).Nodup → (∀ x ∈ binders b, x ∉ G ∧ x ∉ U) →
      Reach I P ρ b c →
      ∃ σ' : Nat → V, (∀ z, (∀ u ∈ unis b, z ≠ op.sil u.1) → σ' z = σ z) ∧
        (∀ u ∈ unis b, I.ty u.2 (σ (op.sil u.1)) → I.ty u.2 (σ' (op.sil u.1))) ∧
        ((∀ k ∈ cs, k.Holds I σ') → Good I P (I.num (evS I σ tm)) c) := by
  intro b
  induction b with
  | call o args rs =>
    intro G U q g cs σ ρ Z c hq hgen hf hV hF hg htc htcZ htmZ hZ hinj hR hn hd hr
    obtain ⟨op', hop, hl, ha, hq⟩ := scope_call hq
    rw [gen] at hgen
    rw [Reach] at hr
    subst hr
    refine ⟨σ, fun _ _ => rfl, fun _ _ h => h, fun hk => ?_⟩
    exact childChecks_good hgen hop hl (hp _ _ hop) hV
      (fun e he x hx => (scRes_sub hq).1 x (ha e he x hx)) (fun p hp s hs => (hg p hp s hs).1) htc hk
  | pure e => intro G U q g cs σ ρ Z c hq hgen hf hV hF hg htc htcZ htmZ hZ hinj hR hn hd hr; exact hr.elim
  | and l r ihl ihr =>
    intro G U q g cs σ ρ Z c hq hgen hf hV hF hg htc htcZ htmZ hZ hinj hR hn hd hr
    obtain ⟨q1, q2, h1, h2, rfl⟩ := scope_and hq
    rw [gen] at hgen
    split at hgen
    rotate_left
    · cases hgen
    rename_i csa csb hga hgb
    have hcs := Option.some.inj hgen
    subst hcs
    simp only [binders, unis, List.mem_append, List.map_append] at hd hn hZ hinj hR ⊢
    rw [List.nodup_append] at hn hinj
    have hf1 : Fix R q1.2 := fun d hd => hf d (List.mem_append_left _ hd)
    have hf2 : Fix R q2.2 := fun d hd => hf d (List.mem_append_right _ hd)
    rcases hr with hr | hr
    · obtain ⟨σ', a1, a2, a3⟩ := ihl h1 hga hf1 (hV.mono (scope_sub h2).1)
        (hF.mono (scope_sub h2).1) hg htc htcZ htmZ (fun u hu => hZ u (.inl hu)) hinj.1
        (fun u hu => hR u (.inl hu)) hn.1 (fun x hx => hd x (.inl hx)) hr
      refine ⟨σ', fun z hz => a1 z fun u hu => hz u (.inl hu), fun u hu ht => ?_,
        fun hk => a3 fun k hk' => hk k (.inl hk')⟩
      rcases hu with hu | hu
      · exact a2 u hu ht
      · rw [a1]
        · exact ht
        · intro u' hu' he
          exact hinj.2.2 _ (List.mem_map_of_mem hu') _ (List.mem_map_of_mem hu) he.symm
    · have hd' : ∀ x ∈ binders r, x ∉ q1.1 := by
        intro x hx hx1
        rcases (scope_sub h1).2 x hx1 with hg | hg
        · exact (hd x (.inr hx)).1 hg
        · exact (hd x (.inr hx)).2 hg
      obtain ⟨σ', a1, a2, a3⟩ := ihr h2 hgb hf2 hV hF hg htc htcZ htmZ (fun u hu => hZ u (.inr hu))
        hinj.2.1 (fun u hu => hR u (.inr hu)) hn.2.1
        (fun x hx => ⟨hd' x hx, (hd x (.inr hx)).2⟩) hr
      refine ⟨σ', fun z hz => a1 z fun u hu => hz u (.inr hu), fun u hu ht => ?_,
        fun hk => a3 fun k hk' => hk k (.inr hk')⟩
      rcases hu with hu | hu
      · rw [a1]
        · exact ht
        · intro u' hu' he
          exact hinj.2.2 _ (List.mem_map_of_mem hu) _ (List.mem_map_of_mem hu') he
      · exact a2 u hu ht
  | implies e b ih =>
    intro G U q g cs σ ρ Z c hq hgen hf hV hF hg htc htcZ htmZ hZ hinj hR hn hd hr
    obtain ⟨he, q1, h1, rfl⟩ := scope_implies hq
    rw [gen] at hgen
    simp only [binders, unis] at hd hn hZ hinj hR ⊢
    have hs : ∀ x ∈ q1.1, x ∈ G := fun x hx => by simpa using (scope_sub h1).2 x hx
    refine ih h1 hgen hf (hV.mono hs) (hF.mono hs) ?_ htc htcZ htmZ hZ hinj hR hn (fun x hx => ⟨(hd x hx).1, by simp⟩)
      hr.2
    intro p hp s hps
    rcases List.mem_append.1 hp with hp | hp
    · exact hg p hp s hps
    · rw [List.mem_singleton] at hp
      subst hp
      refine ⟨?_, trE_fv hF he hps⟩
      rw [trE_ev hV he hps]
      exact ⟨fun _ => rfl, fun _ => hr.1⟩
  | ife e l r ihl ihr =>
    intro G U q g cs σ ρ Z c hq hgen hf hV hF hg htc htcZ htmZ hZ hinj hR hn hd hr
    obtain ⟨he, q1, q2, h1, h2, rfl⟩ := scope_ife hq
    rw [gen] at hgen
    split at hgen
    rotate_left
    · cases hgen
    rename_i csa csb hga hgb
    have hcs := Option.some.inj hgen
    subst hcs
    simp only [binders, unis, List.mem_append, List.map_append] at hd hn hZ hinj hR ⊢
    rw [List.nodup_append] at hn hinj
    have hf1 : Fix R q1.2 := fun d hd => hf d (List.mem_append_left _ hd)
    have hf2 : Fix R q2.2 := fun d hd => hf d (List.mem_append_right _ hd)
    have hs1 : ∀ x ∈ q1.1, x ∈ G := fun x hx => by simpa using (scope_sub h1).2 x hx
    have hs2 : ∀ x ∈ q2.1, x ∈ G := fun x hx => by simpa using (scope_sub h2).2 x hx
    rcases hr with ⟨ht, hr⟩ | ⟨ht, hr⟩
    · obtain ⟨σ', a1, a2, a3⟩ := ihl h1 hga hf1 (hV.mono hs1) (hF.mono hs1) (by
          intro p hp s hps
          rcases List.mem_append.1 hp with hp | hp
          · exact hg p hp s hps
          · rw [List.mem_singleton] at hp
            subst hp
            refine ⟨?_, trE_fv hF he hps⟩
            rw [trE_ev hV he hps]
            exact ⟨fun _ => rfl, fun _ => ht⟩)
        htc htcZ htmZ (fun u hu => hZ u (.inl hu)) hinj.1
        (fun u hu => hR u (.inl hu)) hn.1 (fun x hx => ⟨(hd x (.inl hx)).1, by simp⟩) hr
      refine ⟨σ', fun z hz => a1 z fun u hu => hz u (.inl hu), fun u hu ht => ?_,
        fun hk => a3 fun k hk' => hk k (.inl hk')⟩
      rcases hu with hu | hu
      · exact a2 u hu ht
      · rw [a1]
        · exact ht
        · intro u' hu' he
          exact hinj.2.2 _ (List.mem_map_of_mem hu') _ (List.mem_map_of_mem hu) he.symm
    · obtain ⟨σ', a1, a2, a3⟩ := ihr h2 hgb hf2 (hV.mono hs2) (hF.mono hs2) (by
          intro p hp s hps
          rcases List.mem_append.1 hp with hp | hp
          · exact hg p hp s hps
          · rw [List.mem_singleton] at hp
            subst hp
            refine ⟨?_, trE_fv hF he hps⟩
            rw [trE_ev hV he hps]
            exact ⟨fun h => (ht h).elim, fun h => by cases h⟩)
        htc htcZ htmZ (fun u hu => hZ u (.inr hu)) hinj.2.1
        (fun u hu => hR u (.inr hu)) hn.2.1 (fun x hx => ⟨(hd x (.inr hx)).1, by simp⟩) hr
      refine ⟨σ', fun z hz => a1 z fun u hu => hz u (.inr hu), fun u hu ht => ?_,
        fun hk => a3 fun k hk' => hk k (.inr hk')⟩
      rcases hu with hu | hu
      · rw [a1]
        · exact ht
        · intro u' hu' he
          exact hinj.2.2 _ (List.mem_map_of_mem hu) _ (List.mem_map_of_mem hu') he
      · exact a2 u hu ht
  | all t x b ih =>
    intro G U q g cs σ ρ Z c hq hgen hf hV hF hg htc htcZ htmZ hZ hinj hR hn hd hr
    obtain ⟨q1, h1, rfl⟩ := scope_all hq
    rw [gen] at hgen
    simp only [binders, unis, List.mem_cons, List.map_cons] at hd hn hZ hinj hR ⊢
    rw [List.nodup_cons] at hn hinj
    obtain ⟨v, htv, hr⟩ := hr
    have hZx : ¬ Z (op.sil x) := hZ (x, t) (.inl rfl)
    have hev : ∀ s : S, (∀ z ∈ s.fv, Z z) → evS I (upd σ (op.sil x) v) s = evS I σ s := by
      intro s hs
      refine evS_congr I s fun z hz => upd_ne _ _ ?_
      rintro rfl
      exact hZx (hs _ hz)
    have hs : ∀ y ∈ q1.1, y = x ∨ y ∈ G := fun y hy => by simpa using (scope_sub h1).2 y hy
    have hRx : R x = some (.var (op.sil x)) := hR (x, t) (.inl rfl)
    obtain ⟨σ', a1, a2, a3⟩ := ih (σ := upd σ (op.sil x) v) (ρ := upd ρ x v)
      (Z := fun z => Z z ∨ z = op.sil x) h1 hgen hf
      (by
        intro y hy s hys
        by_cases hyx : y = x
        · subst hyx
          cases hRx.symm.trans hys
          simp only [evS, upd_same]
        · have hyG : y ∈ G := (hs y hy).resolve_left hyx
          rw [hev s (hF y hyG s hys), upd_ne _ _ hyx]
          exact hV y hyG s hys)
      (by
        intro y hy s hys z hz
        by_cases hyx : y = x
        · subst hyx
          cases hRx.symm.trans hys
          simp only [S.fv, List.mem_singleton] at hz
          exact .inr hz
        · have hyG : y ∈ G := (hs y hy).resolve_left hyx
          exact .inl (hF y hyG s hys z hz))
      (fun p hp s hps => by
        rw [hev s (hg p hp s hps).2]
        exact ⟨(hg p hp s hps).1, fun z hz => .inl ((hg p hp s hps).2 z hz)⟩)
      (by rw [hev tc htcZ]; exact htc) (fun z hz => .inl (htcZ z hz)) (fun z hz => .inl (htmZ z hz))
      (fun u hu hc => by
        rcases hc with hc | hc
        · exact hZ u (.inr hu) hc
        · exact hinj.1 (hc ▸ List.mem_map_of_mem (f := fun u : Nat × Nat => op.sil u.1) hu))
      hinj.2 (fun u hu => hR u (.inr hu)) hn.2
      (fun y hy => ⟨fun hc => by
        rcases List.mem_cons.1 hc with rfl | hc
        · exact hn.1 hy
        · exact (hd y (.inr hy)).1 hc, by simp⟩) hr
    have hnx : ∀ u ∈ unis b, op.sil x ≠ op.sil u.1 := fun u hu hc =>
      hinj.1 (hc ▸ List.mem_map_of_mem (f := fun u : Nat × Nat => op.sil u.1) hu)
    refine ⟨σ', fun z hz => ?_, fun u hu ht => ?_, fun hk => ?_⟩
    · rw [a1 z fun u hu => hz u (.inr hu), upd_ne]
      exact hz (x, t) (.inl rfl)
    · rcases hu with rfl | hu
      · rw [a1 _ hnx, upd_same]
        exact htv
      · refine a2 u hu ?_
        rw [upd_ne _ _ fun h => hnx u hu h.symm]
        exact ht
    · have := a3 hk
      rwa [hev tm htmZ] at this
  | ex xs b ih =>
    intro G U q g cs σ ρ Z c hq hgen hf hV hF hg htc htcZ htmZ hZ hinj hR hn hd hr
    obtain ⟨q1, h1, hx1, rfl⟩ := scope_ex hq
    rw [gen] at hgen
    simp only [binders, unis, List.mem_append] at hd hn hZ hinj hR ⊢
    rw [List.nodup_append] at hn
    obtain ⟨vs, hl, hsat, hr⟩ := hr
    have hV' : InvV I R σ (updL ρ xs vs) G := by
      intro y hy s hys
      rw [updL_not _ _ _ fun hc => (hd y (.inl hc)).1 hy]
      exact hV y hy s hys
    exact ih h1 hgen hf (scope_V unitRes h1 hf hsat hV') (scope_F h1 hf hF) hg htc htcZ htmZ hZ hinj
      hR hn.2.1 (fun x hx => ⟨(hd x (.inr hx)).1, fun hc => hn.2.2 x hc x hx rfl⟩) hr

/-! ### The termination check of an operation -/

theorem typed_foldl : ∀ (us acc : List (Nat × Nat)), ((acc ++ us).map (·.1)).Nodup →
    us.foldl (fun acc u => if acc.any (·.1 == u.1) then acc else acc ++ [u]) acc = acc ++ us := by
  intro us
  induction us with
  | nil => intro acc _; simp
  | cons u us ih =>
    intro acc h
    have hu : ¬ acc.any (·.1 == u.1) = true := by
      simp only [List.any_eq_true, beq_iff_eq, not_exists, not_and]
      intro q hq he
      rw [List.map_append, List.nodup_append] at h
      exact h.2.2 q.1 (List.mem_map_of_mem hq) u.1 (by simp) he
    rw [List.foldl_cons, if_neg hu, ih]
    · simp
    · simpa using h

theorem getVariable_param {op : Op} {us : List (Nat × Nat)} {refs : Nat → Option S} {x : Nat}
    (h : x ∈ op.params.map (·.1)) : getVariable op us refs x = some (.var (op.sil x)) := by
  obtain ⟨p, hp, rfl⟩ := List.mem_map.1 h
  rw [getVariable, if_pos]
  exact List.any_eq_true.2 ⟨p, hp, by simp⟩

theorem getVariable_uni {op : Op} {us : List (Nat × Nat)} {refs : Nat → Option S} {x : Nat}
    (h : x ∈ us.map (·.1)) : getVariable op us refs x = some (.var (op.sil x)) := by
  obtain ⟨p, hp, rfl⟩ := List.mem_map.1 h
  rw [getVariable]
  split
  · rfl
  · rw [if_pos]
    exact List.any_eq_true.2 ⟨p, hp, by simp⟩

theorem getVariable_other {op : Op} {us : List (Nat × Nat)} {refs : Nat → Option S} {x : Nat}
    (h : x ∉ op.params.map (·.1)) (h' : x ∉ us.map (·.1)) :
    getVariable op us refs x = refs x := by
  rw [getVariable, if_neg, if_neg]
  · simpa using h'
  · simpa using h

theorem checksOf_some {P : Prog} {op : Op} {cs : List Chk} (h : checksOf P op = some cs) :
    propOk op = true ∧ ∃ look tc tm, lookOf P op = some look ∧
      trE look op.getTerminates = some tc ∧ trE look op.getMeasure = some tm ∧
      (⟨[(true, tc)], .pos tm⟩ : Chk) ∈ cs ∧
      ∀ b, op.body = some b → ∃ cs', gen P look tc tm b [] = some cs' ∧ ∀ c ∈ cs', c ∈ cs := by
  rw [checksOf] at h
  split at h
  rotate_left
  · cases h
  rename_i hp
  split at h
  · cases h
  rename_i look hl
  split at h
  rotate_left
  · cases h
  rename_i tc tm htc htm
  refine ⟨hp, look, tc, tm, hl, htc, htm, ?_⟩
  simp only at h
  split at h
  · rename_i hb
    have := Option.some.inj h
    subst this
    exact ⟨by simp, fun b hb' => by rw [hb] at hb'; cases hb'⟩
  · rename_i b hb
    split at h
    · cases h
    · rename_i cs' hcs
      have := Option.some.inj h
      subst this
      refine ⟨by simp, fun b' hb' => ?_⟩
      rw [hb] at hb'
      cases hb'
      exact ⟨cs', hcs, fun c hc => List.mem_cons_of_mem _ hc⟩

theorem lookOf_fix {P : Prog} {op : Op} {b : B} {look : Nat → Option S}
    {q : List Nat × List Def} (hb : op.body = some b)
    (hn : (op.params.map (·.1) ++ op.results ++ binders b).Nodup)
    (hq : scope P b (op.params.map (·.1) ++ op.results) [] = some q)
    (h : lookOf P op = some look) :
    ∃ refs, look = getVariable op (unis b) refs ∧ Fix look q.2 ∧ ∀ x ∈ op.results, look x = none := by
  rw [List.nodup_append] at hn
  obtain ⟨hn1, hn2, hn3⟩ := hn
  obtain ⟨hu, he, hue⟩ := binders_split hn2
  rw [lookOf, hb] at h
  simp only at h
  split at h
  · cases h
  rename_i ds hds
  split at h
  · cases h
  rename_i refs hrefs
  have hlook := Option.some.inj h
  rw [checkBody, Option.map_eq_some_iff] at hds
  obtain ⟨s', hs', rfl⟩ := hds
  have hd : ∀ x ∈ binders b, x ∉ op.params.map (·.1) ++ op.results ∧ x ∉ ([] : List Nat) :=
    fun x hx => ⟨fun hc => hn3 x hc x hx rfl, by simp⟩
  obtain ⟨a1, _⟩ := check_scope hs' hq (by simp)
    (fun x hx hc => hn3 x hx x (exis_binders hc) rfl) (fun x hx => hx) hn2 hd hue
  rw [List.nil_append] at a1
  obtain ⟨b1, b2⟩ := scope_ds hq hn2 hd
  simp only [List.not_mem_nil, false_and, false_or] at b2
  rw [translateGetters] at hrefs
  split at hrefs
  rotate_left
  · cases hrefs
  rw [a1] at hrefs
  obtain ⟨_, c2, c3⟩ := defGetters_fix hrefs b1 (fun _ _ => rfl)
  have hother : ∀ x ∈ exis b, getVariable op (unis b) refs x = refs x := by
    intro x hx
    refine getVariable_other (fun hc => hn3 x (List.mem_append_left _ hc) x (exis_binders hx) rfl) ?_
    intro hc
    obtain ⟨u, hu, rfl⟩ := List.mem_map.1 hc
    exact hue u hu hx
  refine ⟨refs, hlook.symm, ?_, ?_⟩
  · rw [← hlook]
    intro d hd s hs
    rw [hother _ (b2 d hd)] at hs
    obtain ⟨as, h1, h2⟩ := c3 d hd
    rw [h2] at hs
    exact ⟨as, h1, (Option.some.inj hs).symm⟩
  · intro x hx
    rw [← hlook, getVariable_other, c2]
    · intro hc
      obtain ⟨d, hd, rfl⟩ := List.mem_map.1 hc
      exact hn3 _ (List.mem_append_right _ hx) _ (exis_binders (b2 d hd)) rfl
    · rw [List.nodup_append] at hn1
      intro hc
      exact hn1.2.2 x hc x hx rfl
    · intro hc
      obtain ⟨u, hu, rfl⟩ := List.mem_map.1 hc
      exact hn3 _ (List.mem_append_right _ hx) _ (unis_binders hu) rfl

/-- Different parameters and universals have different Silver names. -/
def SilInj (op : Op) : Prop :=
  ((op.params ++ (match op.body with | none => [] | some b => unis b)).map fun q => op.sil q.1).Nodup

theorem silInj_of {P : Prog} {op : Op}
    (hf : ∀ x ∈ op.names, ∀ y ∈ op.names, op.sil x = op.sil y → x = y)
    (hp : (op.params.map (·.1)).Nodup) (hw : ∀ b, op.body = some b → WellScoped P op b) :
    SilInj op := by
  rw [SilInj]
  have key : ∀ l : List (Nat × Nat), (∀ q ∈ l, q.1 ∈ op.names) → (l.map (·.1)).Nodup →
      (l.map fun q => op.sil q.1).Nodup := by
    intro l
    induction l with
    | nil => intro _ _; simp
    | cons q l ih =>
      intro hm hn
      rw [List.map_cons, List.nodup_cons] at hn ⊢
      refine ⟨fun hc => ?_, ih (fun q hq => hm q (List.mem_cons_of_mem _ hq)) hn.2⟩
      obtain ⟨q', hq', he⟩ := List.mem_map.1 hc
      have := hf _ (hm q' (List.mem_cons_of_mem _ hq')) _ (hm q List.mem_cons_self) he
      exact hn.1 (this ▸ List.mem_map_of_mem hq')
  cases hb : op.body with
  | none =>
    refine key _ (fun q hq => ?_) (by simpa using hp)
    rw [Op.names]
    exact List.mem_append_left _ (List.mem_map_of_mem (by simpa using hq))
  | some b =>
    refine key _ (fun q hq => ?_) ?_
    · rw [Op.names, hb]
      rcases List.mem_append.1 hq with hq | hq
      · exact List.mem_append_left _ (List.mem_map_of_mem hq)
      · exact List.mem_append_right _ (unis_binders hq)
    · have := (hw b hb).1
      rw [List.nodup_append] at this
      simp only [List.map_append]
      rw [List.nodup_append]
      refine ⟨hp, (binders_split this.2.1).1, fun x hx y hy hxy => ?_⟩
      subst hxy
      obtain ⟨u, hu, rfl⟩ := List.mem_map.1 hy
      exact this.2.2 _ (List.mem_append_left _ hx) _ (unis_binders hu) rfl

theorem env_exists (I : Interp V) (hty : ∀ t, ∃ v, I.ty t v) (sil : Nat → Nat)
    (ps us : List (Nat × Nat)) (vs : List V) (hl : vs.length = ps.length)
    (hn : ((ps ++ us).map fun q => sil q.1).Nodup) (ht : ∀ q ∈ ps.zip vs, I.ty q.1.2 q.2) :
    ∃ σ : Nat → V, (∀ q ∈ ps.zip vs, σ (sil q.1.1) = q.2) ∧
      ∀ q ∈ ps ++ us, I.ty q.2 (σ (sil q.1)) := by
  induction ps generalizing vs with
  | nil =>
    induction us with
    | nil => exact ⟨fun _ => I.lit 0, by simp, by simp⟩
    | cons u us ih =>
      simp only [List.nil_append, List.map_cons, List.nodup_cons] at hn ih
      obtain ⟨σ, h1, h2⟩ := ih hn.2
      obtain ⟨v, hv⟩ := hty u.2
      refine ⟨upd σ (sil u.1) v, by simp, fun q hq => ?_⟩
      rcases List.mem_cons.1 hq with rfl | hq
      · rw [upd_same]; exact hv
      · rw [upd_ne]
        · exact h2 q hq
        · exact fun hc => hn.1 (hc ▸ List.mem_map_of_mem (f := fun q : Nat × Nat => sil q.1) hq)
  | cons p ps ih =>
    cases vs with
    | nil => cases hl
    | cons v vs =>
      simp only [List.cons_append, List.map_cons, List.nodup_cons] at hn
      rw [List.zip_cons_cons] at ht
      obtain ⟨σ, h1, h2⟩ := ih vs (by simpa using hl) hn.2 fun q hq => ht q (List.mem_cons_of_mem _ hq)
      refine ⟨upd σ (sil p.1) v, fun q hq => ?_, fun q hq => ?_⟩
      · rw [List.zip_cons_cons] at hq
        rcases List.mem_cons.1 hq with rfl | hq
        · rw [upd_same]
        · rw [upd_ne]
          · exact h1 q hq
          · exact fun hc => hn.1 (hc ▸ List.mem_map_of_mem (f := fun q : Nat × Nat => sil q.1)
              (List.mem_append_left us (List.of_mem_zip hq).1))
      · rcases List.mem_cons.1 hq with rfl | hq
        · rw [upd_same]; exact ht (q, v) List.mem_cons_self
        · rw [upd_ne]
          · exact h2 q hq
          · exact fun hc => hn.1 (hc ▸ List.mem_map_of_mem (f := fun q : Nat × Nat => sil q.1) hq)

theorem mem_zip_left {α β : Type} {x : α} : ∀ {xs : List α} {ys : List β},
    ys.length = xs.length → x ∈ xs → ∃ y, (x, y) ∈ xs.zip ys := by
  intro xs
  induction xs with
  | nil => intro ys _ h; cases h
  | cons a xs ih =>
    intro ys hl h
    cases ys with
    | nil => cases hl
    | cons b ys =>
      rcases List.mem_cons.1 h with rfl | h
      · exact ⟨b, by simp⟩
      · obtain ⟨y, hy⟩ := ih (by simpa using hl) h
        exact ⟨y, by simp [hy]⟩

/-- What the termination check of an operation means for its instances. -/
theorem op_good {P : Prog} {o : Nat} {op : Op} {cs : List Chk} {vs : List V}
    (hop : P o = some op) (hp : ∀ o op, P o = some op → propOk op = true)
    (hcs : checksOf P op = some cs) (hver : Verifies I op cs)
    (hws : ∀ b, op.body = some b → WellScoped P op b) (hinj : SilInj op)
    (hpn : (op.params.map (·.1)).Nodup)
    (hty : ∀ t, ∃ v, I.ty t v) (ht : Typed I P (o, vs))
    (hterm : I.truth (evE I (opEnv I o op vs) op.getTerminates)) :
    I.num (evE I (opEnv I o op vs) op.getMeasure) > 0 ∧
      ∀ c, Expands I P (o, vs) c → Good I P (I.num (evE I (opEnv I o op vs) op.getMeasure)) c := by
  obtain ⟨hprop, look, tc, tm, hlook, htc, htm, hfirst, hgen⟩ := checksOf_some hcs
  obtain ⟨hl, hts⟩ := ht op hop
  simp only at hl hts
  have htyped : typed op = op.params ++ (match op.body with | none => [] | some b => unis b) := by
    rw [typed]
    refine typed_foldl _ _ ?_
    cases hb : op.body with
    | none => simpa using hpn
    | some b =>
      have := (hws b hb).1
      rw [List.nodup_append] at this
      simp only [List.map_append]
      rw [List.nodup_append]
      refine ⟨hpn, (binders_split this.2.1).1, fun x hx y hy hxy => ?_⟩
      subst hxy
      obtain ⟨u, hu, rfl⟩ := List.mem_map.1 hy
      exact this.2.2 _ (List.mem_append_left _ hx) _ (unis_binders hu) rfl
  obtain ⟨σ, hσ1, hσ2⟩ := env_exists I hty op.sil op.params _ vs hl hinj hts
  have hlookp : ∀ x ∈ op.params.map (·.1), look x = some (.var (op.sil x)) := by
    intro x hx
    cases hb : op.body with
    | none => rw [lookOf, hb] at hlook; cases hlook; exact getVariable_param hx
    | some b =>
      obtain ⟨hn, q, hq⟩ := hws b hb
      obtain ⟨refs, rfl, _, _⟩ := lookOf_fix hb hn hq hlook
      exact getVariable_param hx
  have hpV : ∀ x ∈ op.params.map (·.1), σ (op.sil x) = opEnv I o op vs x := by
    intro x hx
    obtain ⟨p, hp', rfl⟩ := List.mem_map.1 hx
    obtain ⟨v, hv⟩ := mem_zip_left hl hp'
    rw [hσ1 _ hv, opEnv]
    refine (updL_zip _ _ _ hpn (p := (p.1, v)) ?_).symm
    rw [List.zip_map_left]
    exact List.mem_map.2 ⟨(p, v), hv, rfl⟩
  have hV : InvV I look σ (opEnv I o op vs) (op.params.map (·.1)) := by
    intro x hx s hs
    rw [hlookp x hx] at hs
    cases hs
    simp only [evS]
    exact hpV x hx
  have hF : InvF look (op.params.map (·.1)) (fun z => ∃ x ∈ op.params.map (·.1), z = op.sil x) := by
    intro x hx s hs z hz
    rw [hlookp x hx] at hs
    cases hs
    simp only [S.fv, List.mem_singleton] at hz
    exact ⟨x, hx, hz⟩
  have etc : evS I σ tc = evE I (opEnv I o op vs) op.getTerminates :=
    trE_ev hV (propOk_names hprop).1 htc
  have etm : evS I σ tm = evE I (opEnv I o op vs) op.getMeasure :=
    trE_ev hV (propOk_names hprop).2 htm
  have hσt : ∀ q ∈ typed op, I.ty q.2 (σ (op.sil q.1)) := by rw [htyped]; exact hσ2
  constructor
  · have := hver σ hσt _ hfirst (by
      intro g hg
      simp only [List.mem_singleton] at hg
      subst hg
      simp only [etc]
      exact ⟨fun _ => trivial, fun _ => hterm⟩)
    simp only [Concl.Holds, etm] at this
    exact this
  · rintro c ⟨op', b, hop', hb, _, hr⟩
    cases hop.symm.trans hop'
    obtain ⟨hn, q, hq⟩ := hws b hb
    obtain ⟨refs, rfl, hfix, hres⟩ := lookOf_fix hb hn hq hlook
    obtain ⟨cs', hcs', hsub⟩ := hgen b hb
    rw [hb] at hσ2 htyped
    simp only at hσ2 htyped
    have hq1 : ∀ x ∈ q.1, x ∈ op.params.map (·.1) ∨ x ∈ op.results := fun x hx => by
      simpa using (scope_sub hq).2 x hx
    rw [List.nodup_append] at hn
    have hinj' := hinj
    rw [SilInj, hb] at hinj'
    simp only [List.map_append] at hinj'
    rw [List.nodup_append] at hinj'
    obtain ⟨σ', a1, a2, a3⟩ := reach_good (op := op) (Z := fun z => ∃ x ∈ op.params.map (·.1), z = op.sil x)
      (σ := σ) (g := []) hp hq hcs' hfix
      (fun x hx s hs => by
        rcases hq1 x hx with hx | hx
        · exact hV x hx s hs
        · rw [hres x hx] at hs; cases hs)
      (fun x hx s hs => by
        rcases hq1 x hx with hx | hx
        · exact hF x hx s hs
        · rw [hres x hx] at hs; cases hs)
      (by simp) (by rw [etc]; exact hterm) (trE_fv hF (propOk_names hprop).1 htc)
      (trE_fv hF (propOk_names hprop).2 htm)
      (fun u hu hc => by
        obtain ⟨x, hx, he⟩ := hc
        obtain ⟨p, hp', rfl⟩ := List.mem_map.1 hx
        exact hinj'.2.2 _ (List.mem_map_of_mem (f := fun q : Nat × Nat => op.sil q.1) hp') _
          (List.mem_map_of_mem hu) he.symm)
      hinj'.2.1
      (fun u hu => getVariable_uni (List.mem_map_of_mem hu)) hn.2.1
      (fun x hx => ⟨fun hc => hn.2.2 x hc x hx rfl, by simp⟩) hr
    rw [etm] at a3
    refine a3 fun k hk => hver σ' ?_ k (hsub k hk)
    intro p hp'
    rw [htyped] at hp'
    rcases List.mem_append.1 hp' with hp' | hp'
    · rw [a1]
      · exact hσ2 p (List.mem_append_left _ hp')
      · intro u hu hc
        exact hinj'.2.2 _ (List.mem_map_of_mem (f := fun q : Nat × Nat => op.sil q.1) hp') _
          (List.mem_map_of_mem hu) hc
    · exact a2 p hp' (hσ2 p (List.mem_append_right _ hp'))

end Nagini.IO
