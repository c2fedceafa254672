import Verif.Lemmas.IOTerm
/-!
Lemmas about the translation of `Open`.
-/
set_option linter.unusedVariables false
set_option linter.unusedSimpArgs false
namespace Nagini.IO

variable {V H : Type} {I : Interp V}

/-! ### Substitutions -/

mutual
/-- Simultaneous substitution. -/
def S.subst (τ : Nat → S) : S → S
  | .var y => τ y
  | .bool b => .bool b
  | .const k => .const k
  | .bin f l r => .bin f (S.subst τ l) (S.subst τ r)
  | .get o r args => .get o r (S.substL τ args)
/-- Simultaneous substitution in lists. -/
def S.substL (τ : Nat → S) : List S → List S
  | [] => []
  | s :: ss => S.subst τ s :: S.substL τ ss
end

/-- Simultaneous substitution in assertions, without care for bound variables. -/
def SB.subst (τ : Nat → S) : SB → SB
  | .acc o args => .acc o (S.substL τ args)
  | .pure s => .pure (S.subst τ s)
  | .eq l r => .eq (S.subst τ l) (S.subst τ r)
  | .and a b => .and (a.subst τ) (b.subst τ)
  | .implies s b => .implies (S.subst τ s) (b.subst τ)
  | .ife s a b => .ife (S.subst τ s) (a.subst τ) (b.subst τ)
  | .all t t' y b => .all t t' y (b.subst τ)

mutual
theorem subst_congr {τ τ' : Nat → S} : ∀ s : S, (∀ z ∈ s.fv, τ z = τ' z) →
    S.subst τ s = S.subst τ' s
  | .var x, h => by simp only [S.subst]; exact h x (by simp [S.fv])
  | .bool _, _ => by simp only [S.subst]
  | .const _, _ => by simp only [S.subst]
  | .bin f l r, h => by
    simp only [S.fv, List.mem_append] at h
    simp only [S.subst]
    rw [subst_congr l fun z hz => h z (.inl hz), subst_congr r fun z hz => h z (.inr hz)]
  | .get o r args, h => by
    simp only [S.fv] at h
    simp only [S.subst]
    rw [substL_congr args h]
theorem substL_congr {τ τ' : Nat → S} : ∀ ss : List S, (∀ z ∈ S.fvL ss, τ z = τ' z) →
    S.substL τ ss = S.substL τ' ss
  | [], _ => by simp only [S.substL]
  | s :: ss, h => by
    simp only [S.fvL, List.mem_append] at h
    simp only [S.substL]
    rw [subst_congr s fun z hz => h z (.inl hz), substL_congr ss fun z hz => h z (.inr hz)]
end

mutual
theorem subst_var : ∀ s : S, S.subst .var s = s
  | .var x => by simp only [S.subst]
  | .bool _ => by simp only [S.subst]
  | .const _ => by simp only [S.subst]
  | .bin f l r => by simp only [S.subst]; rw [subst_var l, subst_var r]
  | .get o r args => by simp only [S.subst]; rw [substL_var args]
theorem substL_var : ∀ ss : List S, S.substL .var ss = ss
  | [] => by simp only [S.substL]
  | s :: ss => by simp only [S.substL]; rw [subst_var s, substL_var ss]
end

theorem substB_var : ∀ b : SB, SB.subst .var b = b := by
  intro b
  induction b <;> simp_all [SB.subst, subst_var, substL_var]

mutual
/-- Replacing before substituting. -/
theorem subst_replace {τ : Nat → S} {x : Nat} {d : S} : ∀ s : S,
    S.subst τ (S.replace x d s) = S.subst (fun z => if z = x then S.subst τ d else τ z) s
  | .var y => by
    simp only [S.replace, S.subst]
    split <;> simp [S.subst]
  | .bool _ => by simp only [S.replace, S.subst]
  | .const _ => by simp only [S.replace, S.subst]
  | .bin f l r => by simp only [S.replace, S.subst]; rw [subst_replace l, subst_replace r]
  | .get o r args => by simp only [S.replace, S.subst]; rw [substL_replace args]
theorem substL_replace {τ : Nat → S} {x : Nat} {d : S} : ∀ ss : List S,
    S.substL τ (S.replaceL x d ss) = S.substL (fun z => if z = x then S.subst τ d else τ z) ss
  | [] => by simp only [S.replaceL, S.substL]
  | s :: ss => by simp only [S.replaceL, S.substL]; rw [subst_replace s, substL_replace ss]
end

theorem substB_replace {τ : Nat → S} {x : Nat} {d : S} : ∀ b : SB,
    SB.subst τ (SB.replace x d b) = SB.subst (fun z => if z = x then S.subst τ d else τ z) b := by
  intro b
  induction b <;> simp_all [SB.replace, SB.subst, subst_replace, substL_replace]

mutual
/-- The variables after replacing. -/
theorem fv_replace {x : Nat} {d : S} {z : Nat} : ∀ s : S, z ∈ (S.replace x d s).fv →
    (z ∈ s.fv ∧ z ≠ x) ∨ (z ∈ d.fv ∧ x ∈ s.fv)
  | .var y, h => by
    simp only [S.replace] at h
    split at h
    · rename_i hy; subst hy; exact .inr ⟨h, by simp [S.fv]⟩
    · rename_i hy
      simp only [S.fv, List.mem_singleton] at h
      subst h
      exact .inl ⟨by simp [S.fv], hy⟩
  | .bool _, h => by simp [S.replace, S.fv] at h
  | .const _, h => by simp [S.replace, S.fv] at h
  | .bin f l r, h => by
    simp only [S.replace, S.fv, List.mem_append] at h ⊢
    rcases h with h | h
    · rcases fv_replace l h with h | h
      · exact .inl ⟨.inl h.1, h.2⟩
      · exact .inr ⟨h.1, .inl h.2⟩
    · rcases fv_replace r h with h | h
      · exact .inl ⟨.inr h.1, h.2⟩
      · exact .inr ⟨h.1, .inr h.2⟩
  | .get o r args, h => by
    simp only [S.replace, S.fv] at h ⊢
    exact fvL_replace args h
theorem fvL_replace {x : Nat} {d : S} {z : Nat} : ∀ ss : List S, z ∈ S.fvL (S.replaceL x d ss) →
    (z ∈ S.fvL ss ∧ z ≠ x) ∨ (z ∈ d.fv ∧ x ∈ S.fvL ss)
  | [], h => by simp [S.replaceL, S.fvL] at h
  | s :: ss, h => by
    simp only [S.replaceL, S.fvL, List.mem_append] at h ⊢
    rcases h with h | h
    · rcases fv_replace s h with h | h
      · exact .inl ⟨.inl h.1, h.2⟩
      · exact .inr ⟨h.1, .inl h.2⟩
    · rcases fvL_replace ss h with h | h
      · exact .inl ⟨.inr h.1, h.2⟩
      · exact .inr ⟨h.1, .inr h.2⟩
end

/-! ### The elimination of opened variables -/

theorem lookup_map (f : Nat → S → S) (D : Defs) (y : Nat) :
    (D.map fun p => (p.1, f p.1 p.2)).lookup y = (D.lookup y).map (f y) := by
  induction D with
  | nil => rfl
  | cons p D ih =>
    obtain ⟨a, s⟩ := p
    simp only [List.map_cons, List.lookup_cons]
    by_cases h : y = a
    · subst h; simp
    · have : (y == a) = false := by simpa using h
      rw [this]
      simpa using ih

/-- The loop substitutes the definitions, provided these are not circular (`rk`). -/
theorem elim_subst {al : Nat → Nat} {rk : Nat → Nat} : ∀ {xs : List Nat} {D : Defs},
    xs.Nodup → (∀ x ∈ xs, ∀ y ∈ xs, al x = al y → x = y) →
    (∀ x ∈ xs, ∃ d, D.lookup x = some d) →
    (∀ x ∈ xs, ∀ d, D.lookup x = some d → ∀ y ∈ xs, al y ∈ d.fv → rk y < rk x) →
    ∃ τ : Nat → S, (∀ b, elim al xs D b = some (SB.subst τ b)) ∧
      (∀ x ∈ xs, ∀ d, D.lookup x = some d → τ (al x) = S.subst τ d) ∧
      (∀ z, (∀ x ∈ xs, z ≠ al x) → τ z = .var z) := by
  intro xs
  induction xs with
  | nil =>
    intro D _ _ _ _
    exact ⟨.var, fun b => by rw [elim, substB_var], by simp, fun _ _ => rfl⟩
  | cons x xs ih =>
    intro D hn hal hex hrk
    rw [List.nodup_cons] at hn
    obtain ⟨d, hd⟩ := hex x List.mem_cons_self
    let D' : Defs := D.map fun p => (p.1, if p.1 = x then p.2 else S.replace (al x) d p.2)
    have hD' : (D.map fun p => if p.1 = x then p else (p.1, S.replace (al x) d p.2)) = D' := by
      refine List.map_congr_left fun p _ => ?_
      split <;> rfl
    have hlk : ∀ y ∈ xs, ∀ e, D'.lookup y = some e →
        ∃ e0, D.lookup y = some e0 ∧ e = S.replace (al x) d e0 := by
      intro y hy e he
      have hyx : y ≠ x := fun h => hn.1 (h ▸ hy)
      rw [lookup_map (fun a s => if a = x then s else S.replace (al x) d s), Option.map_eq_some_iff] at he
      obtain ⟨e0, h1, h2⟩ := he
      rw [if_neg hyx] at h2
      exact ⟨e0, h1, h2.symm⟩
    have hxd : al x ∉ d.fv := fun hc => Nat.lt_irrefl _ (hrk x List.mem_cons_self d hd x List.mem_cons_self hc)
    have hne : ∀ y ∈ xs, al y ≠ al x := fun y hy h =>
      hn.1 (hal y (List.mem_cons_of_mem _ hy) x List.mem_cons_self h ▸ hy)
    obtain ⟨τ, t1, t2, t3⟩ := ih (D := D') hn.2
      (fun a ha c hc => hal a (List.mem_cons_of_mem _ ha) c (List.mem_cons_of_mem _ hc))
      (fun y hy => by
        obtain ⟨e, he⟩ := hex y (List.mem_cons_of_mem _ hy)
        exact ⟨_, by rw [lookup_map (fun a s => if a = x then s else S.replace (al x) d s), he]; rfl⟩)
      (fun y hy e he z hz hzf => by
        obtain ⟨e0, h1, rfl⟩ := hlk y hy e he
        rcases fv_replace e0 hzf with h | h
        · exact hrk y (List.mem_cons_of_mem _ hy) e0 h1 z (List.mem_cons_of_mem _ hz) h.1
        · exact Nat.lt_trans (hrk x List.mem_cons_self d hd z (List.mem_cons_of_mem _ hz) h.1)
            (hrk y (List.mem_cons_of_mem _ hy) e0 h1 x List.mem_cons_self h.2))
    refine ⟨fun z => if z = al x then S.subst τ d else τ z, fun b => ?_, fun y hy e he => ?_,
      fun z hz => ?_⟩
    · rw [elim, hd]
      simp only
      rw [hD', t1, substB_replace]
    · simp only
      rcases List.mem_cons.1 hy with rfl | hy
      · cases hd.symm.trans he
        rw [if_pos rfl]
        refine subst_congr d fun z hz => ?_
        rw [if_neg]
        rintro rfl
        exact hxd hz
      · rw [if_neg (hne y hy), ← subst_replace]
        refine t2 y hy _ ?_
        rw [lookup_map (fun a s => if a = x then s else S.replace (al x) d s), he]
        have hyx : y ≠ x := fun h => hn.1 (h ▸ hy)
        simp [hyx]
    · simp only
      rw [if_neg (hz x List.mem_cons_self)]
      exact t3 z fun y hy => hz y (List.mem_cons_of_mem _ hy)

/-! ### Translation of the body -/

theorem trE_some {R : Nat → Option S} : ∀ {e : E}, (∀ x ∈ e.names, ∃ s, R x = some s) →
    ∃ s, trE R e = some s := by
  intro e
  induction e with
  | name x => intro h; rw [trE]; exact h x (by simp [E.names])
  | bool b => intro _; exact ⟨_, rfl⟩
  | const k => intro _; exact ⟨_, rfl⟩
  | bin f l r ihl ihr =>
    intro h
    simp only [E.names, List.mem_append] at h
    obtain ⟨a, ha⟩ := ihl fun x hx => h x (.inl hx)
    obtain ⟨c, hc⟩ := ihr fun x hx => h x (.inr hx)
    exact ⟨_, by rw [trE, ha, hc]⟩

theorem trArgs_some {R : Nat → Option S} : ∀ {es : List E},
    (∀ e ∈ es, ∀ x ∈ e.names, ∃ s, R x = some s) → ∃ ss, trArgs R es = some ss := by
  intro es
  induction es with
  | nil => intro _; exact ⟨_, rfl⟩
  | cons e es ih =>
    intro h
    obtain ⟨a, ha⟩ := trE_some (h e List.mem_cons_self)
    obtain ⟨c, hc⟩ := ih fun e he => h e (List.mem_cons_of_mem _ he)
    exact ⟨_, by rw [trArgs, ha, hc]⟩

theorem trE_subst {R : Nat → Option S} {τ : Nat → S} : ∀ {e : E} {s : S}, trE R e = some s →
    trE (fun x => (R x).map (S.subst τ)) e = some (S.subst τ s) := by
  intro e
  induction e with
  | name x => intro s h; rw [trE] at h ⊢; rw [h]; rfl
  | bool b => intro s h; rw [trE] at h ⊢; cases h; simp [S.subst]
  | const k => intro s h; rw [trE] at h ⊢; cases h; simp [S.subst]
  | bin f l r ihl ihr =>
    intro s h
    obtain ⟨sl, sr, h1, h2, rfl⟩ := trE_bin h
    rw [trE, ihl h1, ihr h2]
    simp [S.subst]

theorem trArgs_subst {R : Nat → Option S} {τ : Nat → S} : ∀ {es : List E} {ss : List S},
    trArgs R es = some ss →
    trArgs (fun x => (R x).map (S.subst τ)) es = some (S.substL τ ss) := by
  intro es
  induction es with
  | nil => intro ss h; rw [trArgs] at h ⊢; cases h; simp [S.substL]
  | cons e es ih =>
    intro ss h
    obtain ⟨s, ss', h1, h2, rfl⟩ := trArgs_cons h
    rw [trArgs, trE_subst h1, ih h2]
    simp [S.substL]

/-- The names in result position are results or existentials. -/
def ResOk (K : Nat → Prop) : B → Prop
  | .call _ _ rs => ∀ x ∈ rs, K x
  | .pure _ => True
  | .and l r => ResOk K l ∧ ResOk K r
  | .implies _ b => ResOk K b
  | .ife _ a b => ResOk K a ∧ ResOk K b
  | .all _ _ b => ResOk K b
  | .ex _ b => ResOk K b

theorem cResults_ok {allowed : Nat → Bool} {o : Nat} {args : List E} : ∀ {xs rs : List Nat}
    {s s' : CSt}, cResults allowed o args xs rs s = some s' → ∀ x ∈ xs, allowed x = true := by
  intro xs
  induction xs with
  | nil => intro rs s s' _ x hx; cases hx
  | cons x xs ih =>
    intro rs s s' h y hy
    cases rs with
    | nil => simp [cResults] at h
    | cons r rs =>
      rw [cResults] at h
      by_cases ha : allowed x = true
      · rw [if_pos ha] at h
        rcases List.mem_cons.1 hy with rfl | hy
        · exact ha
        · split at h
          · exact ih h y hy
          · exact ih h y hy
      · rw [if_neg ha] at h; cases h

theorem check_ok {P : Prog} {allowed : Nat → Bool} : ∀ {b : B} {s s' : CSt},
    check P allowed b s = some s' → ResOk (fun x => allowed x = true) b := by
  intro b
  induction b with
  | call o args rs =>
    intro s s' h
    rw [check] at h
    split at h
    · cases h
    · simp only [Option.bind_eq_some_iff] at h
      obtain ⟨s1, h1, _⟩ := h
      exact cResults_ok h1
  | pure e => intro s s' _; trivial
  | and l r ihl ihr =>
    intro s s' h
    simp only [check, Option.bind_eq_some_iff] at h
    obtain ⟨s1, h1, h2⟩ := h
    exact ⟨ihl h1, ihr h2⟩
  | implies e b ih =>
    intro s s' h
    simp only [check, Option.bind_eq_some_iff] at h
    obtain ⟨s1, h1, h2⟩ := h
    exact ih h2
  | ife e a b iha ihb =>
    intro s s' h
    simp only [check, Option.bind_eq_some_iff] at h
    obtain ⟨s1, h1, s2, h2, h3⟩ := h
    exact ⟨iha h2, ihb h3⟩
  | all t x b ih => intro s s' h; exact ih h
  | ex xs b ih => intro s s' h; exact ih h

theorem scRes_defs {U : List Nat} {o : Nat} {args : List E} : ∀ {rs xs G : List Nat}
    {q : List Nat × List Def}, scRes U o args rs xs G = some q →
      ∀ x ∈ q.1, x ∈ G ∨ x ∈ q.2.map (·.x) := by
  intro rs
  induction rs with
  | nil =>
    intro xs G q h
    cases xs with
    | nil => rw [scRes] at h; cases h; exact fun x hx => .inl hx
    | cons => simp [scRes] at h
  | cons r rs ih =>
    intro xs G q h
    cases xs with
    | nil => simp [scRes] at h
    | cons x xs =>
      rw [scRes] at h
      split at h
      · exact ih h
      · split at h
        · rw [Option.map_eq_some_iff] at h
          obtain ⟨q', hq, rfl⟩ := h
          intro y hy
          simp only [List.map_cons, List.mem_cons]
          rcases ih hq y hy with h | h
          · rcases List.mem_cons.1 h with h | h
            · exact .inr (.inl h)
            · exact .inl h
          · exact .inr (.inr h)
        · cases h

/-- Names are in scope because they were or because they have been defined. -/
theorem scope_defs {P : Prog} : ∀ {b : B} {G U : List Nat} {q : List Nat × List Def},
    scope P b G U = some q → ∀ x ∈ q.1, x ∈ G ∨ x ∈ q.2.map (·.x) := by
  intro b
  induction b with
  | call o args rs =>
    intro G U q h
    obtain ⟨op, _, _, _, h⟩ := scope_call h
    exact scRes_defs h
  | pure e => intro G U q h; obtain ⟨_, rfl⟩ := scope_pure h; exact fun _ h => .inl h
  | and l r ihl ihr =>
    intro G U q h x hx
    obtain ⟨q1, q2, h1, h2, rfl⟩ := scope_and h
    simp only [List.map_append, List.mem_append]
    rcases ihr h2 x hx with h | h
    · rcases ihl h1 x h with h | h
      · exact .inl h
      · exact .inr (.inl h)
    · exact .inr (.inr h)
  | implies e b ih => intro G U q h; obtain ⟨_, q1, _, rfl⟩ := scope_implies h; exact fun _ h => .inl h
  | ife e a b iha ihb =>
    intro G U q h; obtain ⟨_, q1, q2, _, _, rfl⟩ := scope_ife h; exact fun _ h => .inl h
  | all t x b ih => intro G U q h; obtain ⟨q1, _, rfl⟩ := scope_all h; exact fun _ h => .inl h
  | ex xs b ih => intro G U q h; obtain ⟨q1, _, _, rfl⟩ := scope_ex h; exact fun _ h => .inl h

/-- Every existential is defined. -/
theorem scope_exis {P : Prog} : ∀ {b : B} {G U : List Nat} {q : List Nat × List Def},
    scope P b G U = some q → (binders b).Nodup → (∀ x ∈ binders b, x ∉ G ∧ x ∉ U) →
    ∀ x ∈ exis b, x ∈ q.2.map (·.x) := by
  intro b
  induction b with
  | call o args rs => intro G U q h _ _ x hx; cases hx
  | pure e => intro G U q h _ _ x hx; cases hx
  | and l r ihl ihr =>
    intro G U q h hn hd x hx
    obtain ⟨q1, q2, h1, h2, rfl⟩ := scope_and h
    simp only [binders, exis, List.mem_append, List.map_append] at hd hx hn ⊢
    rw [List.nodup_append] at hn
    refine hx.imp (ihl h1 hn.1 (fun x hx => hd x (.inl hx)) x) (ihr h2 hn.2.1 (fun x hx => ?_) x)
    refine ⟨fun hc => ?_, (hd x (.inr hx)).2⟩
    rcases (scope_sub h1).2 x hc with hc | hc
    · exact (hd x (.inr hx)).1 hc
    · exact (hd x (.inr hx)).2 hc
  | implies e b ih =>
    intro G U q h hn hd x hx
    obtain ⟨_, q1, h1, rfl⟩ := scope_implies h
    show x ∈ q1.2.map (·.x)
    exact ih h1 hn (fun x hx => ⟨(hd x hx).1, by simp⟩) x hx
  | ife e a b iha ihb =>
    intro G U q h hn hd x hx
    obtain ⟨_, q1, q2, h1, h2, rfl⟩ := scope_ife h
    simp only [binders, exis, List.mem_append, List.map_append] at hd hx hn ⊢
    rw [List.nodup_append] at hn
    exact hx.imp (iha h1 hn.1 (fun x hx => ⟨(hd x (.inl hx)).1, by simp⟩) x)
      (ihb h2 hn.2.1 (fun x hx => ⟨(hd x (.inr hx)).1, by simp⟩) x)
  | all t x b ih =>
    intro G U q h hn hd y hy
    obtain ⟨q1, h1, rfl⟩ := scope_all h
    simp only [binders, List.nodup_cons, List.mem_cons] at hn hd
    show y ∈ q1.2.map (·.x)
    refine ih h1 hn.2 (fun z hz => ⟨fun hc => ?_, by simp⟩) y hy
    rcases List.mem_cons.1 hc with rfl | hc
    · exact hn.1 hz
    · exact (hd z (.inr hz)).1 hc
  | ex xs b ih =>
    intro G U q h hn hd y hy
    obtain ⟨q1, h1, hx, rfl⟩ := scope_ex h
    simp only [binders, List.nodup_append, List.mem_append] at hn hd
    show y ∈ q1.2.map (·.x)
    simp only [exis, List.mem_append] at hy
    rcases hy with hy | hy
    · exact (scope_defs h1 y (hx y hy)).resolve_left (hd y (.inl hy)).1
    · exact ih h1 hn.2.1 (fun z hz => ⟨(hd z (.inr hz)).1, fun hc => hn.2.2 z hc z hz rfl⟩) y hy

/-- Definitions in an order in which they only mention opened variables that are defined before. -/
def Ord (al : Nat → Nat) (K : Nat → Prop) (D : Defs) : Prop :=
  (D.map (·.1)).Nodup ∧ ∀ D1 p D2, D = D1 ++ p :: D2 →
    ∀ z, K z → al z ∈ p.2.fv → z ∈ D1.map (·.1)

theorem Ord.snoc {al : Nat → Nat} {K : Nat → Prop} {D : Defs} {x : Nat} {d : S}
    (h : Ord al K D) (hx : x ∉ D.map (·.1)) (hd : ∀ z, K z → al z ∈ d.fv → z ∈ D.map (·.1)) :
    Ord al K (D ++ [(x, d)]) := by
  refine ⟨?_, fun D1 p D2 he z hz hzf => ?_⟩
  · rw [List.map_append, List.nodup_append]
    refine ⟨h.1, by simp, fun a ha c hc hac => ?_⟩
    simp only [List.map_cons, List.map_nil, List.mem_singleton] at hc
    exact hx (hc ▸ hac ▸ ha)
  · rcases List.eq_nil_or_concat D2 with rfl | ⟨D2', p', rfl⟩
    · have := List.append_inj' he (by simp)
      obtain ⟨rfl, h2⟩ := this
      simp only [List.cons.injEq, and_true] at h2
      subst h2
      exact hd z hz hzf
    · rw [List.concat_eq_append, ← List.cons_append, ← List.append_assoc] at he
      have := List.append_inj' he (by simp)
      exact h.2 D1 p D2' this.1 z hz hzf

theorem openResults_spec {al : Nat → Nat} {K : Nat → Prop} {U : List Nat} {o : Nat} {args : List E}
    {as : List S} : ∀ {rs xs G : List Nat} {q : List Nat × List Def} {D : Defs},
      scRes U o args rs xs G = some q → (∀ x ∈ xs, K x) →
      (∀ x ∈ G, K x → x ∈ D.map (·.1)) → (∀ x ∈ U, x ∉ G → x ∉ D.map (·.1)) →
      (∀ z, K z → al z ∈ S.fvL as → z ∈ D.map (·.1)) → Ord al K D →
      (openResults al o as rs xs D).2 = D ++ q.2.map (fun d => (d.x, S.get o d.r as)) ∧
      (∀ d ∈ q.2, d.o = o) ∧ Ord al K (openResults al o as rs xs D).2 ∧
      (∀ e ∈ (openResults al o as rs xs D).1, ∃ p ∈ rs.zip xs,
        e = .eq (.get o p.1 as) (.var (al p.2))) ∧
      (∀ p ∈ rs.zip xs, SB.eq (.get o p.1 as) (.var (al p.2)) ∈ (openResults al o as rs xs D).1 ∨
        ∃ d ∈ q.2, d.x = p.2 ∧ d.r = p.1) := by
  intro rs
  induction rs with
  | nil =>
    intro xs G q D h _ _ _ _ hO
    cases xs with
    | nil => rw [scRes] at h; cases h; simp [openResults]; exact hO
    | cons => simp [scRes] at h
  | cons r rs ih =>
    intro xs G q D h hK hG hU has hO
    cases xs with
    | nil => simp [scRes] at h
    | cons x xs =>
      rw [scRes] at h
      split at h
      · rename_i hx
        have hxD := hG x hx (hK x List.mem_cons_self)
        obtain ⟨a1, a2, a3, a4, a5⟩ := ih h (fun y hy => hK y (List.mem_cons_of_mem _ hy)) hG hU has hO
        have he : openResults al o as (r :: rs) (x :: xs) D =
            (.eq (.get o r as) (.var (al x)) :: (openResults al o as rs xs D).1,
              (openResults al o as rs xs D).2) := by
          rw [openResults, if_pos]
          simpa using hxD
        rw [he]
        refine ⟨a1, a2, a3, fun e he => ?_, fun p hp => ?_⟩
        · rw [List.zip_cons_cons]
          rcases List.mem_cons.1 he with rfl | he
          · exact ⟨(r, x), by simp, rfl⟩
          · obtain ⟨p, hp, h⟩ := a4 e he
            exact ⟨p, List.mem_cons_of_mem _ hp, h⟩
        · rw [List.zip_cons_cons] at hp
          rcases List.mem_cons.1 hp with rfl | hp
          · exact .inl List.mem_cons_self
          · exact (a5 p hp).imp (List.mem_cons_of_mem _) id
      · rename_i hx
        split at h
        · rename_i hxU
          rw [Option.map_eq_some_iff] at h
          obtain ⟨q', hq, rfl⟩ := h
          have hxD := hU x hxU hx
          have hkeys : (D ++ [(x, S.get o r as)]).map (·.1) = D.map (·.1) ++ [x] := by simp
          obtain ⟨a1, a2, a3, a4, a5⟩ := ih (D := D ++ [(x, S.get o r as)]) hq
            (fun y hy => hK y (List.mem_cons_of_mem _ hy))
            (fun y hy hk => by
              rw [hkeys, List.mem_append]
              rcases List.mem_cons.1 hy with rfl | hy
              · exact .inr (by simp)
              · exact .inl (hG y hy hk))
            (fun y hy hyG hc => by
              rw [hkeys, List.mem_append] at hc
              rw [List.mem_cons] at hyG
              rcases hc with hc | hc
              · exact hU y hy (fun h => hyG (.inr h)) hc
              · exact hyG (.inl (by simpa using hc)))
            (fun z hz hzf => by rw [hkeys]; exact List.mem_append_left _ (has z hz hzf))
            (hO.snoc hxD fun z hz hzf => has z hz (by simpa [S.fv] using hzf))
          have he : openResults al o as (r :: rs) (x :: xs) D =
              openResults al o as rs xs (D ++ [(x, S.get o r as)]) := by
            rw [openResults, if_neg]
            simpa using hxD
          rw [he]
          refine ⟨by rw [a1]; simp, fun d hd => ?_, a3, fun e he => ?_, fun p hp => ?_⟩
          · rcases List.mem_cons.1 hd with rfl | hd
            · rfl
            · exact a2 d hd
          · obtain ⟨p, hp, h⟩ := a4 e he
            exact ⟨p, List.mem_cons_of_mem _ hp, h⟩
          · rw [List.zip_cons_cons] at hp
            rcases List.mem_cons.1 hp with rfl | hp
            · exact .inr ⟨_, List.mem_cons_self, rfl, rfl⟩
            · rcases a5 p hp with h | ⟨d, hd, h⟩
              · exact .inl h
              · exact .inr ⟨d, List.mem_cons_of_mem _ hd, h⟩
        · cases h

/-- Evaluation with added equations. -/
theorem satS_eqs (A : Res H V) {σ : Nat → V} : ∀ (eqs : List SB) (a : SB) (h : H),
    (∀ e ∈ eqs, ∃ l r, e = .eq l r) →
    (SatS I A σ h (eqs.foldl .and a) ↔
      SatS I A σ h a ∧ ∀ l r, SB.eq l r ∈ eqs → evS I σ l = evS I σ r) := by
  intro eqs
  induction eqs with
  | nil => intro a h _; simp
  | cons e eqs ih =>
    intro a h he
    obtain ⟨l, r, rfl⟩ := he e List.mem_cons_self
    rw [List.foldl_cons, ih _ _ fun e h => he e (List.mem_cons_of_mem _ h)]
    constructor
    · rintro ⟨⟨h1, h2, rfl, ha, hlr, rfl⟩, hall⟩
      rw [A.add_emp]
      refine ⟨ha, fun l' r' hm => ?_⟩
      rcases List.mem_cons.1 hm with hm | hm
      · cases hm; exact hlr
      · exact hall l' r' hm
    · rintro ⟨ha, hall⟩
      exact ⟨⟨h, A.emp, (A.add_emp h).symm, ha, hall l r List.mem_cons_self, rfl⟩,
        fun l' r' hm => hall l' r' (List.mem_cons_of_mem _ hm)⟩

theorem substB_foldl {τ : Nat → S} : ∀ (eqs : List SB) (a : SB),
    SB.subst τ (eqs.foldl .and a) = (eqs.map (SB.subst τ)).foldl .and (SB.subst τ a) := by
  intro eqs
  induction eqs with
  | nil => intro a; rfl
  | cons e eqs ih => intro a; rw [List.foldl_cons, ih]; rfl

theorem scRes_len {U : List Nat} {o : Nat} {args : List E} : ∀ {rs xs G : List Nat}
    {q : List Nat × List Def}, scRes U o args rs xs G = some q → rs.length = xs.length := by
  intro rs
  induction rs with
  | nil =>
    intro xs G q h
    cases xs with
    | nil => rfl
    | cons => simp [scRes] at h
  | cons r rs ih =>
    intro xs G q h
    cases xs with
    | nil => simp [scRes] at h
    | cons x xs =>
      rw [scRes] at h
      split at h
      · simp [ih h]
      · split at h
        · rw [Option.map_eq_some_iff] at h
          obtain ⟨q', hq, rfl⟩ := h
          simp [ih hq]
        · cases h

/-- The translation of a body that is opened, and its meaning once the opened variables have been
substituted. -/
theorem openB_spec (A : Res H V) {P : Prog} {op : Op} {us : List (Nat × Nat)} {al : Nat → Nat}
    {L : Nat → Option S} {K : Nat → Prop} (hLK : ∀ x, K x → L x = some (.var (al x)))
    (hLz : ∀ x s z, L x = some s → K z → al z ∈ s.fv → z = x) :
    ∀ {b : B} {G U : List Nat} {q : List Nat × List Def} {look : Nat → Option S} {D : Defs},
      scope P b G U = some q → ResOk K b → (binders b).Nodup →
      (∀ x ∈ binders b, x ∉ G ∧ x ∉ U) → (∀ x ∈ exis b, K x) →
      (∀ u ∈ unis b, L u.1 = some (.var (op.sil u.1)) ∧ varType op us u.1 = u.2 ∧ ¬ K u.1) →
      (∀ x, (x ∈ G ∨ K x) → look x = L x) → (∀ x ∈ G, ∃ s, L x = some s) → (∀ x ∈ U, K x) →
      (∀ x ∈ G, K x → x ∈ D.map (·.1)) → (∀ x, (x ∈ U ∨ x ∈ binders b) → x ∉ G → x ∉ D.map (·.1)) →
      Ord al K D →
      ∃ sb D', openB P op us al b look D = some (sb, D') ∧
        (∃ N : Defs, D' = D ++ N ∧ N.map (·.1) = q.2.map (·.x)) ∧ Ord al K D' ∧
        (∀ d ∈ q.2, ∃ as, trArgs L d.args = some as ∧ (d.x, S.get d.o d.r as) ∈ D') ∧
        ∀ (τ : Nat → S) (R : Nat → Option S), (R = fun x => (L x).map (S.subst τ)) → Fix R q.2 →
          ∀ (σ ρ : Nat → V) (h : H) (Z : Nat → Prop), InvV I R σ ρ q.1 → InvF R q.1 Z →
            (∀ u ∈ unis b, ¬ Z (op.sil u.1)) → ((unis b).map fun u => op.sil u.1).Nodup →
            (∀ u ∈ unis b, τ (op.sil u.1) = .var (op.sil u.1)) →
            (Sat I A P ρ h b ↔ SatS I A σ h (SB.subst τ sb)) := by
  have names : ∀ {e : E} {G : List Nat} {look : Nat → Option S}, (∀ x ∈ e.names, x ∈ G) →
      (∀ x, (x ∈ G ∨ K x) → look x = L x) → (∀ x ∈ G, ∃ s, L x = some s) →
      ∃ s, trE look e = some s ∧ trE L e = some s := by
    intro e G look hn h1 h2
    obtain ⟨s, hs⟩ := trE_some (R := L) (e := e) fun x hx => h2 x (hn x hx)
    exact ⟨s, by rw [trE_congr fun x hx => h1 x (.inl (hn x hx)), hs], hs⟩
  intro b
  induction b with
  | call o args rs =>
    intro G U q look D hq hres _ _ _ _ hlook hsome hUK hGD hUD hO
    obtain ⟨op', hop, _, ha, hq⟩ := scope_call hq
    obtain ⟨as, has⟩ := trArgs_some (R := L) fun e he x hx => hsome x (ha e he x hx)
    have has' : trArgs look args = some as := by
      rw [trArgs_congr fun e he x hx => hlook x (.inl (ha e he x hx)), has]
    have hz : ∀ z, K z → al z ∈ S.fvL as → z ∈ D.map (·.1) := by
      intro z hz hf
      exact trArgs_fv (R := L) (G := G) (Z := fun w => ∀ z, K z → al z = w → z ∈ D.map (·.1))
        (fun x hx s hs w hw z hz he => by
          subst he
          have := hLz x s z hs hz hw
          subst this
          exact hGD z hx hz) ha has _ hf z hz rfl
    obtain ⟨a1, a2, a3, a4, a5⟩ := openResults_spec hq hres hGD
      (fun x hx => hUD x (.inl hx)) hz hO
    obtain ⟨b1, b2, b3⟩ := scRes_ds hq
    refine ⟨_, _, by rw [openB, openCall, hop, has']; simp only; rw [if_pos (scRes_len hq)], ?_, a3,
      ?_, ?_⟩
    · exact ⟨_, a1, by simp⟩
    · intro d hd
      refine ⟨as, by rw [b3 d hd, has], ?_⟩
      rw [a1, a2 d hd]
      exact List.mem_append_right _ (List.mem_map_of_mem (f := fun d : Def => (d.x, S.get o d.r as)) hd)
    · intro τ R hR hf σ ρ h Z hV hF _ _ _
      have hasR : trArgs R args = some (S.substL τ as) := by rw [hR]; exact trArgs_subst has
      have hev : evSL I σ (S.substL τ as) = args.map (evE I ρ) :=
        trArgs_ev hV (fun e he x hx => (scRes_sub hq).1 x (ha e he x hx)) hasR
      have hval : ∀ x ∈ rs, evS I σ (τ (al x)) = ρ x := by
        intro x hx
        refine hV x ((scRes_sub hq).2.2 x hx) _ ?_
        rw [hR]
        simp only [hLK x (hres x hx), Option.map_some, S.subst]
      rw [substB_foldl, satS_eqs, SB.subst]
      rotate_left
      · intro e he
        obtain ⟨e', he', rfl⟩ := List.mem_map.1 he
        obtain ⟨p, hp, rfl⟩ := a4 e' he'
        exact ⟨_, _, by rw [SB.subst]⟩
      rw [SatS, hev, Sat]
      refine and_congr Iff.rfl ⟨?_, ?_⟩
      · rintro ⟨op2, hop2, _, hv⟩ l r hm
        cases hop.symm.trans hop2
        obtain ⟨e', he', he⟩ := List.mem_map.1 hm
        obtain ⟨p, hp, rfl⟩ := a4 e' he'
        simp only [SB.subst, S.subst, SB.eq.injEq] at he
        obtain ⟨rfl, rfl⟩ := he
        simp only [evS]
        rw [hev, hval _ (List.of_mem_zip hp).2]
        exact (hv p hp).symm
      · intro hall
        refine ⟨op', hop, scRes_len hq, fun p hp => ?_⟩
        rcases a5 p hp with hm | ⟨d, hd, h1, h2⟩
        · have := hall _ _ (List.mem_map.2 ⟨_, hm, by rw [SB.subst]⟩)
          simp only [S.subst, evS] at this
          rw [hev, hval _ (List.of_mem_zip hp).2] at this
          exact this.symm
        · have hx : p.2 ∈ rs := (List.of_mem_zip hp).2
          have hRx : R d.x = some (τ (al p.2)) := by
            rw [hR, h1]
            simp only [hLK _ (hres _ hx), Option.map_some, S.subst]
          obtain ⟨as', h3, h4⟩ := hf d hd _ hRx
          rw [b3 d hd, hasR] at h3
          cases h3
          rw [← hval _ hx, h4]
          simp only [evS]
          rw [hev, a2 d hd, h2]
  | pure e =>
    intro G U q look D hq hres _ _ _ _ hlook hsome hUK hGD hUD hO
    obtain ⟨hn, rfl⟩ := scope_pure hq
    obtain ⟨s, hs, hsL⟩ := names hn hlook hsome
    refine ⟨_, _, by rw [openB, hs], ⟨[], by simp, by simp⟩, hO, by simp, ?_⟩
    intro τ R hR hf σ ρ h Z hV hF _ _ _
    have hsR : trE R e = some (S.subst τ s) := by rw [hR]; exact trE_subst hsL
    rw [Sat, SB.subst, SatS, trE_ev hV hn hsR]
  | and l r ihl ihr =>
    intro G U q look D hq hres hn hd hE hu hlook hsome hUK hGD hUD hO
    obtain ⟨q1, q2, h1, h2, rfl⟩ := scope_and hq
    simp only [binders, exis, unis, List.mem_append] at hn hd hE hu hUD ⊢
    rw [List.nodup_append] at hn
    have hG1 := scope_sub h1
    obtain ⟨sl, D1, l1, ⟨N1, rfl, l3⟩, l4, l5, l6⟩ := ihl (look := look) h1 hres.1 hn.1
      (fun x hx => hd x (.inl hx)) (fun x hx => hE x (.inl hx)) (fun x hx => hu x (.inl hx))
      hlook hsome hUK hGD (fun x hx => hUD x (hx.imp id .inl)) hO
    have hds := (scope_ds h1 hn.1 fun x hx => hd x (.inl hx)).2
    obtain ⟨sr, D2, r1, ⟨N2, rfl, r3⟩, r4, r5, r6⟩ := ihr (look := look) (D := D ++ N1) h2 hres.2 hn.2.1
      (fun x hx => ⟨fun hc => by
        rcases hG1.2 x hc with hc | hc
        · exact (hd x (.inr hx)).1 hc
        · exact (hd x (.inr hx)).2 hc, (hd x (.inr hx)).2⟩)
      (fun x hx => hE x (.inr hx)) (fun x hx => hu x (.inr hx))
      (fun x hx => by
        rcases hx with hx | hx
        · rcases hG1.2 x hx with hx | hx
          · exact hlook x (.inl hx)
          · exact hlook x (.inr (hUK x hx))
        · exact hlook x (.inr hx))
      (fun x hx => by
        rcases hG1.2 x hx with hx | hx
        · exact hsome x hx
        · exact ⟨_, hLK x (hUK x hx)⟩) hUK
      (fun x hx hk => by
        rw [List.map_append, List.mem_append, l3]
        rcases scope_defs h1 x hx with hx | hx
        · exact .inl (hGD x hx hk)
        · exact .inr hx)
      (fun x hx hxG => by
        rw [List.map_append, List.mem_append, l3]
        rintro (hc | hc)
        · exact hUD x (hx.imp id .inr) (fun h => hxG (hG1.1 x h)) hc
        · obtain ⟨d, hdm, rfl⟩ := List.mem_map.1 hc
          rcases hds d hdm with h | h
          · exact hxG h.2.2
          · rcases hx with hx | hx
            · exact (hd _ (.inl (exis_binders h))).2 hx
            · exact hn.2.2 _ (exis_binders h) _ hx rfl) l4
    refine ⟨_, _, by rw [openB, l1]; simp only; rw [r1], ⟨N1 ++ N2, by simp, by simp [l3, r3]⟩, r4, ?_, ?_⟩
    · intro d hd
      rcases hd with hd | hd
      · obtain ⟨as, h3, h4⟩ := l5 d hd
        exact ⟨as, h3, List.mem_append_left _ h4⟩
      · exact r5 d hd
    · intro τ R hR hf σ ρ h Z hV hF hZ hinj hτ
      rw [List.map_append, List.nodup_append] at hinj
      have hsub : ∀ x ∈ q1.1, x ∈ q2.1 := (scope_sub h2).1
      have e1 : ∀ h, Sat I A P ρ h l ↔ SatS I A σ h (SB.subst τ sl) := fun h =>
        l6 τ R hR (fun d hd => hf d (List.mem_append_left _ hd)) σ ρ h Z (hV.mono hsub) (hF.mono hsub)
          (fun u hu => hZ u (.inl hu)) hinj.1 (fun u hu => hτ u (.inl hu))
      have e2 : ∀ h, Sat I A P ρ h r ↔ SatS I A σ h (SB.subst τ sr) := fun h =>
        r6 τ R hR (fun d hd => hf d (List.mem_append_right _ hd)) σ ρ h Z hV hF
          (fun u hu => hZ u (.inr hu)) hinj.2.1 (fun u hu => hτ u (.inr hu))
      simp only [Sat, SB.subst, SatS, e1, e2]
  | implies e b ih =>
    intro G U q look D hq hres hn hd hE hu hlook hsome hUK hGD hUD hO
    obtain ⟨hnm, q1, h1, rfl⟩ := scope_implies hq
    obtain ⟨s, hs, hsL⟩ := names hnm hlook hsome
    obtain ⟨sb, D1, l1, l2, l4, l5, l6⟩ := ih (look := look) h1 hres hn
      (fun x hx => ⟨(hd x hx).1, by simp⟩) hE hu hlook hsome (by simp) hGD
      (fun x hx => by
        rcases hx with hx | hx
        · simp at hx
        · exact hUD x (.inr hx)) hO
    refine ⟨_, _, by rw [openB, hs]; simp only; rw [l1], l2, l4, l5, ?_⟩
    intro τ R hR hf σ ρ h Z hV hF hZ hinj hτ
    have hsub : ∀ x ∈ q1.1, x ∈ G := fun x hx => by simpa using (scope_sub h1).2 x hx
    have e1 : ∀ h, Sat I A P ρ h b ↔ SatS I A σ h (SB.subst τ sb) := fun h =>
      l6 τ R hR hf σ ρ h Z (hV.mono hsub) (hF.mono hsub) hZ hinj hτ
    have hsR : trE R e = some (S.subst τ s) := by rw [hR]; exact trE_subst hsL
    simp only [Sat, SB.subst, SatS, e1, trE_ev hV hnm hsR]
  | ife e a b iha ihb =>
    intro G U q look D hq hres hn hd hE hu hlook hsome hUK hGD hUD hO
    obtain ⟨hnm, q1, q2, h1, h2, rfl⟩ := scope_ife hq
    simp only [binders, exis, unis, List.mem_append] at hn hd hE hu hUD ⊢
    rw [List.nodup_append] at hn
    obtain ⟨s, hs, hsL⟩ := names hnm hlook hsome
    have hda : ∀ x ∈ binders a, x ∉ G ∧ x ∉ ([] : List Nat) := fun x hx => ⟨(hd x (.inl hx)).1, by simp⟩
    obtain ⟨sl, D1, l1, ⟨N1, rfl, l3⟩, l4, l5, l6⟩ := iha (look := look) h1 hres.1 hn.1
      hda (fun x hx => hE x (.inl hx)) (fun x hx => hu x (.inl hx))
      hlook hsome (by simp) hGD
      (fun x hx => by
        rcases hx with hx | hx
        · simp at hx
        · exact hUD x (.inr (.inl hx))) hO
    have hds := (scope_ds h1 hn.1 hda).2
    obtain ⟨sr, D2, r1, ⟨N2, rfl, r3⟩, r4, r5, r6⟩ := ihb (look := look) (D := D ++ N1) h2 hres.2 hn.2.1
      (fun x hx => ⟨(hd x (.inr hx)).1, by simp⟩)
      (fun x hx => hE x (.inr hx)) (fun x hx => hu x (.inr hx)) hlook hsome (by simp)
      (fun x hx hk => by
        rw [List.map_append, List.mem_append]
        exact .inl (hGD x hx hk))
      (fun x hx hxG => by
        rcases hx with hx | hx
        · simp at hx
        rw [List.map_append, List.mem_append, l3]
        rintro (hc | hc)
        · exact hUD x (.inr (.inr hx)) hxG hc
        · obtain ⟨d, hdm, rfl⟩ := List.mem_map.1 hc
          rcases hds d hdm with h | h
          · simp at h
          · exact hn.2.2 _ (exis_binders h) _ hx rfl) l4
    refine ⟨_, _, by rw [openB, hs]; simp only; rw [l1]; simp only; rw [r1],
      ⟨N1 ++ N2, by simp, by simp [l3, r3]⟩, r4, ?_, ?_⟩
    · intro d hd
      rcases hd with hd | hd
      · obtain ⟨as, h3, h4⟩ := l5 d hd
        exact ⟨as, h3, List.mem_append_left _ h4⟩
      · exact r5 d hd
    · intro τ R hR hf σ ρ h Z hV hF hZ hinj hτ
      rw [List.map_append, List.nodup_append] at hinj
      have hsub1 : ∀ x ∈ q1.1, x ∈ G := fun x hx => by simpa using (scope_sub h1).2 x hx
      have hsub2 : ∀ x ∈ q2.1, x ∈ G := fun x hx => by simpa using (scope_sub h2).2 x hx
      have e1 : ∀ h, Sat I A P ρ h a ↔ SatS I A σ h (SB.subst τ sl) := fun h =>
        l6 τ R hR (fun d hd => hf d (List.mem_append_left _ hd)) σ ρ h Z (hV.mono hsub1) (hF.mono hsub1)
          (fun u hu => hZ u (.inl hu)) hinj.1 (fun u hu => hτ u (.inl hu))
      have e2 : ∀ h, Sat I A P ρ h b ↔ SatS I A σ h (SB.subst τ sr) := fun h =>
        r6 τ R hR (fun d hd => hf d (List.mem_append_right _ hd)) σ ρ h Z (hV.mono hsub2) (hF.mono hsub2)
          (fun u hu => hZ u (.inr hu)) hinj.2.1 (fun u hu => hτ u (.inr hu))
      have hsR : trE R e = some (S.subst τ s) := by rw [hR]; exact trE_subst hsL
      simp only [Sat, SB.subst, SatS, e1, e2, trE_ev hV hnm hsR]
  | all t x b ih =>
    intro G U q look D hq hres hn hd hE hu hlook hsome hUK hGD hUD hO
    obtain ⟨q1, h1, rfl⟩ := scope_all hq
    simp only [binders, exis, unis, List.mem_cons] at hn hd hE hu hUD ⊢
    rw [List.nodup_cons] at hn
    obtain ⟨hLx, hty, hKx⟩ := hu (x, t) (.inl rfl)
    simp only at hLx hty hKx
    obtain ⟨sb, D1, l1, l2, l4, l5, l6⟩ := ih
      (look := fun y => if y = x then some (.var (op.sil x)) else look y) h1 hres hn.2
      (fun y hy => ⟨fun hc => by
        rcases List.mem_cons.1 hc with rfl | hc
        · exact hn.1 hy
        · exact (hd y (.inr hy)).1 hc, by simp⟩) hE (fun u h => hu u (.inr h))
      (fun y hy => by
        by_cases hyx : y = x
        · subst hyx; simp only [if_true]; exact hLx.symm
        · rw [if_neg hyx]
          rcases hy with hy | hy
          · exact hlook y (.inl ((List.mem_cons.1 hy).resolve_left hyx))
          · exact hlook y (.inr hy))
      (fun y hy => by
        rcases List.mem_cons.1 hy with rfl | hy
        · exact ⟨_, hLx⟩
        · exact hsome y hy) (by simp)
      (fun y hy hk => by
        rcases List.mem_cons.1 hy with rfl | hy
        · exact absurd hk hKx
        · exact hGD y hy hk)
      (fun y hy hyG => by
        rcases hy with hy | hy
        · simp at hy
        · exact hUD y (.inr (.inr hy)) fun h => hyG (List.mem_cons_of_mem _ h)) hO
    refine ⟨_, _, by rw [openB, l1], l2, l4, l5, ?_⟩
    intro τ R hR hf σ ρ h Z hV hF hZ hinj hτ
    rw [List.map_cons, List.nodup_cons] at hinj
    have hs : ∀ y ∈ q1.1, y = x ∨ y ∈ G := fun y hy => by simpa using (scope_sub h1).2 y hy
    have hRx : R x = some (.var (op.sil x)) := by
      rw [hR]
      simp only [hLx, Option.map_some, S.subst, hτ (x, t) (.inl rfl)]
    have e1 : ∀ v h, Sat I A P (upd ρ x v) h b ↔
        SatS I A (upd σ (op.sil x) v) h (SB.subst τ sb) := by
      intro v h
      refine l6 τ R hR hf _ _ h (fun z => Z z ∨ z = op.sil x) ?_ ?_ ?_ hinj.2
        (fun u hu => hτ u (.inr hu))
      · intro y hy s hys
        by_cases hyx : y = x
        · subst hyx
          cases hRx.symm.trans hys
          simp only [evS, upd_same]
        · have hyG : y ∈ G := (hs y hy).resolve_left hyx
          rw [upd_ne _ _ hyx, ← hV y hyG s hys]
          refine evS_congr I s fun z hz => upd_ne _ _ ?_
          rintro rfl
          exact hZ (x, t) (.inl rfl) (hF y hyG s hys _ hz)
      · intro y hy s hys z hz
        by_cases hyx : y = x
        · subst hyx
          cases hRx.symm.trans hys
          simp only [S.fv, List.mem_singleton] at hz
          exact .inr hz
        · exact .inl (hF y ((hs y hy).resolve_left hyx) s hys z hz)
      · intro u hu hc
        rcases hc with hc | hc
        · exact hZ u (.inr hu) hc
        · exact hinj.1 (hc ▸ List.mem_map_of_mem (f := fun u : Nat × Nat => op.sil u.1) hu)
    simp only [Sat, SB.subst, SatS, e1, hty, and_self]
  | ex xs b ih =>
    intro G U q look D hq hres hn hd hE hu hlook hsome hUK hGD hUD hO
    obtain ⟨q1, h1, hx1, rfl⟩ := scope_ex hq
    simp only [binders, exis, unis, List.mem_append] at hn hd hE hu hUD ⊢
    rw [List.nodup_append] at hn
    obtain ⟨sb, D1, l1, l2, l4, l5, l6⟩ := ih (look := look) h1 hres hn.2.1
      (fun y hy => ⟨(hd y (.inr hy)).1, fun hc => hn.2.2 y hc y hy rfl⟩)
      (fun y hy => hE y (.inr hy)) hu hlook hsome (fun y hy => hE y (.inl hy)) hGD
      (fun y hy => hUD y (.inr hy)) hO
    refine ⟨_, _, by rw [openB, l1], l2, l4, l5, ?_⟩
    intro τ R hR hf σ ρ h Z hV hF hZ hinj hτ
    rw [Sat]
    have hV' : ∀ vs, InvV I R σ (updL ρ xs vs) G := by
      intro vs y hy s hys
      rw [updL_not _ _ _ fun hc => (hd y (.inl hc)).1 hy]
      exact hV y hy s hys
    constructor
    · rintro ⟨vs, hl, hsat⟩
      exact (l6 τ R hR hf σ _ h Z (scope_V A h1 hf hsat (hV' vs)) (scope_F h1 hf hF) hZ hinj hτ).1 hsat
    · intro hsat
      refine ⟨xs.map fun y => evS I σ (τ (al y)), by simp, ?_⟩
      refine (l6 τ R hR hf σ _ h Z ?_ (scope_F h1 hf hF) hZ hinj hτ).2 hsat
      intro y hy s hys
      by_cases hyx : y ∈ xs
      · rw [updL_map _ _ _ hyx]
        rw [hR] at hys
        simp only [hLK y (hE y (.inl hyx)), Option.map_some, S.subst] at hys
        cases hys
        rfl
      · exact hV' _ y (((scope_sub h1).2 y hy).resolve_right hyx) s hys

/-! ### `Open` -/

theorem lookup_of_mem {α : Type} {D : List (Nat × α)} (hn : (D.map (·.1)).Nodup) {x : Nat} {s : α}
    (h : (x, s) ∈ D) : D.lookup x = some s := by
  induction D with
  | nil => cases h
  | cons p D ih =>
    obtain ⟨a, t⟩ := p
    rw [List.map_cons, List.nodup_cons] at hn
    rw [List.lookup_cons]
    rcases List.mem_cons.1 h with h | h
    · cases h; simp
    · have hne : x ≠ a := fun he => hn.1 (he ▸ List.mem_map_of_mem (f := (·.1)) h)
      have : (x == a) = false := by simpa using hne
      rw [this]
      exact ih hn.2 h

theorem mem_of_lookup {α : Type} {D : List (Nat × α)} {x : Nat} {s : α} (h : D.lookup x = some s) :
    (x, s) ∈ D := by
  induction D with
  | nil => cases h
  | cons p D ih =>
    obtain ⟨a, t⟩ := p
    rw [List.lookup_cons] at h
    by_cases hx : x = a
    · subst hx; simp at h; subst h; exact List.mem_cons_self
    · have : (x == a) = false := by simpa using hx
      rw [this] at h
      exact List.mem_cons_of_mem _ (ih h)

theorem Ord.rank {al : Nat → Nat} {K : Nat → Prop} {D : Defs} (h : Ord al K D) {x : Nat} {d : S}
    (hm : (x, d) ∈ D) {z : Nat} (hz : K z) (hzf : al z ∈ d.fv) :
    (D.map (·.1)).idxOf z < (D.map (·.1)).idxOf x := by
  obtain ⟨D1, D2, rfl⟩ := List.append_of_mem hm
  have h1 := h.2 D1 (x, d) D2 rfl z hz hzf
  have hn := h.1
  rw [List.map_append, List.nodup_append] at hn
  rw [List.map_append, List.map_cons]
  have hx : x ∉ D1.map (·.1) := fun hc => hn.2.2 x hc x (by simp) rfl
  rw [List.idxOf_append, if_pos h1, List.idxOf_append, if_neg hx]
  have := List.idxOf_lt_length_of_mem h1
  omega

theorem inputAliases_mem : ∀ {ps : List (Nat × Nat)} {as : List S} {x : Nat} {s : S},
    inputAliases (fun _ => none) ps as x = some s → s ∈ as ∧ x ∈ ps.map (·.1) := by
  intro ps
  induction ps with
  | nil => intro as x s h; simp [inputAliases] at h
  | cons p ps ih =>
    intro as x s h
    cases as with
    | nil => simp [inputAliases] at h
    | cons a as =>
      obtain ⟨p, t⟩ := p
      simp only [inputAliases] at h
      split at h
      · rename_i hx; cases h; exact ⟨List.mem_cons_self, by simp [hx]⟩
      · obtain ⟨h1, h2⟩ := ih h
        exact ⟨List.mem_cons_of_mem _ h1, by simpa using .inr (by simpa using h2)⟩

theorem inputAliases_some : ∀ {ps : List (Nat × Nat)} {as : List S} {x : Nat},
    as.length = ps.length → x ∈ ps.map (·.1) →
    ∃ s, inputAliases (fun _ => none) ps as x = some s := by
  intro ps
  induction ps with
  | nil => intro as x _ h; cases h
  | cons p ps ih =>
    intro as x hl h
    cases as with
    | nil => cases hl
    | cons a as =>
      obtain ⟨p, t⟩ := p
      simp only [inputAliases]
      split
      · exact ⟨a, rfl⟩
      · rename_i hx
        exact ih (by simpa using hl) (by simpa [hx] using h)

theorem fv_fvL {s : S} {ss : List S} (h : s ∈ ss) {z : Nat} (hz : z ∈ s.fv) : z ∈ S.fvL ss := by
  induction ss with
  | nil => cases h
  | cons a ss ih =>
    simp only [S.fvL, List.mem_append]
    rcases List.mem_cons.1 h with rfl | h
    · exact .inl hz
    · exact .inr (ih h)

theorem inputAliases_ev {σ : Nat → V} {ρ0 : Nat → V} : ∀ {ps : List (Nat × Nat)} {as : List S}
    {x : Nat} {s : S}, inputAliases (fun _ => none) ps as x = some s →
      evS I σ s = updL ρ0 (ps.map (·.1)) (evSL I σ as) x := by
  intro ps
  induction ps with
  | nil => intro as x s h; simp [inputAliases] at h
  | cons p ps ih =>
    intro as x s h
    cases as with
    | nil => simp [inputAliases] at h
    | cons a as =>
      obtain ⟨p, t⟩ := p
      simp only [inputAliases] at h
      simp only [List.map_cons, evSL, updL]
      split at h
      · rename_i hx; cases h; subst hx; rw [upd_same]
      · rename_i hx; rw [upd_ne _ _ hx]; exact ih h

theorem nodup_sil {op : Op} (hsil : ∀ x ∈ op.names, ∀ y ∈ op.names, op.sil x = op.sil y → x = y) :
    ∀ us : List (Nat × Nat), (us.map (·.1)).Nodup → (∀ u ∈ us, u.1 ∈ op.names) →
      (us.map fun u => op.sil u.1).Nodup := by
  intro us
  induction us with
  | nil => intro _ _; simp
  | cons u us ih =>
    intro hnu hun
    rw [List.map_cons, List.nodup_cons] at hnu ⊢
    refine ⟨fun hc => ?_, ih hnu.2 fun u h => hun u (List.mem_cons_of_mem _ h)⟩
    obtain ⟨u', hu', he⟩ := List.mem_map.1 hc
    have := hsil _ (hun u' (List.mem_cons_of_mem _ hu')) _ (hun u List.mem_cons_self) he
    exact hnu.1 (this ▸ List.mem_map_of_mem hu')

/-- The assertion inhaled by `Open`. -/
theorem open_spec (A : Res H V) {P : Prog} {o : Nat} {op : Op} {b : B} {al : Nat → Nat}
    {order : List Nat} {args : List S} (hb : op.body = some b) (hw : WellScoped P op b)
    (hc : (checkBody P op b).isSome) (hl : args.length = op.params.length)
    (hord : order.Perm (exis b))
    (hsil : ∀ x ∈ op.names, ∀ y ∈ op.names, op.sil x = op.sil y → x = y)
    (hal : ∀ x ∈ op.results ++ exis b, ∀ y ∈ op.results ++ exis b, al x = al y → x = y)
    (half : ∀ x ∈ op.results ++ exis b, al x ∉ S.fvL args ∧ ∀ u ∈ unis b, al x ≠ op.sil u.1)
    (hus : ∀ u ∈ unis b, op.sil u.1 ∉ S.fvL args) :
    ∃ sb, openOp P o op al order args = some sb ∧
      ∀ σ h, Sat I A P (opEnv I o op (evSL I σ args)) h b ↔ SatS I A σ h sb := by
  obtain ⟨hn, q, hq⟩ := hw
  rw [List.nodup_append] at hn
  obtain ⟨hn1, hnb, hnd⟩ := hn
  rw [List.nodup_append] at hn1
  obtain ⟨hnp, hnr, hnpr⟩ := hn1
  obtain ⟨hnu, hne, hue⟩ := binders_split hnb
  have hbG : ∀ x ∈ binders b, x ∉ op.params.map (·.1) ++ op.results := fun x hx hc => hnd x hc x hx rfl
  have hd : ∀ x ∈ binders b, x ∉ op.params.map (·.1) ++ op.results ∧ x ∉ ([] : List Nat) :=
    fun x hx => ⟨hbG x hx, by simp⟩
  let K : Nat → Prop := fun x => x ∈ op.results ++ exis b
  let L : Nat → Option S := fun x =>
    if x ∈ (unis b).map (·.1) then some (.var (op.sil x)) else openLook op b al args x
  have hKu : ∀ x, K x → x ∉ (unis b).map (·.1) := by
    intro x hx hc
    obtain ⟨u, hu, rfl⟩ := List.mem_map.1 hc
    rcases List.mem_append.1 hx with hx | hx
    · exact hbG _ (unis_binders hu) (List.mem_append_right _ hx)
    · exact hue u hu hx
  have hGu : ∀ x ∈ op.params.map (·.1) ++ op.results, x ∉ (unis b).map (·.1) := by
    intro x hx hc
    obtain ⟨u, hu, rfl⟩ := List.mem_map.1 hc
    exact hbG _ (unis_binders hu) hx
  have hLK : ∀ x, K x → L x = some (.var (al x)) := by
    intro x hx
    show (if _ then _ else _) = _
    rw [if_neg (hKu x hx), openLook, if_pos]
    exact (List.mem_append.1 hx).symm
  have hpar : ∀ x ∈ op.params.map (·.1), L x = inputAliases (fun _ => none) op.params args x := by
    intro x hx
    show (if _ then _ else _) = _
    rw [if_neg (hGu x (List.mem_append_left _ hx)), openLook, if_neg]
    rintro (h | h)
    · exact hbG _ (exis_binders h) (List.mem_append_left _ hx)
    · exact hnpr x hx x h rfl
  have hL : ∀ x s, L x = some s → (x ∈ (unis b).map (·.1) ∧ s = .var (op.sil x)) ∨
      (K x ∧ s = .var (al x)) ∨ (x ∈ op.params.map (·.1) ∧ s ∈ args) := by
    intro x s h
    change (if _ then _ else _) = _ at h
    split at h
    · rename_i hx; cases h; exact .inl ⟨hx, rfl⟩
    · rw [openLook] at h
      split at h
      · rename_i hx; cases h; exact .inr (.inl ⟨List.mem_append.2 hx.symm, rfl⟩)
      · obtain ⟨h1, h2⟩ := inputAliases_mem h
        exact .inr (.inr ⟨h2, h1⟩)
  have hLz : ∀ x s z, L x = some s → K z → al z ∈ s.fv → z = x := by
    intro x s z hs hz hf
    rcases hL x s hs with ⟨hx, rfl⟩ | ⟨hx, rfl⟩ | ⟨_, hx⟩
    · obtain ⟨u, hu, rfl⟩ := List.mem_map.1 hx
      simp only [S.fv, List.mem_singleton] at hf
      exact absurd hf ((half z hz).2 u hu)
    · simp only [S.fv, List.mem_singleton] at hf
      exact hal z hz x hx hf
    · exact absurd (fv_fvL hx hf) (half z hz).1
  have hres : ResOk K b := by
    obtain ⟨ds, hds⟩ := Option.isSome_iff_exists.1 hc
    rw [checkBody, Option.map_eq_some_iff] at hds
    obtain ⟨s', hs', _⟩ := hds
    have := check_ok hs'
    have mono : ∀ {b : B} {K K' : Nat → Prop}, (∀ x, K x → K' x) → ResOk K b → ResOk K' b := by
      intro b K K' hk
      induction b with
      | call o args rs => exact fun h x hx => hk x (h x hx)
      | pure e => exact fun h => h
      | and l r ihl ihr => exact fun h => ⟨ihl h.1, ihr h.2⟩
      | implies e b ih => exact ih
      | ife e a b iha ihb => exact fun h => ⟨iha h.1, ihb h.2⟩
      | all t x b ih => exact ih
      | ex xs b ih => exact ih
    refine mono (fun x hx => ?_) this
    simp only [Bool.or_eq_true, List.contains_iff_mem] at hx
    exact List.mem_append.2 hx.symm
  have hkeys0 : (op.results.map fun r => (r, S.get o r args)).map (·.1) = op.results := by
    simp [Function.comp_def]
  have hO0 : Ord al K (op.results.map fun r => (r, S.get o r args)) := by
    refine ⟨by rw [hkeys0]; exact hnr, fun D1 p D2 he z hz hzf => ?_⟩
    have hp : p ∈ op.results.map fun r => (r, S.get o r args) := by rw [he]; simp
    obtain ⟨r, _, rfl⟩ := List.mem_map.1 hp
    simp only [S.fv] at hzf
    exact absurd hzf (half z hz).1
  have hvt : ∀ u ∈ unis b, varType op (unis b) u.1 = u.2 := by
    intro u hu
    have hnodup : ((op.params ++ unis b).map (·.1)).Nodup := by
      rw [List.map_append, List.nodup_append]
      refine ⟨hnp, hnu, fun x hx y hy hxy => ?_⟩
      subst hxy
      exact hGu x (List.mem_append_left _ hx) hy
    rw [varType, lookup_of_mem hnodup (x := u.1) (s := u.2) (List.mem_append_right _ hu)]
    rfl
  obtain ⟨sb, D', h1, ⟨N, hN, hNk⟩, h3, h4, h5⟩ := openB_spec (I := I) A (op := op) (us := unis b)
    (look := openLook op b al args) hLK hLz hq hres hnb hd
    (fun x hx => List.mem_append_right _ hx)
    (fun u hu => ⟨by
      show (if _ then _ else _) = _
      rw [if_pos (List.mem_map_of_mem hu)], hvt u hu, fun hk => hKu _ hk (List.mem_map_of_mem hu)⟩)
    (fun x hx => by
      show _ = (if _ then _ else _)
      rw [if_neg]
      rcases hx with hx | hx
      · exact hGu x hx
      · exact hKu x hx)
    (fun x hx => by
      rcases List.mem_append.1 hx with hx | hx
      · rw [hpar x hx]; exact inputAliases_some hl hx
      · exact ⟨_, hLK x (List.mem_append_left _ hx)⟩)
    (by simp)
    (fun x hx hk => by
      rw [hkeys0]
      rcases List.mem_append.1 hx with hx' | hx'
      · rcases List.mem_append.1 hk with hk | hk
        · exact hk
        · exact absurd hx (hbG _ (exis_binders hk))
      · exact hx')
    (fun x hx _ => by
      rw [hkeys0]
      rcases hx with hx | hx
      · simp at hx
      · exact fun hc => hbG x hx (List.mem_append_right _ hc)) hO0
  have hex := scope_exis hq hnb hd
  have hds := (scope_ds hq hnb hd).2
  have hkD : D'.map (·.1) = op.results ++ q.2.map (·.x) := by rw [hN, List.map_append, hkeys0, hNk]
  have hmemo : ∀ x, x ∈ op.results ++ order ↔ K x := by
    intro x
    rw [List.mem_append, hord.mem_iff, ← List.mem_append]
  have hnodupo : (op.results ++ order).Nodup := by
    rw [List.nodup_append]
    refine ⟨hnr, hord.nodup_iff.2 hne, fun x hx y hy hxy => ?_⟩
    subst hxy
    exact hbG x (exis_binders (hord.mem_iff.1 hy)) (List.mem_append_right _ hx)
  obtain ⟨τ, t1, t2, t3⟩ := elim_subst (al := al) (rk := fun x => (D'.map (·.1)).idxOf x)
    (xs := op.results ++ order) (D := D') hnodupo
    (fun x hx y hy => hal x ((hmemo x).1 hx) y ((hmemo y).1 hy))
    (fun x hx => by
      have : x ∈ D'.map (·.1) := by
        rw [hkD, List.mem_append]
        rcases List.mem_append.1 hx with hx | hx
        · exact .inl hx
        · exact .inr (hex x (hord.mem_iff.1 hx))
      obtain ⟨p, hp, rfl⟩ := List.mem_map.1 this
      exact ⟨p.2, lookup_of_mem h3.1 hp⟩)
    (fun x hx d hxd y hy hyf => h3.rank (mem_of_lookup hxd) ((hmemo y).1 hy) hyf)
  have t3' : ∀ z ∈ S.fvL args, τ z = .var z := fun z hz => t3 z fun x hx he =>
    (half x ((hmemo x).1 hx)).1 (he ▸ hz)
  have hsubA : S.substL τ args = args := by
    rw [substL_congr args t3', substL_var]
  have hτu : ∀ u ∈ unis b, τ (op.sil u.1) = .var (op.sil u.1) := fun u hu => t3 _ fun x hx he =>
    (half x ((hmemo x).1 hx)).2 u hu he.symm
  refine ⟨SB.subst τ sb, ?_, ?_⟩
  · rw [openOp, hb]
    simp only
    rw [if_pos hl, h1]
    simp only
    exact t1 sb
  · intro σ h
    have hRK : ∀ x, K x → ∀ d, (x, d) ∈ D' → (L x).map (S.subst τ) = some (S.subst τ d) := by
      intro x hx d hm
      rw [hLK x hx]
      simp only [Option.map_some, S.subst]
      rw [t2 x ((hmemo x).2 hx) d (lookup_of_mem h3.1 hm)]
    have hRr : ∀ r ∈ op.results, (L r).map (S.subst τ) = some (.get o r args) := by
      intro r hr
      rw [hRK r (List.mem_append_left _ hr) (.get o r args)]
      · simp only [S.subst, hsubA]
      · rw [hN]
        exact List.mem_append_left _ (List.mem_map_of_mem (f := fun r => (r, S.get o r args)) hr)
    have hRp : ∀ x ∈ op.params.map (·.1), ∀ s, (L x).map (S.subst τ) = some s →
        inputAliases (fun _ => none) op.params args x = some s := by
      intro x hx s hs
      rw [hpar x hx, Option.map_eq_some_iff] at hs
      obtain ⟨s', h1, rfl⟩ := hs
      rw [h1, subst_congr s' fun z hz => t3' z (fv_fvL (inputAliases_mem h1).1 hz), subst_var]
    have hq1 : ∀ x ∈ q.1, x ∈ op.params.map (·.1) ∨ x ∈ op.results := fun x hx => by
      simpa using (scope_sub hq).2 x hx
    refine h5 τ _ rfl ?_ σ _ h (fun z => z ∈ S.fvL args) ?_ ?_ hus ?_ hτu
    · intro d hdm s hs
      obtain ⟨as, ha1, ha2⟩ := h4 d hdm
      refine ⟨_, trArgs_subst ha1, ?_⟩
      have hkd : K d.x := by
        rcases hds d hdm with h | h
        · simp at h
        · exact List.mem_append_right _ h
      have := hRK d.x hkd _ ha2
      simp only at hs
      rw [this] at hs
      simp only [S.subst] at hs
      exact (Option.some.inj hs).symm
    · intro x hx s hs
      simp only at hs
      rcases hq1 x hx with hx | hx
      · rw [opEnv]
        exact inputAliases_ev (hRp x hx s hs)
      · rw [hRr x hx] at hs
        cases hs
        simp only [evS]
        rw [opEnv, updL_not, updL_map _ _ _ hx]
        exact fun hc => hnpr x hc x hx rfl
    · intro x hx s hs z hz
      simp only at hs
      rcases hq1 x hx with hx | hx
      · exact fv_fvL (inputAliases_mem (hRp x hx s hs)).1 hz
      · rw [hRr x hx] at hs
        cases hs
        simpa [S.fv] using hz
    · have hun : ∀ u ∈ unis b, u.1 ∈ op.names := fun u hu => by
        rw [Op.names, hb]; exact List.mem_append_right _ (unis_binders hu)
      exact nodup_sil hsil _ hnu hun

end Nagini.IO
