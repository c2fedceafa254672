import Verif.Spec.IO
/-!
Lemmas about the translation of IO operations.
-/
set_option linter.unusedVariables false
set_option linter.unusedSimpArgs false
namespace Nagini.IO

variable {V H : Type} (I : Interp V) (A : Res H V)

/-! ### Environments -/

theorem upd_same (ρ : Nat → V) (x : Nat) (v : V) : upd ρ x v x = v := by simp [upd]

theorem upd_ne (ρ : Nat → V) {x y : Nat} (v : V) (h : y ≠ x) : upd ρ x v y = ρ y := by
  simp [upd, h]

theorem updL_not (ρ : Nat → V) (xs : List Nat) (vs : List V) {y : Nat} (h : y ∉ xs) :
    updL ρ xs vs y = ρ y := by
  induction xs generalizing vs with
  | nil => cases vs <;> rfl
  | cons x xs ih =>
    cases vs with
    | nil => rfl
    | cons v vs =>
      rw [updL, upd_ne _ _ (by simp_all)]
      exact ih vs (by simp_all)

theorem updL_map (ρ : Nat → V) (xs : List Nat) (f : Nat → V) {y : Nat} (h : y ∈ xs) :
    updL ρ xs (xs.map f) y = f y := by
  induction xs with
  | nil => cases h
  | cons x xs ih =>
    rw [List.map_cons, updL]
    by_cases hx : y = x
    · subst hx; rw [upd_same]
    · rw [upd_ne _ _ hx]
      exact ih (by simpa [hx] using h)

theorem updL_zip (ρ : Nat → V) (xs : List Nat) (vs : List V) (hn : xs.Nodup) {p : Nat × V}
    (h : p ∈ xs.zip vs) : updL ρ xs vs p.1 = p.2 := by
  induction xs generalizing vs with
  | nil => cases h
  | cons x xs ih =>
    cases vs with
    | nil => cases h
    | cons v vs =>
      rw [List.zip_cons_cons, List.mem_cons] at h
      rcases h with h | h
      · subst h; rw [updL, upd_same]
      · rw [updL, upd_ne]
        · exact ih vs (List.nodup_cons.1 hn).2 h
        · intro he
          exact (List.nodup_cons.1 hn).1 (he ▸ (List.of_mem_zip h).1)

/-! ### Free variables -/

mutual
theorem evS_congr {σ σ' : Nat → V} : ∀ s : S, (∀ z ∈ s.fv, σ z = σ' z) → evS I σ s = evS I σ' s
  | .var x, h => by simp only [evS]; exact h x (by simp [S.fv])
  | .bool _, _ => by simp only [evS]
  | .const _, _ => by simp only [evS]
  | .bin f l r, h => by
    simp only [S.fv, List.mem_append] at h
    simp only [evS]
    rw [evS_congr l fun z hz => h z (.inl hz), evS_congr r fun z hz => h z (.inr hz)]
  | .get o r args, h => by
    simp only [S.fv] at h
    simp only [evS]
    rw [evSL_congr args h]
theorem evSL_congr {σ σ' : Nat → V} : ∀ ss : List S, (∀ z ∈ S.fvL ss, σ z = σ' z) →
    evSL I σ ss = evSL I σ' ss
  | [], _ => by simp only [evSL]
  | s :: ss, h => by
    simp only [S.fvL, List.mem_append] at h
    simp only [evSL]
    rw [evS_congr s fun z hz => h z (.inl hz), evSL_congr ss fun z hz => h z (.inr hz)]
end

theorem evSL_length (σ : Nat → V) (ss : List S) : (evSL I σ ss).length = ss.length := by
  induction ss with
  | nil => simp [evSL]
  | cons s ss ih => simp [evSL, ih]

/-! ### Resolution of names -/

/-- The values of the names in `G`. -/
def InvV (R : Nat → Option S) (σ ρ : Nat → V) (G : List Nat) : Prop :=
  ∀ x ∈ G, ∀ s, R x = some s → evS I σ s = ρ x

/-- The variables of the names in `G`. -/
def InvF (R : Nat → Option S) (G : List Nat) (Z : Nat → Prop) : Prop :=
  ∀ x ∈ G, ∀ s, R x = some s → ∀ z ∈ s.fv, Z z

variable {I}

theorem trE_bin {R : Nat → Option S} {f : Nat} {l r : E} {s : S} (h : trE R (.bin f l r) = some s) :
    ∃ sl sr, trE R l = some sl ∧ trE R r = some sr ∧ s = .bin f sl sr := by
  rw [trE] at h
  split at h
  · rename_i sl sr h1 h2
    exact ⟨sl, sr, h1, h2, (Option.some.inj h).symm⟩
  · cases h

theorem trArgs_cons {R : Nat → Option S} {e : E} {es : List E} {ss : List S}
    (h : trArgs R (e :: es) = some ss) :
    ∃ s ss', trE R e = some s ∧ trArgs R es = some ss' ∧ ss = s :: ss' := by
  rw [trArgs] at h
  split at h
  · rename_i s ss' h1 h2
    exact ⟨s, ss', h1, h2, (Option.some.inj h).symm⟩
  · cases h

theorem trE_ev {R : Nat → Option S} {σ ρ : Nat → V} {G : List Nat} (hI : InvV I R σ ρ G) :
    ∀ {e : E} {s : S}, (∀ x ∈ e.names, x ∈ G) → trE R e = some s → evS I σ s = evE I ρ e := by
  intro e
  induction e with
  | name x =>
    intro s hn h
    rw [trE] at h
    rw [evE]
    exact hI x (hn x (by simp [E.names])) s h
  | bool b => intro s _ h; rw [trE] at h; cases h; simp only [evS, evE]
  | const k => intro s _ h; rw [trE] at h; cases h; simp only [evS, evE]
  | bin f l r ihl ihr =>
    intro s hn h
    obtain ⟨sl, sr, h1, h2, rfl⟩ := trE_bin h
    simp only [E.names, List.mem_append] at hn
    simp only [evS, evE]
    rw [ihl (fun x hx => hn x (.inl hx)) h1, ihr (fun x hx => hn x (.inr hx)) h2]

theorem trE_fv {R : Nat → Option S} {G : List Nat} {Z : Nat → Prop} (hI : InvF R G Z) :
    ∀ {e : E} {s : S}, (∀ x ∈ e.names, x ∈ G) → trE R e = some s → ∀ z ∈ s.fv, Z z := by
  intro e
  induction e with
  | name x =>
    intro s hn h
    rw [trE] at h
    exact hI x (hn x (by simp [E.names])) s h
  | bool b => intro s _ h; rw [trE] at h; cases h; simp [S.fv]
  | const k => intro s _ h; rw [trE] at h; cases h; simp [S.fv]
  | bin f l r ihl ihr =>
    intro s hn h z hz
    obtain ⟨sl, sr, h1, h2, rfl⟩ := trE_bin h
    simp only [E.names, List.mem_append] at hn
    simp only [S.fv, List.mem_append] at hz
    rcases hz with hz | hz
    · exact ihl (fun x hx => hn x (.inl hx)) h1 z hz
    · exact ihr (fun x hx => hn x (.inr hx)) h2 z hz

theorem trArgs_ev {R : Nat → Option S} {σ ρ : Nat → V} {G : List Nat} (hI : InvV I R σ ρ G) :
    ∀ {es : List E} {ss : List S}, (∀ e ∈ es, ∀ x ∈ e.names, x ∈ G) → trArgs R es = some ss →
      evSL I σ ss = es.map (evE I ρ) := by
  intro es
  induction es with
  | nil => intro ss _ h; rw [trArgs] at h; cases h; simp only [evSL, List.map_nil]
  | cons e es ih =>
    intro ss hn h
    obtain ⟨s, ss', h1, h2, rfl⟩ := trArgs_cons h
    simp only [evSL, List.map_cons]
    rw [trE_ev hI (hn e List.mem_cons_self) h1,
      ih (fun e he => hn e (List.mem_cons_of_mem _ he)) h2]

theorem trArgs_fv {R : Nat → Option S} {G : List Nat} {Z : Nat → Prop} (hI : InvF R G Z) :
    ∀ {es : List E} {ss : List S}, (∀ e ∈ es, ∀ x ∈ e.names, x ∈ G) → trArgs R es = some ss →
      ∀ z ∈ S.fvL ss, Z z := by
  intro es
  induction es with
  | nil => intro ss _ h; rw [trArgs] at h; cases h; simp [S.fvL]
  | cons e es ih =>
    intro ss hn h z hz
    obtain ⟨s, ss', h1, h2, rfl⟩ := trArgs_cons h
    simp only [S.fvL, List.mem_append] at hz
    rcases hz with hz | hz
    · exact trE_fv hI (hn e List.mem_cons_self) h1 z hz
    · exact ih (fun e he => hn e (List.mem_cons_of_mem _ he)) h2 z hz

theorem trArgs_length {R : Nat → Option S} : ∀ {es : List E} {ss : List S},
    trArgs R es = some ss → ss.length = es.length := by
  intro es
  induction es with
  | nil => intro ss h; rw [trArgs] at h; cases h; rfl
  | cons e es ih =>
    intro ss h
    obtain ⟨s, ss', h1, h2, rfl⟩ := trArgs_cons h
    simp [ih h2]

theorem trE_congr {R R' : Nat → Option S} : ∀ {e : E}, (∀ x ∈ e.names, R x = R' x) →
    trE R e = trE R' e := by
  intro e
  induction e with
  | name x => intro h; rw [trE, trE]; exact h x (by simp [E.names])
  | bool b => intro _; rfl
  | const k => intro _; rfl
  | bin f l r ihl ihr =>
    intro h
    simp only [E.names, List.mem_append] at h
    rw [trE, trE, ihl fun x hx => h x (.inl hx), ihr fun x hx => h x (.inr hx)]

theorem trArgs_congr {R R' : Nat → Option S} : ∀ {es : List E},
    (∀ e ∈ es, ∀ x ∈ e.names, R x = R' x) → trArgs R es = trArgs R' es := by
  intro es
  induction es with
  | nil => intro _; rfl
  | cons e es ih =>
    intro h
    rw [trArgs, trArgs, trE_congr (h e List.mem_cons_self),
      ih fun e he => h e (List.mem_cons_of_mem _ he)]

/-! ### Scoping -/

/-- The names in the definitions are replaced by getters. -/
def Fix (R : Nat → Option S) (ds : List Def) : Prop :=
  ∀ d ∈ ds, ∀ s, R d.x = some s → ∃ as, trArgs R d.args = some as ∧ s = .get d.o d.r as

theorem scRes_sub {U : List Nat} {o : Nat} {args : List E} : ∀ {rs xs G : List Nat}
    {q : List Nat × List Def}, scRes U o args rs xs G = some q →
      (∀ x ∈ G, x ∈ q.1) ∧ (∀ x ∈ q.1, x ∈ G ∨ x ∈ U) ∧ (∀ x ∈ xs, x ∈ q.1) := by
  intro rs
  induction rs with
  | nil =>
    intro xs G q h
    cases xs with
    | nil => rw [scRes] at h; cases h; exact ⟨fun _ h => h, fun _ h => .inl h, by simp⟩
    | cons => simp [scRes] at h
  | cons r rs ih =>
    intro xs G q h
    cases xs with
    | nil => simp [scRes] at h
    | cons x xs =>
      rw [scRes] at h
      split at h
      · rename_i hx
        obtain ⟨h1, h2, h3⟩ := ih h
        exact ⟨h1, h2, fun y hy => by
          rcases List.mem_cons.1 hy with rfl | hy
          · exact h1 _ hx
          · exact h3 y hy⟩
      · split at h
        · rename_i hU
          rw [Option.map_eq_some_iff] at h
          obtain ⟨q', hq, rfl⟩ := h
          obtain ⟨h1, h2, h3⟩ := ih hq
          refine ⟨fun y hy => h1 y (List.mem_cons_of_mem _ hy), fun y hy => ?_, fun y hy => ?_⟩
          · rcases h2 y hy with hy | hy
            · rcases List.mem_cons.1 hy with rfl | hy
              · exact .inr hU
              · exact .inl hy
            · exact .inr hy
          · rcases List.mem_cons.1 hy with rfl | hy
            · exact h1 _ List.mem_cons_self
            · exact h3 y hy
        · cases h

theorem scope_call {P : Prog} {o : Nat} {args : List E} {rs G U : List Nat}
    {q : List Nat × List Def} (h : scope P (.call o args rs) G U = some q) :
    ∃ op, P o = some op ∧ args.length = op.params.length ∧ (∀ e ∈ args, ∀ x ∈ e.names, x ∈ G) ∧
      scRes U o args op.results rs G = some q := by
  rw [scope] at h
  split at h
  · cases h
  · rename_i op ho
    split at h
    · rename_i hc
      exact ⟨op, ho, hc.1, hc.2, h⟩
    · cases h

theorem scope_and {P : Prog} {l r : B} {G U : List Nat}
    {q : List Nat × List Def} (h : scope P (.and l r) G U = some q) :
    ∃ q1 q2, scope P l G U = some q1 ∧ scope P r q1.1 U = some q2 ∧ q = (q2.1, q1.2 ++ q2.2) := by
  rw [scope] at h
  split at h
  · cases h
  · rename_i G1 ds1 h1
    split at h
    · cases h
    · rename_i G2 ds2 h2
      exact ⟨(G1, ds1), (G2, ds2), h1, h2, (Option.some.inj h).symm⟩

theorem scope_implies {P : Prog} {e : E} {b : B} {G U : List Nat}
    {q : List Nat × List Def} (h : scope P (.implies e b) G U = some q) :
    (∀ x ∈ e.names, x ∈ G) ∧ ∃ q1, scope P b G [] = some q1 ∧ q = (G, q1.2) := by
  rw [scope] at h
  split at h
  · rename_i hc
    rw [Option.map_eq_some_iff] at h
    obtain ⟨q1, h1, rfl⟩ := h
    exact ⟨hc, q1, h1, rfl⟩
  · cases h

theorem scope_ife {P : Prog} {e : E} {a b : B} {G U : List Nat}
    {q : List Nat × List Def} (h : scope P (.ife e a b) G U = some q) :
    (∀ x ∈ e.names, x ∈ G) ∧ ∃ q1 q2, scope P a G [] = some q1 ∧ scope P b G [] = some q2 ∧
      q = (G, q1.2 ++ q2.2) := by
  rw [scope] at h
  split at h
  · rename_i hc
    split at h
    · rename_i q1 q2 h1 h2
      exact ⟨hc, q1, q2, h1, h2, (Option.some.inj h).symm⟩
    · cases h
  · cases h

theorem scope_all {P : Prog} {t x : Nat} {b : B} {G U : List Nat}
    {q : List Nat × List Def} (h : scope P (.all t x b) G U = some q) :
    ∃ q1, scope P b (x :: G) [] = some q1 ∧ q = (G, q1.2) := by
  rw [scope, Option.map_eq_some_iff] at h
  obtain ⟨q1, h1, rfl⟩ := h
  exact ⟨q1, h1, rfl⟩

theorem scope_ex {P : Prog} {xs : List Nat} {b : B} {G U : List Nat}
    {q : List Nat × List Def} (h : scope P (.ex xs b) G U = some q) :
    ∃ q1, scope P b G xs = some q1 ∧ (∀ x ∈ xs, x ∈ q1.1) ∧ q = (G, q1.2) := by
  rw [scope] at h
  split at h
  · cases h
  · rename_i G' ds h1
    split at h
    · rename_i hc
      exact ⟨_, h1, hc, (Option.some.inj h).symm⟩
    · cases h

theorem scope_pure {P : Prog} {e : E} {G U : List Nat}
    {q : List Nat × List Def} (h : scope P (.pure e) G U = some q) :
    (∀ x ∈ e.names, x ∈ G) ∧ q = (G, []) := by
  rw [scope] at h
  split at h
  · rename_i hc; exact ⟨hc, (Option.some.inj h).symm⟩
  · cases h

theorem scope_sub {P : Prog} : ∀ {b : B} {G U : List Nat} {q : List Nat × List Def},
    scope P b G U = some q → (∀ x ∈ G, x ∈ q.1) ∧ (∀ x ∈ q.1, x ∈ G ∨ x ∈ U) := by
  intro b
  induction b with
  | call o args rs =>
    intro G U q h
    obtain ⟨op, _, _, _, h⟩ := scope_call h
    exact ⟨(scRes_sub h).1, (scRes_sub h).2.1⟩
  | pure e => intro G U q h; obtain ⟨_, rfl⟩ := scope_pure h; exact ⟨fun _ h => h, fun _ h => .inl h⟩
  | and l r ihl ihr =>
    intro G U q h
    obtain ⟨q1, q2, h1, h2, rfl⟩ := scope_and h
    refine ⟨fun x hx => (ihr h2).1 x ((ihl h1).1 x hx), fun x hx => ?_⟩
    rcases (ihr h2).2 x hx with hx | hx
    · exact (ihl h1).2 x hx
    · exact .inr hx
  | implies e b ih =>
    intro G U q h; obtain ⟨_, q1, _, rfl⟩ := scope_implies h; exact ⟨fun _ h => h, fun _ h => .inl h⟩
  | ife e a b iha ihb =>
    intro G U q h; obtain ⟨_, q1, q2, _, _, rfl⟩ := scope_ife h
    exact ⟨fun _ h => h, fun _ h => .inl h⟩
  | all t x b ih =>
    intro G U q h; obtain ⟨q1, _, rfl⟩ := scope_all h; exact ⟨fun _ h => h, fun _ h => .inl h⟩
  | ex xs b ih =>
    intro G U q h; obtain ⟨q1, _, _, rfl⟩ := scope_ex h; exact ⟨fun _ h => h, fun _ h => .inl h⟩

theorem InvV.mono {R : Nat → Option S} {σ ρ : Nat → V} {G G' : List Nat} (h : InvV I R σ ρ G)
    (hs : ∀ x ∈ G', x ∈ G) : InvV I R σ ρ G' := fun x hx => h x (hs x hx)

theorem InvF.mono {R : Nat → Option S} {Z : Nat → Prop} {G G' : List Nat} (h : InvF R G Z)
    (hs : ∀ x ∈ G', x ∈ G) : InvF R G' Z := fun x hx => h x (hs x hx)

theorem scRes_F {R : Nat → Option S} {Z : Nat → Prop} {U : List Nat} {o : Nat} {args : List E}
    {G0 : List Nat} (h0 : InvF R G0 Z) (ha : ∀ e ∈ args, ∀ x ∈ e.names, x ∈ G0) :
    ∀ {rs xs G : List Nat} {q : List Nat × List Def}, scRes U o args rs xs G = some q →
      Fix R q.2 → InvF R G Z → InvF R q.1 Z := by
  intro rs
  induction rs with
  | nil =>
    intro xs G q h hf hG
    cases xs with
    | nil => rw [scRes] at h; cases h; exact hG
    | cons => simp [scRes] at h
  | cons r rs ih =>
    intro xs G q h hf hG
    cases xs with
    | nil => simp [scRes] at h
    | cons x xs =>
      rw [scRes] at h
      split at h
      · exact ih h hf hG
      · split at h
        · rw [Option.map_eq_some_iff] at h
          obtain ⟨q', hq, rfl⟩ := h
          show InvF R q'.1 Z
          refine ih hq (fun d hd => hf d (List.mem_cons_of_mem _ hd)) ?_
          intro y hy s hs z hz
          rcases List.mem_cons.1 hy with rfl | hy
          · obtain ⟨as, has, rfl⟩ := hf _ List.mem_cons_self s hs
            simp only [S.fv] at hz
            exact trArgs_fv h0 ha has z hz
          · exact hG y hy s hs z hz
        · cases h

theorem scRes_V {R : Nat → Option S} {σ ρ : Nat → V} {U : List Nat} {o : Nat} {args : List E}
    {G0 : List Nat} (h0 : InvV I R σ ρ G0) (ha : ∀ e ∈ args, ∀ x ∈ e.names, x ∈ G0) :
    ∀ {rs xs G : List Nat} {q : List Nat × List Def}, scRes U o args rs xs G = some q →
      (∀ p ∈ rs.zip xs, ρ p.2 = I.result o p.1 (args.map (evE I ρ))) →
      Fix R q.2 → InvV I R σ ρ G → InvV I R σ ρ q.1 := by
  intro rs
  induction rs with
  | nil =>
    intro xs G q h hv hf hG
    cases xs with
    | nil => rw [scRes] at h; cases h; exact hG
    | cons => simp [scRes] at h
  | cons r rs ih =>
    intro xs G q h hv hf hG
    cases xs with
    | nil => simp [scRes] at h
    | cons x xs =>
      rw [List.zip_cons_cons] at hv
      rw [scRes] at h
      split at h
      · exact ih h (fun p hp => hv p (List.mem_cons_of_mem _ hp)) hf hG
      · split at h
        · rw [Option.map_eq_some_iff] at h
          obtain ⟨q', hq, rfl⟩ := h
          show InvV I R σ ρ q'.1
          refine ih hq (fun p hp => hv p (List.mem_cons_of_mem _ hp))
            (fun d hd => hf d (List.mem_cons_of_mem _ hd)) ?_
          intro y hy s hs
          rcases List.mem_cons.1 hy with rfl | hy
          · obtain ⟨as, has, rfl⟩ := hf _ List.mem_cons_self s hs
            simp only [evS]
            rw [trArgs_ev h0 ha has]
            exact (hv (r, y) List.mem_cons_self).symm
          · exact hG y hy s hs
        · cases h

/-- The variables of the names that a body defines. -/
theorem scope_F {P : Prog} {R : Nat → Option S} {Z : Nat → Prop} : ∀ {b : B} {G U : List Nat}
    {q : List Nat × List Def}, scope P b G U = some q → Fix R q.2 → InvF R G Z → InvF R q.1 Z := by
  intro b
  induction b with
  | call o args rs =>
    intro G U q h hf hG
    obtain ⟨op, _, _, ha, h⟩ := scope_call h
    exact scRes_F hG ha h hf hG
  | and l r ihl ihr =>
    intro G U q h hf hG
    obtain ⟨q1, q2, h1, h2, rfl⟩ := scope_and h
    show InvF R q2.1 Z
    exact ihr h2 (fun d hd => hf d (List.mem_append_right _ hd))
      (ihl h1 (fun d hd => hf d (List.mem_append_left _ hd)) hG)
  | pure e => intro G U q h hf hG; obtain ⟨_, rfl⟩ := scope_pure h; exact hG
  | implies e b ih => intro G U q h hf hG; obtain ⟨_, q1, _, rfl⟩ := scope_implies h; exact hG
  | ife e a b iha ihb =>
    intro G U q h hf hG; obtain ⟨_, q1, q2, _, _, rfl⟩ := scope_ife h; exact hG
  | all t x b ih => intro G U q h hf hG; obtain ⟨q1, _, rfl⟩ := scope_all h; exact hG
  | ex xs b ih => intro G U q h hf hG; obtain ⟨q1, _, _, rfl⟩ := scope_ex h; exact hG

/-- The values of the names that a body defines. -/
theorem scope_V {P : Prog} {R : Nat → Option S} {σ ρ : Nat → V} : ∀ {b : B} {G U : List Nat}
    {q : List Nat × List Def} {h0 : H}, scope P b G U = some q → Fix R q.2 → Sat I A P ρ h0 b →
      InvV I R σ ρ G → InvV I R σ ρ q.1 := by
  intro b
  induction b with
  | call o args rs =>
    intro G U q h0 h hf hs hG
    obtain ⟨op, hop, _, ha, h⟩ := scope_call h
    rw [Sat] at hs
    obtain ⟨_, op', hop', _, hv⟩ := hs
    cases hop.symm.trans hop'
    exact scRes_V hG ha h hv hf hG
  | and l r ihl ihr =>
    intro G U q h0 h hf hs hG
    obtain ⟨q1, q2, h1, h2, rfl⟩ := scope_and h
    rw [Sat] at hs
    obtain ⟨_, _, _, hl, hr⟩ := hs
    show InvV I R σ ρ q2.1
    exact ihr h2 (fun d hd => hf d (List.mem_append_right _ hd)) hr
      (ihl h1 (fun d hd => hf d (List.mem_append_left _ hd)) hl hG)
  | pure e => intro G U q _ h hf _ hG; obtain ⟨_, rfl⟩ := scope_pure h; exact hG
  | implies e b ih => intro G U q _ h hf _ hG; obtain ⟨_, q1, _, rfl⟩ := scope_implies h; exact hG
  | ife e a b iha ihb =>
    intro G U q _ h hf _ hG; obtain ⟨_, q1, q2, _, _, rfl⟩ := scope_ife h; exact hG
  | all t x b ih => intro G U q _ h hf _ hG; obtain ⟨q1, _, rfl⟩ := scope_all h; exact hG
  | ex xs b ih => intro G U q _ h hf _ hG; obtain ⟨q1, _, _, rfl⟩ := scope_ex h; exact hG

end Nagini.IO
