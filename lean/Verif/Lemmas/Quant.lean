import Verif.Model.Quant
import Verif.Lemmas.Alias

/-!
Lemmas about the translation of quantifiers.
-/
set_option linter.unusedVariables false
set_option linter.unusedSimpArgs false
namespace Nagini.Quant
open Alias

variable {W : World}

/-- Same aliases, also under hidden ones. -/
def Same (σ τ : Ctx) : Prop := Inv σ ∧ Inv τ ∧ ∀ n, stk σ n = stk τ n

theorem Same.lookup {σ τ : Ctx} (h : Same σ τ) (n : Nat) : lookup σ n = lookup τ n := by
  unfold Quant.lookup
  rw [var_eq_head h.1, var_eq_head h.2.1, h.2.2]

theorem Same.refl {σ : Ctx} (h : Inv σ) : Same σ σ := ⟨h, h, fun _ => rfl⟩

theorem Same.trans {σ τ υ : Ctx} (h : Same σ τ) (g : Same τ υ) : Same σ υ :=
  ⟨h.1, g.2.1, fun n => (h.2.2 n).trans (g.2.2 n)⟩

theorem same_one {σ τ : Ctx} (h : Inv σ) (n : Nat) (x : Var) (hs : Same τ (setAlias σ n x)) :
    Same (removeAlias τ n) σ := by
  refine ⟨inv_remove τ hs.1 n, h, fun k => ?_⟩
  rw [stk_remove τ hs.1, hs.2.2, stk_set σ h]
  by_cases hk : k = n <;> simp [hk]

theorem inv_setAll (pos : Nat) (ns : List Nat) : ∀ σ : Ctx, Inv σ → Inv (setAll σ pos ns) := by
  induction ns with
  | nil => exact fun _ h => h
  | cons n ns ih => exact fun σ h => ih _ (inv_set σ h n _)

theorem stk_setAll (pos : Nat) (ns : List Nat) : ∀ σ : Ctx, Inv σ → ns.Nodup → ∀ k,
    stk (setAll σ pos ns) k = if k ∈ ns then .lam pos k :: stk σ k else stk σ k := by
  induction ns with
  | nil => intro σ h _ k; simp [setAll]
  | cons n ns ih =>
    intro σ h hn k
    have := ih _ (inv_set σ h n (.lam pos n)) (List.nodup_cons.1 hn).2 k
    rw [show setAll σ pos (n :: ns) = setAll (setAlias σ n (.lam pos n)) pos ns from rfl, this, stk_set σ h]
    have hnn := (List.nodup_cons.1 hn).1
    by_cases hk : k = n
    · subst hk; simp [hnn]
    · simp [hk]

theorem inv_removeAll (ns : List Nat) : ∀ σ : Ctx, Inv σ → Inv (removeAll σ ns) := by
  induction ns with
  | nil => exact fun _ h => h
  | cons n ns ih => exact fun σ h => ih _ (inv_remove σ h n)

theorem stk_removeAll (ns : List Nat) : ∀ σ : Ctx, Inv σ → ns.Nodup → ∀ k,
    stk (removeAll σ ns) k = if k ∈ ns then (stk σ k).drop 1 else stk σ k := by
  induction ns with
  | nil => intro σ h _ k; simp [removeAll]
  | cons n ns ih =>
    intro σ h hn k
    have := ih _ (inv_remove σ h n) (List.nodup_cons.1 hn).2 k
    rw [show removeAll σ (n :: ns) = removeAll (removeAlias σ n) ns from rfl, this, stk_remove σ h]
    have hnn := (List.nodup_cons.1 hn).1
    by_cases hk : k = n
    · subst hk; simp [hnn]
    · simp [hk]

theorem same_all {σ τ : Ctx} (h : Inv σ) (pos : Nat) (ns : List Nat) (hn : ns.Nodup)
    (hs : Same τ (setAll σ pos ns)) : Same (removeAll τ ns) σ := by
  refine ⟨inv_removeAll ns τ hs.1, h, fun k => ?_⟩
  rw [stk_removeAll ns τ hs.1 hn, hs.2.2, stk_setAll pos ns σ h hn]
  by_cases hk : k ∈ ns <;> simp [hk]

theorem lookup_set {σ : Ctx} (h : Inv σ) (n : Nat) (x : Var) (k : Nat) :
    lookup (setAlias σ n x) k = if k = n then x else lookup σ k := by
  unfold lookup
  rw [var_eq_head (inv_set σ h n x), stk_set σ h, var_eq_head h]
  by_cases hk : k = n <;> simp [hk]

theorem lookup_setAll {σ : Ctx} (h : Inv σ) (pos : Nat) (ns : List Nat) (hn : ns.Nodup) (k : Nat) :
    lookup (setAll σ pos ns) k = if k ∈ ns then .lam pos k else lookup σ k := by
  unfold lookup
  rw [var_eq_head (inv_setAll pos ns σ h), stk_setAll pos ns σ h hn, var_eq_head h]
  by_cases hk : k ∈ ns <;> simp [hk]

/-- Translating an assertion leaves the aliases as they were. -/
theorem translate_same (f : Form W) : ∀ σ : Ctx, Inv σ → f.wf → Same (translate σ f).2 σ := by
  induction f with
  | atom ns p => exact fun σ h _ => .refl h
  | neg f ih => exact fun σ h hw => ih σ h hw
  | old f ih => exact fun σ h hw => ih σ h hw
  | and f g ihf ihg =>
    intro σ h hw
    have h1 := ihf σ h hw.1
    exact (ihg _ h1.1 hw.2).trans h1
  | imp f g ihf ihg =>
    intro σ h hw
    have h1 := ihf σ h hw.1
    exact (ihg _ h1.1 hw.2).trans h1
  | all pos bs body ih =>
    intro σ h hw
    exact same_all h pos _ hw.2.1 (ih _ (inv_setAll pos _ σ h) hw.2.2.2)
  | ex pos b body ih =>
    intro σ h hw
    exact same_one h _ _ (ih _ (inv_set σ h _ _) hw.2)
  | bind pos n t body ih =>
    intro σ h hw
    exact same_one h _ _ (ih _ (inv_set σ h _ _) hw.2)

/-- The variables hold the values of the names. -/
def Agree (σ : Ctx) (ρ : Nat → W.V) (η : Var → W.V) : Prop := ∀ n, η (lookup σ n) = ρ n

/-- No visible variable belongs to a lambda at one of these positions. -/
def Fresh (σ : Ctx) (ps : List Nat) : Prop := ∀ n p k, p ∈ ps → lookup σ n ≠ .lam p k

theorem Same.agree {σ τ : Ctx} (h : Same τ σ) {ρ : Nat → W.V} {η : Var → W.V} (ha : Agree σ ρ η) :
    Agree τ ρ η := fun n => by rw [h.lookup n]; exact ha n

theorem Same.fresh {σ τ : Ctx} (h : Same τ σ) {ps : List Nat} (ha : Fresh σ ps) : Fresh τ ps :=
  fun n p k hp => by rw [h.lookup n]; exact ha n p k hp

theorem term_eval {σ : Ctx} {ρ : Nat → W.V} {η : Var → W.V} (ha : Agree σ ρ η) (h h0 : W.H)
    (t : Term W) : (trTerm σ t).eval h h0 η = t.eval h h0 ρ := by
  have : (t.names.map (lookup σ)).map η = t.names.map ρ := by
    rw [List.map_map]
    exact List.map_congr_left fun n _ => ha n
  simp only [VTerm.eval, trTerm, Term.eval, this]
  rfl

theorem contains_holds {σ : Ctx} {ρ : Nat → W.V} {η : Var → W.V} (ha : Agree σ ρ η) (h h0 : W.H)
    (x : Var) (d : Dom W) : (containsExpr σ x d).holds h0 h η ↔ d.has h h0 ρ (η x) := by
  cases d with
  | typ T => rfl
  | coll old t =>
    cases old
    · show η x ∈ W.elems h ((trTerm σ t).eval h h0 η) ↔ η x ∈ W.elems h (t.eval h h0 ρ)
      rw [term_eval ha]
    · show η x ∈ W.elems h0 ((trTerm σ t).eval h0 h0 η) ↔ η x ∈ W.elems h0 (t.eval h0 h0 ρ)
      rw [term_eval ha]

theorem lhs_some (σ : Ctx) (pos : Nat) (h h0 : W.H) (η : Var → W.V) : ∀ (bs : List (Bind W)) (l : VForm W),
    ∃ l', lhsLoop σ pos (some l) bs = some l' ∧ (l'.holds h0 h η ↔ l.holds h0 h η ∧
      ∀ b ∈ bs, (containsExpr σ (.lam pos b.name) b.dom).holds h0 h η) := by
  intro bs
  induction bs with
  | nil => exact fun l => ⟨l, rfl, by simp⟩
  | cons b bs ih =>
    intro l
    obtain ⟨l', h1, h2⟩ := ih (.and l (containsExpr σ (.lam pos b.name) b.dom))
    refine ⟨l', h1, h2.trans ?_⟩
    simp only [VForm.holds, List.mem_cons, forall_eq_or_imp, and_assoc]

theorem lhs_holds (σ : Ctx) (pos : Nat) (h h0 : W.H) (η : Var → W.V) (bs : List (Bind W)) :
    ((lhsLoop σ pos none bs).getD .tt).holds h0 h η ↔
      ∀ b ∈ bs, (containsExpr σ (.lam pos b.name) b.dom).holds h0 h η := by
  cases bs with
  | nil => simp [lhsLoop, VForm.holds]
  | cons b bs =>
    obtain ⟨l', h1, h2⟩ := lhs_some σ pos h h0 η bs (containsExpr σ (.lam pos b.name) b.dom)
    rw [show lhsLoop σ pos none (b :: bs) = lhsLoop σ pos (some (containsExpr σ (.lam pos b.name) b.dom)) bs
      from rfl, h1]
    simpa using h2

/-- An environment with several more names. -/
def sets {N : Type} [DecidableEq N] (ρ : N → W.V) : List N → List W.V → N → W.V
  | n :: ns, v :: vs => sets (set ρ n v) ns vs
  | _, _ => ρ

theorem vAll_iff (P : (Var → W.V) → Prop) (xs : List Var) : ∀ η : Var → W.V,
    vAll P η xs ↔ ∀ vs : List W.V, vs.length = xs.length → P (sets η xs vs) := by
  induction xs with
  | nil =>
    intro η
    constructor
    · intro h vs hv
      cases vs with
      | nil => exact h
      | cons v vs => simp at hv
    · intro h; exact h [] rfl
  | cons x xs ih =>
    intro η
    constructor
    · intro h vs hv
      cases vs with
      | nil => simp at hv
      | cons v vs => exact (ih _).1 (h v) vs (by simpa using hv)
    · intro h v
      exact (ih _).2 fun vs hv => h (v :: vs) (by simp [hv])

theorem pyAll_iff (h h0 : W.H) (ρ0 : Nat → W.V) (P : (Nat → W.V) → Prop) (bs : List (Bind W)) :
    ∀ ρ : Nat → W.V, pyAll h h0 ρ0 P ρ bs ↔ ∀ vs : List W.V, vs.length = bs.length →
      (∀ p ∈ bs.zip vs, p.1.dom.has h h0 ρ0 p.2) → P (sets ρ (bs.map Bind.name) vs) := by
  induction bs with
  | nil =>
    intro ρ
    constructor
    · intro h vs hv _
      cases vs with
      | nil => exact h
      | cons v vs => simp at hv
    · intro h; exact h [] rfl (by simp)
  | cons b bs ih =>
    intro ρ
    constructor
    · intro h vs hv hd
      cases vs with
      | nil => simp at hv
      | cons v vs =>
        simp only [List.zip_cons_cons, List.mem_cons, forall_eq_or_imp] at hd
        exact (ih _).1 (h v hd.1) vs (by simpa using hv) hd.2
    · intro h v hv
      refine (ih _).2 fun vs hl hd => h (v :: vs) (by simp [hl]) ?_
      simp only [List.zip_cons_cons, List.mem_cons, forall_eq_or_imp]
      exact ⟨hv, hd⟩

theorem sets_not {N : Type} [DecidableEq N] (ns : List N) : ∀ (ρ : N → W.V) (vs : List W.V) (k : N),
    k ∉ ns → sets ρ ns vs k = ρ k := by
  induction ns with
  | nil => intro ρ vs k _; cases vs <;> rfl
  | cons n ns ih =>
    intro ρ vs k hk
    cases vs with
    | nil => rfl
    | cons v vs =>
      simp only [List.mem_cons, not_or] at hk
      show sets (set ρ n v) ns vs k = ρ k
      rw [ih _ _ _ hk.2]
      simp [set, hk.1]

/-- Corresponding updates give corresponding values. -/
theorem sets_map (pos : Nat) (ns : List Nat) : ∀ (ρ : Nat → W.V) (η : Var → W.V) (vs : List W.V) (k : Nat),
    vs.length = ns.length → k ∈ ns →
      sets η (ns.map (Var.lam pos)) vs (.lam pos k) = sets ρ ns vs k := by
  induction ns with
  | nil => intro ρ η vs k _ hk; simp at hk
  | cons n ns ih =>
    intro ρ η vs k hl hk
    cases vs with
    | nil => simp at hl
    | cons v vs =>
      show sets (set η (.lam pos n) v) (ns.map (Var.lam pos)) vs (.lam pos k) = sets (set ρ n v) ns vs k
      by_cases hkn : k ∈ ns
      · exact ih _ _ vs k (by simpa using hl) hkn
      · rw [sets_not _ _ _ _ hkn, sets_not _ _ _ _ (by simpa using hkn)]
        have : k = n := by simpa [hkn] using hk
        simp [set, this]

theorem sets_zip (bs : List (Bind W)) : ∀ (ρ : Nat → W.V) (vs : List W.V), vs.length = bs.length →
    (bs.map Bind.name).Nodup → ∀ p ∈ bs.zip vs, sets ρ (bs.map Bind.name) vs p.1.name = p.2 := by
  induction bs with
  | nil => intro ρ vs _ _ p hp; simp at hp
  | cons b bs ih =>
    intro ρ vs hl hn p hp
    cases vs with
    | nil => simp at hl
    | cons v vs =>
      simp only [List.map_cons, List.nodup_cons] at hn
      show sets (set ρ b.name v) (bs.map Bind.name) vs p.1.name = p.2
      simp only [List.zip_cons_cons, List.mem_cons] at hp
      rcases hp with rfl | hp
      · rw [sets_not _ _ _ _ hn.1]; simp [set]
      · exact ih _ vs (by simpa using hl) hn.2 p hp

theorem mem_zip_of_mem (bs : List (Bind W)) : ∀ (vs : List W.V), vs.length = bs.length → ∀ b ∈ bs,
    ∃ v, (b, v) ∈ bs.zip vs := by
  induction bs with
  | nil => intro vs _ b hb; simp at hb
  | cons a bs ih =>
    intro vs hl b hb
    cases vs with
    | nil => simp at hl
    | cons v vs =>
      rcases List.mem_cons.1 hb with rfl | hb
      · exact ⟨v, by simp⟩
      · obtain ⟨w, hw⟩ := ih vs (by simpa using hl) b hb
        exact ⟨w, by simp [hw]⟩

end Nagini.Quant
