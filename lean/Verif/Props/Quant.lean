import Verif.Lemmas.Quant

/-!
C96: quantifiers in contracts mean what they say.
-/
set_option linter.unusedVariables false
namespace Nagini.Quant
open Alias

variable {W : World}

/-- **C96, inside other aliases**: in every context where the variables hold the values of the names, the
translation of an assertion with nested quantifiers, `Let` and `Old` is true exactly if the assertion is. -/
theorem C96_in_context (h0 : W.H) (f : Form W) : ∀ (σ : Ctx) (ρ : Nat → W.V) (η : Var → W.V) (h : W.H),
    Inv σ → Agree σ ρ η → Fresh σ f.positions → f.wf → f.Typed h0 h ρ →
    ((translate σ f).1.holds h0 h η ↔ f.holds h0 h ρ) := by
  induction f with
  | atom ns p =>
    intro σ ρ η h hi ha hf hw ht
    show p h ((ns.map (lookup σ)).map η) ↔ p h (ns.map ρ)
    rw [List.map_map, List.map_congr_left (f := η ∘ lookup σ) (g := ρ) fun n _ => ha n]
  | neg f ih => exact fun σ ρ η h hi ha hf hw ht => not_congr (ih σ ρ η h hi ha hf hw ht)
  | old f ih => exact fun σ ρ η h hi ha hf hw ht => ih σ ρ η h0 hi ha hf hw ht
  | and f g ihf ihg =>
    intro σ ρ η h hi ha hf hw ht
    have hs := translate_same f σ hi hw.1
    exact and_congr (ihf σ ρ η h hi ha (fun n p k hp => hf n p k (List.mem_append_left _ hp)) hw.1 ht.1)
      (ihg _ ρ η h hs.1 (hs.agree ha) (hs.fresh fun n p k hp => hf n p k (List.mem_append_right _ hp)) hw.2
        ht.2)
  | imp f g ihf ihg =>
    intro σ ρ η h hi ha hf hw ht
    have hs := translate_same f σ hi hw.1
    exact imp_congr (ihf σ ρ η h hi ha (fun n p k hp => hf n p k (List.mem_append_left _ hp)) hw.1 ht.1)
      (ihg _ ρ η h hs.1 (hs.agree ha) (hs.fresh fun n p k hp => hf n p k (List.mem_append_right _ hp)) hw.2
        ht.2)
  | bind pos n t body ih =>
    intro σ ρ η h hi ha hf hw ht
    show (translate (setAlias σ n (.lam pos n)) body).1.holds h0 h
      (set η (.lam pos n) ((trTerm σ t).eval h h0 η)) ↔ body.holds h0 h (set ρ n (t.eval h h0 ρ))
    rw [term_eval ha]
    refine ih _ _ _ h (inv_set σ hi n _) ?_ ?_ hw.2 ht
    · intro k
      rw [lookup_set hi]
      by_cases hk : k = n
      · simp [hk, set]
      · simp only [hk, if_false, set]
        rw [if_neg (hf k pos n (List.mem_cons_self ..))]
        exact ha k
    · intro m p k hp
      rw [lookup_set hi]
      by_cases hm : m = n
      · rw [if_pos hm]
        intro he
        cases he
        exact hw.1 hp
      · rw [if_neg hm]
        exact hf m p k (List.mem_cons_of_mem _ hp)
  | ex pos b body ih =>
    intro σ ρ η h hi ha hf hw ht
    have hs : Same (removeAlias (translate (setAlias σ b.name (.lam pos b.name)) body).2 b.name) σ :=
      same_one hi _ _ (translate_same body _ (inv_set σ hi _ _) hw.2)
    have hne : ∀ k, lookup σ k ≠ .lam pos b.name := fun k => hf k pos b.name (List.mem_cons_self ..)
    have hout : ∀ v, Agree (removeAlias (translate (setAlias σ b.name (.lam pos b.name)) body).2 b.name) ρ
        (set η (.lam pos b.name) v) := by
      intro v k
      rw [hs.lookup]
      simp only [set]
      rw [if_neg (hne k)]
      exact ha k
    have hin : ∀ v, Agree (setAlias σ b.name (.lam pos b.name)) (set ρ b.name v)
        (set η (.lam pos b.name) v) := by
      intro v k
      rw [lookup_set hi]
      by_cases hk : k = b.name
      · simp [hk, set]
      · simp only [hk, if_false, set]
        rw [if_neg (hne k)]
        exact ha k
    have hfr : Fresh (setAlias σ b.name (.lam pos b.name)) body.positions := by
      intro m p k hp
      rw [lookup_set hi]
      by_cases hm : m = b.name
      · rw [if_pos hm]
        intro he
        cases he
        exact hw.1 hp
      · rw [if_neg hm]
        exact hf m p k (List.mem_cons_of_mem _ hp)
    have hval : ∀ v : W.V, set η (.lam pos b.name) v (.lam pos b.name) = v := fun v => by simp [set]
    constructor
    · rintro ⟨v, h1, h2, h3⟩
      have hd := (contains_holds (hout v) h h0 (.lam pos b.name) b.dom).1 h2
      rw [hval] at hd
      exact ⟨v, hd, (ih _ _ _ h (inv_set σ hi _ _) (hin v) hfr hw.2 (ht v hd).2).1 h3⟩
    · rintro ⟨v, hd, hb⟩
      refine ⟨v, ?_, ?_, ?_⟩
      · show W.inst b.ty (set η (.lam pos b.name) v (.lam pos b.name))
        rw [hval]
        exact (ht v hd).1
      · refine (contains_holds (hout v) h h0 (.lam pos b.name) b.dom).2 ?_
        rw [hval]
        exact hd
      · exact (ih _ _ _ h (inv_set σ hi _ _) (hin v) hfr hw.2 (ht v hd).2).2 hb
  | all pos bs body ih =>
    intro σ ρ η h hi ha hf hw ht
    obtain ⟨hpos, hnd, hne0, hwb⟩ := hw
    obtain ⟨hty, htb⟩ := ht
    have hs : Same (removeAll (translate (setAll σ pos (bs.map Bind.name)) body).2 (bs.map Bind.name)) σ :=
      same_all hi pos _ hnd (translate_same body _ (inv_setAll pos _ σ hi) hwb)
    have hne : ∀ k, lookup σ k ∉ (bs.map Bind.name).map (Var.lam pos) := by
      intro k hk
      obtain ⟨m, -, hm⟩ := List.mem_map.1 hk
      exact hf k pos m (List.mem_cons_self ..) hm.symm
    show vAll (fun η' => (lastCheck pos bs).holds h0 h η' →
      ((lhsLoop _ pos none bs).getD .tt).holds h0 h η' → _) η _ ↔ pyAll h h0 ρ _ ρ bs
    rw [vAll_iff, pyAll_iff]
    rw [pyAll_iff] at htb
    simp only [List.length_map]
    refine forall_congr' fun vs => forall_congr' fun hl => ?_
    have hlm : vs.length = (bs.map Bind.name).length := by simpa using hl
    have hlamv : ∀ p ∈ bs.zip vs,
        sets η ((bs.map Bind.name).map (Var.lam pos)) vs (.lam pos p.1.name) = p.2 := by
      intro p hp
      rw [sets_map pos _ ρ η vs p.1.name hlm (List.mem_map_of_mem (List.of_mem_zip hp).1)]
      exact sets_zip bs ρ vs hl hnd p hp
    have hout : Agree (removeAll (translate (setAll σ pos (bs.map Bind.name)) body).2 (bs.map Bind.name)) ρ
        (sets η ((bs.map Bind.name).map (Var.lam pos)) vs) := by
      intro k
      rw [hs.lookup, sets_not _ _ _ _ (hne k)]
      exact ha k
    have hin : Agree (setAll σ pos (bs.map Bind.name)) (sets ρ (bs.map Bind.name) vs)
        (sets η ((bs.map Bind.name).map (Var.lam pos)) vs) := by
      intro k
      rw [lookup_setAll hi pos _ hnd]
      by_cases hk : k ∈ bs.map Bind.name
      · rw [if_pos hk]
        exact sets_map pos _ ρ η vs k hlm hk
      · rw [if_neg hk, sets_not _ _ _ _ (hne k), sets_not _ _ _ _ hk]
        exact ha k
    have hfr : Fresh (setAll σ pos (bs.map Bind.name)) body.positions := by
      intro m p k hp
      rw [lookup_setAll hi pos _ hnd]
      by_cases hm : m ∈ bs.map Bind.name
      · rw [if_pos hm]
        intro he
        cases he
        exact hpos hp
      · rw [if_neg hm]
        exact hf m p k (List.mem_cons_of_mem _ hp)
    have hlhs : ((lhsLoop (removeAll (translate (setAll σ pos (bs.map Bind.name)) body).2
        (bs.map Bind.name)) pos none bs).getD .tt).holds h0 h
        (sets η ((bs.map Bind.name).map (Var.lam pos)) vs) ↔
        ∀ p ∈ bs.zip vs, p.1.dom.has h h0 ρ p.2 := by
      rw [lhs_holds]
      constructor
      · intro hb p hp
        have := (contains_holds hout h h0 _ _).1 (hb p.1 (List.of_mem_zip hp).1)
        rwa [hlamv p hp] at this
      · intro hz b hb
        obtain ⟨v, hv⟩ := mem_zip_of_mem bs vs hl b hb
        refine (contains_holds hout h h0 _ _).2 ?_
        rw [hlamv _ hv]
        exact hz _ hv
    have hlast : (∀ p ∈ bs.zip vs, p.1.dom.has h h0 ρ p.2) → (lastCheck pos bs).holds h0 h
        (sets η ((bs.map Bind.name).map (Var.lam pos)) vs) := by
      intro hz
      unfold lastCheck
      cases hg : bs.getLast? with
      | none => trivial
      | some b =>
        obtain ⟨v, hv⟩ := mem_zip_of_mem bs vs hl b (List.mem_of_getLast? hg)
        show W.inst b.ty _
        rw [hlamv _ hv]
        exact hty b (List.mem_of_getLast? hg) v (hz _ hv)
    constructor
    · intro hv hz
      exact (ih _ _ _ h (inv_setAll pos _ σ hi) hin hfr hwb (htb vs hl hz)).1 (hv (hlast hz) (hlhs.2 hz))
    · intro hb _ hz
      have hz' := hlhs.1 hz
      exact (ih _ _ _ h (inv_setAll pos _ σ hi) hin hfr hwb (htb vs hl hz')).2 (hb hz')

/-- **C96**: the translation of an assertion with nested and shadowing quantifiers, `Let` and `Old` is true
exactly if the assertion is true. -/
theorem C96_quantifiers (f : Form W) (hw : f.wf) (η : Var → W.V) (h h0 : W.H)
    (ht : f.Typed h0 h fun n => η (.plain n)) :
    (translate init f).1.holds h0 h η ↔ f.holds h0 h fun n => η (.plain n) :=
  C96_in_context h0 f init _ η h (fun _ _ => rfl) (fun _ => rfl)
    (fun _ _ _ _ he => by cases he) hw ht

/-- **C96, the context**: after translating an assertion, every name refers to the same variable as
before. -/
theorem C96_context (σ : Ctx) (hi : Inv σ) (f : Form W) (hw : f.wf) (n : Nat) :
    lookup (translate σ f).2 n = lookup σ n :=
  (translate_same f σ hi hw).lookup n

/-- Integers; the type 0 has all of them and the type 1 those that are not negative; a heap gives the
elements of lists. -/
abbrev ints : World := ⟨Int, Nat, Int → List Int, fun T v => T = 0 ∨ (0 : Int) ≤ v, fun h v => h v⟩

/-- The list with the name 7. -/
def list7 : Dom ints := .coll false ⟨false, [7], fun _ (vs : List Int) => vs.head?.getD 0⟩

/-- `x > 0` for the name 1. -/
def pos1 : Form ints := .atom [1] fun _ (vs : List Int) => ∀ v ∈ vs, 0 < v

/-- A parameter with the name 1 that ranges over the list. -/
def bind1 (T : Nat) : Bind ints := ⟨1, T, list7⟩

/-- `Forall(l, lambda x: Exists(l, lambda x: x > 0) and x > 0)`: the lambdas use the same name. -/
def shadow : Form ints := .all 10 [bind1 0] (.and (.ex 20 (bind1 0) pos1) pos1)

/-- A heap where every list is `[3, 5]`, and one where every list is `[3, -5]`. -/
def good : ints.H := fun _ => [3, 5]
def bad : ints.H := fun _ => [3, -5]

/-- The hypotheses hold for it, in every state. -/
theorem shadow_ok (h h0 : ints.H) (ρ : Nat → ints.V) : shadow.wf ∧ shadow.Typed h0 h ρ := by
  refine ⟨⟨by simp [Form.positions, pos1], by simp, by simp, ⟨by simp [Form.positions, pos1], trivial⟩,
    trivial⟩, fun _ hb v _ => ?_, fun v _ => ⟨fun w _ => ⟨.inl rfl, trivial⟩, trivial⟩⟩
  rw [List.mem_singleton.1 hb]
  exact .inl rfl

/-- It is true in the first heap and false in the second, for the verifier as for Python. -/
example (η : Var → ints.V) (h0 : ints.H) : (translate init shadow).1.holds h0 good η := by
  refine (C96_quantifiers shadow (shadow_ok good h0 fun _ => 0).1 η good h0 (shadow_ok good h0 _).2).2 ?_
  intro (v : Int) (hv : v ∈ [(3 : Int), 5])
  refine ⟨⟨(3 : Int), ?_, ?_⟩, ?_⟩
  · show (3 : Int) ∈ [(3 : Int), 5]
    simp
  · intro (w : Int) hw
    rw [List.mem_singleton.1 hw]
    show (0 : Int) < 3
    decide
  · intro (w : Int) hw
    rw [List.mem_singleton.1 hw]
    show 0 < v
    simp at hv
    omega

example (η : Var → ints.V) (h0 : ints.H) : ¬ (translate init shadow).1.holds h0 bad η := by
  rw [C96_quantifiers shadow (shadow_ok bad h0 fun _ => 0).1 η bad h0 (shadow_ok bad h0 _).2]
  intro h
  have := (h (-5 : Int) (show (-5 : Int) ∈ [(3 : Int), -5] by simp)).2 (-5 : Int)
    (List.mem_singleton.2 rfl)
  exact absurd this (by decide)

/-- The types are needed: if the parameter's type excludes an element of the list, the verifier ignores
this element. -/
example (η : Var → ints.V) (h0 : ints.H) :
    (translate init (.all 10 [bind1 1] pos1)).1.holds h0 bad η ∧
      ¬ (Form.all 10 [bind1 1] pos1).holds h0 bad fun n => η (.plain n) := by
  constructor
  · intro (v : Int) ht hm (w : Int) hw
    rw [List.mem_singleton.1 hw]
    have ht' : (0 : Int) ≤ v := by
      rcases ht with h | h
      · exact absurd h (by decide)
      · exact h
    have hm' : v ∈ [(3 : Int), -5] := hm
    show 0 < v
    simp at hm'
    omega
  · intro h
    exact absurd (h (-5 : Int) (show (-5 : Int) ∈ [(3 : Int), -5] by simp) (-5 : Int)
      (List.mem_singleton.2 rfl)) (by decide)

end Nagini.Quant
