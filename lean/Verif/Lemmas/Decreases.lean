import Verif.Spec.Decreases
import Mathlib.Data.Finset.Card
import Mathlib.Order.WellFounded
import Mathlib.Tactic.ByContra

set_option linter.unusedVariables false
namespace Nagini.Decreases

open Classical Relation

variable {A V : Type}

/-! ### The order of calls -/

theorem smaller_wf {nested : Nat → Nat → Prop} (hn : WellFounded nested) :
    WellFounded (Smaller nested) := by
  have hint : ∀ (n : Nat) (i : Int), (i + 1).toNat = n → Acc (Smaller nested) (.int i) := by
    intro n
    induction n using Nat.strongRecOn with
    | _ n ih =>
      intro i hi
      constructor
      intro y hy
      cases hy with
      | @int j _ h1 h2 => exact ih (j + 1).toNat (by omega) j rfl
  constructor
  intro x
  cases x with
  | int i => exact hint _ i rfl
  | inst p =>
    induction p using hn.induction with
    | _ p ih =>
      constructor
      intro y hy
      cases hy with
      | inst h => exact ih _ h

/-- The functions that can be reached. -/
noncomputable def reach (P : VProgram A V) (f : Nat) : Finset Nat :=
  (Finset.range P.length).filter fun g => ReflTransGen (Calls P) f g

theorem reach_subset {P : VProgram A V} {f g : Nat} (h : ReflTransGen (Calls P) f g) :
    reach P g ⊆ reach P f := by
  intro x hx
  simp only [reach, Finset.mem_filter] at hx ⊢
  exact ⟨hx.1, h.trans hx.2⟩

theorem Calls.lt {P : VProgram A V} {f g : Nat} (h : Calls P f g) : f < P.length := by
  obtain ⟨vf, t, a, hf, -⟩ := h
  exact (List.getElem?_eq_some_iff.1 hf).1

theorem reach_lt {P : VProgram A V} {f g : Nat} (h : Calls P f g)
    (hn : ¬ ReflTransGen (Calls P) g f) : (reach P g).card < (reach P f).card := by
  refine Finset.card_lt_card (Finset.ssubset_iff_subset_ne.2 ⟨reach_subset (.single h), ?_⟩)
  intro he
  have : f ∈ reach P f := by
    simp only [reach, Finset.mem_filter, Finset.mem_range]
    exact ⟨h.lt, .refl⟩
  rw [← he] at this
  simp only [reach, Finset.mem_filter] at this
  exact hn this.2

theorem reach_eq {P : VProgram A V} {f g : Nat} (h : Mutual P f g) :
    (reach P g).card = (reach P f).card :=
  congrArg _ (Finset.Subset.antisymm (reach_subset h.1) (reach_subset h.2))

/-- The measure that applies, if one does. -/
noncomputable def measureAt (P : VProgram A V) (x : Nat × A) : VVal :=
  if h : ∃ m vf, P[x.1]? = some vf ∧ TupleAt vf x.2 m then h.choose else .int 0

theorem tupleAt_unique {vf : VFun A V} (ho : OneEach vf) {a : A} {m m' : VVal} (h : TupleAt vf a m)
    (h' : TupleAt vf a m') : m = m' := by
  obtain ⟨e, c, hm, -, rfl⟩ := h
  obtain ⟨e', c', hm', -, rfl⟩ := h'
  rw [(ho.1 e c e' c' hm hm').1]

theorem measureAt_eq {P : VProgram A V} {f : Nat} {vf : VFun A V} {a : A} {m : VVal}
    (hf : P[f]? = some vf) (ho : OneEach vf) (h : TupleAt vf a m) : measureAt P (f, a) = m := by
  have hex : ∃ m vf, P[(f, a).1]? = some vf ∧ TupleAt vf (f, a).2 m := ⟨m, vf, hf, h⟩
  unfold measureAt
  rw [dif_pos hex]
  obtain ⟨vf', h1, h2⟩ := hex.choose_spec
  have hv : some vf' = some vf := h1.symm.trans hf
  cases hv
  exact tupleAt_unique ho h2 h

/-- The order in which functions are evaluated. -/
def Below (P : VProgram A V) (nested : Nat → Nat → Prop) (y x : Nat × A) : Prop :=
  Prod.Lex (· < ·) (Smaller nested) ((reach P y.1).card, measureAt P y) ((reach P x.1).card, measureAt P x)

theorem below_wf (P : VProgram A V) {nested : Nat → Nat → Prop} (hn : WellFounded nested) :
    WellFounded (Below P nested) :=
  InvImage.wf (fun x : Nat × A => ((reach P x.1).card, measureAt P x))
    (WellFounded.prod_lex Nat.lt_wfRel.wf (smaller_wf hn))

/-! ### Solutions -/

/-- What makes the definitions well-founded: where a function with a body may be evaluated, a measure
applies, and there are no wildcards; there are values as functions without body promise. -/
structure Covered (P : VProgram A V) : Prop where
  tuple : ∀ (f : Nat) vf t a, P[f]? = some vf → vf.body = some t → vf.pre a → ∃ m, TupleAt vf a m
  wildcard : ∀ (f : Nat) vf t a, P[f]? = some vf → vf.body = some t → ¬ WildcardAt vf a
  abstract : ∀ (f : Nat) vf a, P[f]? = some vf → vf.body = none → vf.pre a → ∃ v, vf.post a v

/-- A call to a function without body ends the chain. -/
theorem not_calls_of_abstract {P : VProgram A V} {g : Nat} {vg : VFun A V} (hg : P[g]? = some vg)
    (hb : vg.body = none) {h : Nat} : ReflTransGen (Calls P) g h → g = h := by
  intro hr
  cases ReflTransGen.cases_head hr with
  | inl h => exact h
  | inr h =>
    obtain ⟨c, ⟨vf, t, a, hf, ht, -⟩, -⟩ := h
    rw [hg] at hf
    cases hf
    rw [hb] at ht
    cases ht

theorem below_of_check {P : VProgram A V} {nested : Nat → Nat → Prop} (hc : Covered P)
    (hv : Verified P nested) {f g : Nat} {vf vg : VFun A V} {t : A → Tree A V} {a b : A}
    (hf : P[f]? = some vf) (ht : vf.body = some t) (hpa : vf.pre a) (hg : P[g]? = some vg)
    (hcall : Calls P f g) (hk : TerminationCheck P nested f vf a g vg b) :
    Below P nested (g, b) (f, a) := by
  by_cases hm : ReflTransGen (Calls P) g f
  · have hmut : Mutual P f g := ⟨.single hcall, hm⟩
    obtain ⟨m, hma⟩ := hc.tuple f vf t a hf ht hpa
    cases hgb : vg.body with
    | none =>
      have := not_calls_of_abstract hg hgb hm
      subst this
      rw [hf] at hg
      cases hg
      rw [ht] at hgb
      cases hgb
    | some tg =>
      rcases hk m hma with hw | ⟨m', hm', hs⟩
      · exact absurd hw (hc.wildcard g vg tg b hg hgb)
      · have e1 := measureAt_eq hf (hv f vf hf).1 hma
        have e2 := measureAt_eq hg (hv g vg hg).1 hm'
        unfold Below
        rw [show (reach P (g, b).1).card = (reach P (f, a).1).card from reach_eq hmut, e1, e2]
        exact Prod.Lex.right _ (hs hmut)
  · exact Prod.Lex.left _ _ (reach_lt hcall hm)

/-- The values, by recursion along the order of calls. -/
noncomputable def solution [Inhabited V] (P : VProgram A V) {nested : Nat → Nat → Prop}
    (hn : WellFounded nested) : Nat × A → V :=
  (below_wf P hn).fix fun x rec =>
    match P[x.1]? with
    | none => default
    | some vf =>
      match vf.body with
      | none => if h : ∃ v, vf.post x.2 v then h.choose else default
      | some t => value (fun g b => if h : Below P nested (g, b) x then rec (g, b) h else default) (t x.2)

theorem solution_eq [Inhabited V] (P : VProgram A V) {nested : Nat → Nat → Prop}
    (hn : WellFounded nested) (x : Nat × A) :
    solution P hn x =
      match P[x.1]? with
      | none => default
      | some vf =>
        match vf.body with
        | none => if h : ∃ v, vf.post x.2 v then h.choose else default
        | some t =>
          value (fun g b => if Below P nested (g, b) x then solution P hn (g, b) else default) (t x.2) := by
  unfold solution
  rw [WellFounded.fix_eq]
  rfl

theorem solution_abstract [Inhabited V] {P : VProgram A V} {nested : Nat → Nat → Prop}
    (hn : WellFounded nested) {f : Nat} {vf : VFun A V} {a : A} (hf : P[f]? = some vf)
    (hb : vf.body = none) (hex : ∃ v, vf.post a v) : vf.post a (solution P hn (f, a)) := by
  rw [solution_eq]
  simp only [hf, hb, dif_pos hex]
  exact hex.choose_spec

theorem solution_body [Inhabited V] {P : VProgram A V} {nested : Nat → Nat → Prop}
    (hn : WellFounded nested) {f : Nat} {vf : VFun A V} {a : A} {t : A → Tree A V} (hf : P[f]? = some vf)
    (hb : vf.body = some t) : solution P hn (f, a) =
      value (fun g b => if Below P nested (g, b) (f, a) then solution P hn (g, b) else default) (t a) := by
  rw [solution_eq]
  simp only [hf, hb]

/-- Evaluating a verified body with values that are correct below yields a correct value, which depends
only on values below. -/
theorem value_checked {P : VProgram A V} {nested : Nat → Nat → Prop} {f : Nat} {vf : VFun A V} {a : A}
    (I J : Nat → A → V) (r : Tree A V) (hr : Checked P nested f vf a r)
    (hI : ∀ g vg b, P[g]? = some vg → vg.pre b → Mentions g r → TerminationCheck P nested f vf a g vg b →
      vg.post b (I g b) ∧ I g b = J g b) :
    vf.post a (value I r) ∧ value I r = value J r := by
  induction hr with
  | ret h => exact ⟨h, rfl⟩
  | @call g vg b k hg hpre hk hrest ih =>
    obtain ⟨h1, h2⟩ := hI g vg b hg hpre (.here b k) hk
    have := ih (I g b) h1 fun g' vg' b' x1 x2 x3 x4 => hI g' vg' b' x1 x2 (.later g b k _ x3) x4
    refine ⟨this.1, ?_⟩
    show value I (k (I g b)) = value J (k (J g b))
    rw [← h2]
    exact this.2

theorem solution_solves [Inhabited V] {P : VProgram A V} {nested : Nat → Nat → Prop}
    (hn : WellFounded nested) (hv : Verified P nested) (hc : Covered P) :
    Solves P (fun f a => solution P hn (f, a)) := by
  have key : ∀ x : Nat × A, ∀ vf, P[x.1]? = some vf → vf.pre x.2 →
      (∀ t, vf.body = some t → solution P hn x = value (fun f a => solution P hn (f, a)) (t x.2)) ∧
        vf.post x.2 (solution P hn x) := by
    intro x
    induction x using (below_wf P hn).induction with
    | _ x ih =>
      obtain ⟨f, a⟩ := x
      intro vf hf hpre
      simp only at hf hpre ⊢
      cases hb : vf.body with
      | none =>
        exact ⟨nofun, solution_abstract hn hf hb (hc.abstract f vf a hf hb hpre)⟩
      | some t =>
        have hck := (hv f vf hf).2 t a hb hpre
        have := value_checked
          (fun g b => if Below P nested (g, b) (f, a) then solution P hn (g, b) else default)
          (fun g b => solution P hn (g, b)) (t a) hck ?_
        · rw [solution_body hn hf hb]
          refine ⟨fun t' h => ?_, this.1⟩
          cases h
          exact this.2
        · intro g vg b hg hpb hm hk
          have hbl := below_of_check hc hv hf hb hpre hg ⟨vf, t, a, hf, hb, hm⟩ hk
          simp only [if_pos hbl]
          exact ⟨(ih (g, b) hbl vg hg hpb).2, trivial⟩
  exact fun f vf a hf hpre => key (f, a) vf hf hpre

theorem solution_unique {P : VProgram A V} {nested : Nat → Nat → Prop} (hn : WellFounded nested)
    (hv : Verified P nested) (hc : Covered P) {I J : Nat → A → V} (hI : Solves P I) (hJ : Solves P J)
    (habs : ∀ (f : Nat) vf a, P[f]? = some vf → vf.body = none → vf.pre a → I f a = J f a) :
    ∀ (f : Nat) vf a, P[f]? = some vf → vf.pre a → I f a = J f a := by
  have key : ∀ x : Nat × A, ∀ vf, P[x.1]? = some vf → vf.pre x.2 → I x.1 x.2 = J x.1 x.2 := by
    intro x
    induction x using (below_wf P hn).induction with
    | _ x ih =>
      obtain ⟨f, a⟩ := x
      intro vf hf hpre
      cases hb : vf.body with
      | none => exact habs f vf a hf hb hpre
      | some t =>
        rw [(hI f vf a hf hpre).1 t hb, (hJ f vf a hf hpre).1 t hb]
        refine (value_checked I J (t a) ((hv f vf hf).2 t a hb hpre) ?_).2
        intro g vg b hg hpb hm hk
        exact ⟨(hI g vg b hg hpb).2,
          ih (g, b) (below_of_check hc hv hf hb hpre hg ⟨vf, t, a, hf, hb, hm⟩ hk) vg hg hpb⟩
  exact fun f vf a hf hpre => key (f, a) vf hf hpre

/-! ### Translated programs -/

theorem translate_get {fs : List (Fun A V)} {f : Nat} {vf : VFun A V}
    (h : (fs.map translateFunction)[f]? = some vf) : ∃ pf, fs[f]? = some pf ∧ vf = translateFunction pf := by
  rw [List.getElem?_map] at h
  cases hf : fs[f]? with
  | none => rw [hf] at h; cases h
  | some pf => rw [hf] at h; cases h; exact ⟨pf, rfl, rfl⟩

theorem body_some {f : Fun A V} {t : A → Tree A V} :
    (translateFunction f).body = some t ↔ f.Defined t := by
  unfold translateFunction Fun.Defined
  cases hc : f.contractOnly <;> cases hb : f.body <;> simp

theorem body_none {f : Fun A V} : (translateFunction f).body = none ↔ f.Abstract := by
  unfold Fun.Abstract
  constructor
  · intro h t ht
    rw [body_some.2 ht] at h
    cases h
  · intro h
    cases hb : (translateFunction f).body with
    | none => rfl
    | some t => exact absurd (body_some.1 hb) (h t)

theorem covered_of_annotated {fs : List (Fun A V)} (hn : NoTrust fs) (ha : Annotated fs) :
    Covered (fs.map translateFunction) where
  tuple := by
    intro f vf t a hf hb hpre
    obtain ⟨pf, hpf, rfl⟩ := translate_get hf
    have hm := List.mem_of_getElem? hpf
    obtain ⟨c, hc, hh⟩ := ha pf hm t a (body_some.1 hb) hpre
    have hne := (hn pf hm).1 c hc
    have hin : translateClause c ∈ (translateFunction pf).decreases :=
      List.mem_map.2 ⟨c, hc, rfl⟩
    unfold translateClause at hin
    cases hcm : c.measure with
    | constNone => exact absurd hcm hne
    | predicate p => rw [hcm] at hin; exact ⟨_, _, _, hin, hh, rfl⟩
    | int e => rw [hcm] at hin; exact ⟨_, _, _, hin, hh, rfl⟩
  wildcard := by
    intro f vf t a hf hb hw
    obtain ⟨pf, hpf, rfl⟩ := translate_get hf
    obtain ⟨c, hc, -⟩ := hw
    obtain ⟨c', hc', he⟩ := List.mem_map.1 hc
    have hne := (hn pf (List.mem_of_getElem? hpf)).1 c' hc'
    unfold translateClause at he
    cases hcm : c'.measure with
    | constNone => exact hne hcm
    | predicate p => rw [hcm] at he; cases he
    | int e => rw [hcm] at he; cases he
  abstract := by
    intro f vf a hf hb hpre
    obtain ⟨pf, hpf, rfl⟩ := translate_get hf
    exact (hn pf (List.mem_of_getElem? hpf)).2 (body_none.1 hb) a hpre

/-- A verified evaluation runs if the calls below do. -/
theorem run_checked {fs : List (Fun A V)} {nested : Nat → Nat → Prop} {f : Nat} {vf : VFun A V} {a : A}
    (I : Nat → A → V) (r : Tree A V) (hr : Checked (fs.map translateFunction) nested f vf a r)
    (hI : Solves (fs.map translateFunction) I)
    (hB : ∀ g pg t b, fs[g]? = some pg → pg.Defined t → pg.pre b → Mentions g r →
      TerminationCheck (fs.map translateFunction) nested f vf a g (translateFunction pg) b →
      Run fs I (t b) (I g b)) : Run fs I r (value I r) := by
  induction hr with
  | ret h => exact .ret _
  | @call g vg b k hg hpre hk hrest ih =>
    obtain ⟨pg, hpg, rfl⟩ := translate_get hg
    have hrun := ih (I g b) (hI g _ b hg hpre).2 fun g' pg' t b' x1 x2 x3 x4 x5 =>
      hB g' pg' t b' x1 x2 x3 (.later g b k _ x4) x5
    cases hb : (translateFunction pg).body with
    | none => exact .abstract hpg (body_none.1 hb) hrun
    | some t =>
      exact .call hpg (body_some.1 hb) (hB g pg t b hpg (body_some.1 hb) hpre (.here b k) hk) hrun

theorem run_of_solves {fs : List (Fun A V)} {nested : Nat → Nat → Prop} (hn : WellFounded nested)
    (hv : Verified (fs.map translateFunction) nested) (hc : Covered (fs.map translateFunction))
    {I : Nat → A → V} (hI : Solves (fs.map translateFunction) I) :
    ∀ (x : Nat × A) pf t, fs[x.1]? = some pf → pf.Defined t → pf.pre x.2 → Run fs I (t x.2) (I x.1 x.2) := by
  intro x
  induction x using (below_wf (fs.map translateFunction) hn).induction with
  | _ x ih =>
    obtain ⟨f, a⟩ := x
    intro pf t hf hd hpre
    have hf' : (fs.map translateFunction)[f]? = some (translateFunction pf) := by
      simp only at hf
      rw [List.getElem?_map, hf]
      rfl
    have hb := body_some.2 hd
    show Run fs I (t a) (I f a)
    rw [(hI f _ a hf' hpre).1 t hb]
    refine run_checked I (t a) ((hv f _ hf').2 t a hb hpre) hI ?_
    intro g pg t' b hg hd' hpb hm hk
    have hg' : (fs.map translateFunction)[g]? = some (translateFunction pg) := by
      rw [List.getElem?_map, hg]
      rfl
    exact ih (g, b) (below_of_check hc hv hf' hb hpre hg' ⟨_, t, a, hf', hb, hm⟩ hk) pg t' hg hd' hpb

end Nagini.Decreases
