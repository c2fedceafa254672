import Verif.Spec.TypeDomain
import Mathlib.Data.Countable.Basic
import Mathlib.Logic.Encodable.Basic
import Mathlib.Logic.Equiv.List
import Mathlib.Data.Finset.Basic
import Mathlib.Data.Set.Countable

set_option linter.unusedVariables false
set_option linter.unusedSimpArgs false
set_option linter.unusedSectionVars false

namespace Nagini.TypeDomain

open Relation

/-! ### Lists of expressions -/

theorem substList_eq (as es : List TExp) : TExp.substList as es = es.map (TExp.subst as) := by
  induction es with
  | nil => rfl
  | cons e es ih => simp [TExp.substList, ih]

theorem evalList_eq (I : Interp) (as : List I.T) (es : List TExp) : I.evalList as es = es.map (I.eval as) := by
  induction es with
  | nil => rfl
  | cons e es ih => simp [Interp.evalList, ih]

theorem eval_var (I : Interp) (as : List I.T) (i : Nat) : I.eval as (.var i) = as[i]?.getD I.unionBasic := by
  rw [Interp.eval]

theorem eval_app' (I : Interp) (as : List I.T) (c : Nat) (es : List TExp) :
    I.eval as (.app c es) = I.cls c (es.map (I.eval as)) := by
  rw [Interp.eval, evalList_eq]

theorem directSub_unique {tbl : Table} {t u v : TExp} (h : DirectSub tbl t u) (h' : DirectSub tbl t v) : u = v := by
  cases h with
  | declared c as d es hs =>
    cases h' with
    | declared _ _ d' es' hs' => rw [hs] at hs'; cases hs'; rfl
    | default _ _ _ hs' => rw [hs] at hs'; cases hs'
  | default c as hc hs =>
    cases h' with
    | declared _ _ d' es' hs' => rw [hs] at hs'; cases hs'
    | default _ _ _ hs' => rfl

/-! ### Generic facts on functional acyclic relations -/

section Chain
variable {α : Type} {S : α → α → Prop} (hu : ∀ a b c, S a b → S a c → b = c)
include hu

theorem chain_comparable {a b c : α} (h1 : ReflTransGen S a b) (h2 : ReflTransGen S a c) :
    ReflTransGen S b c ∨ ReflTransGen S c b := by
  induction h1 with
  | refl => exact .inl h2
  | @tail b b' hab hbb ih =>
    rcases ih with h | h
    · rcases ReflTransGen.cases_head h with e | ⟨d, hd, hdc⟩
      · subst e; exact .inr (.single hbb)
      · rw [hu _ _ _ hbb hd]; exact .inl hdc
    · exact .inr (h.tail hbb)

/-- Two elements that meet but are not comparable have ancestors that are different
children of the same element. -/
theorem diverge {a b r : α} (ha : ReflTransGen S a r) (hb : ReflTransGen S b r)
    (h1 : ¬ ReflTransGen S a b) (h2 : ¬ ReflTransGen S b a) :
    ∃ a' b' p, ReflTransGen S a a' ∧ ReflTransGen S b b' ∧ S a' p ∧ S b' p ∧ a' ≠ b' := by
  induction ha using ReflTransGen.head_induction_on with
  | refl => exact absurd hb h2
  | @head a c hac hcr ih =>
    by_cases hbc : ReflTransGen S b c
    · rcases ReflTransGen.cases_tail hbc with e | ⟨b', hbb', hb'c⟩
      · subst e; exact absurd (ReflTransGen.single hac) h1
      · refine ⟨a, b', c, .refl, hbb', hac, hb'c, ?_⟩
        rintro rfl
        exact h2 hbb'
    · have hcb : ¬ ReflTransGen S c b := fun h => h1 (.head hac h)
      obtain ⟨a', b', p, x1, x2, x3, x4, x5⟩ := ih hcb hbc
      exact ⟨a', b', p, .head hac x1, x2, x3, x4, x5⟩
end Chain

theorem rank_le {α : Type} {S : α → α → Prop} (rank : α → Nat) (hr : ∀ a b, S a b → rank b < rank a) {a b : α}
    (h : ReflTransGen S a b) : rank b ≤ rank a ∧ (rank a = rank b → a = b) := by
  induction h with
  | refl => exact ⟨Nat.le_refl _, fun _ => rfl⟩
  | tail h1 h2 ih =>
    have := hr _ _ h2
    exact ⟨by omega, fun he => by omega⟩

theorem chain_antisymm {α : Type} {S : α → α → Prop} (rank : α → Nat) (hr : ∀ a b, S a b → rank b < rank a) {a b : α}
    (h : ReflTransGen S a b) (h' : ReflTransGen S b a) : a = b := by
  have h1 := rank_le rank hr h
  have h2 := rank_le rank hr h'
  exact h1.2 (by omega)

/-! ### Consequences of the axioms -/

section Derive
variable {tbl : Table} {I : Interp}

theorem eval_subst (as : List TExp) (n : Nat) (hn : as.length = n) : ∀ e, WfExp tbl n e →
    I.eval [] (e.subst as) = I.eval (as.map (I.eval [])) e := by
  intro e h
  induction h with
  | var i hi =>
    rw [TExp.subst, Interp.eval, List.getElem?_map, List.getElem?_eq_getElem (by omega)]
    rfl
  | app c es hl _ ih =>
    rw [TExp.subst, Interp.eval, Interp.eval, evalList_eq, evalList_eq, substList_eq, List.map_map]
    congr 1
    exact List.map_congr_left fun a ha => ih a ha

theorem closed_subst (as : List TExp) (n : Nat) (hn : as.length = n) (hc : ∀ a ∈ as, Closed tbl a) : ∀ e,
    WfExp tbl n e → Closed tbl (e.subst as) := by
  intro e h
  induction h with
  | var i hi =>
    rw [TExp.subst, List.getElem?_eq_getElem (by omega)]
    exact hc _ (List.getElem_mem _)
  | app c es hl _ ih =>
    rw [TExp.subst, substList_eq]
    refine .app _ _ (by simp [hl]) ?_
    intro a ha
    obtain ⟨e, he, rfl⟩ := List.mem_map.1 ha
    exact ih e he

theorem directSub_closed (hw : WfTable tbl) {t u : TExp} (ht : Closed tbl t) (h : DirectSub tbl t u) : Closed tbl u := by
  cases h with
  | declared c as d es hs =>
    cases ht with
    | app _ _ hl ha => exact closed_subst as _ hl ha _ (hw.wfSup c d es hs)
  | default c as h0 hs => exact .app _ _ (by simp [hw.objVars]) (by simp)

theorem nominal_closed (hw : WfTable tbl) {t u : TExp} (ht : Closed tbl t) (h : Nominal tbl t u) : Closed tbl u := by
  induction h with
  | refl => exact ht
  | tail _ h ih => exact directSub_closed hw ih h

theorem eval_app (c : Nat) (as : List TExp) : I.eval [] (.app c as) = I.cls c (as.map (I.eval [])) := by
  rw [Interp.eval, evalList_eq]

theorem directSub_ext (hw : WfTable tbl) (he : ∀ c, c ≠ 0 → Interp.emits tbl c) (ha : I.axSubtype tbl) {t u : TExp} (ht : Closed tbl t)
    (h : DirectSub tbl t u) : I.ext (I.eval [] t) (I.eval [] u) := by
  cases ht with
  | app c as hl hc =>
    have hc0 : c ≠ 0 := by
      rintro rfl
      cases h with
      | declared _ _ d es hs => rw [hw.objSup] at hs; cases hs
      | default _ _ h0 _ => exact h0 rfl
    have := (ha c (he c hc0) (as.map (I.eval [])) (by simpa using hl)).1
    rw [eval_app]
    cases h with
    | declared _ _ d es hs =>
      rw [eval_subst as _ hl _ (hw.wfSup c d es hs)]
      simpa [Interp.supOf, hs] using this
    | default _ _ h0 hs =>
      rw [eval_app]
      simpa [Interp.supOf, hs, Interp.object] using this

theorem nominal_sub (hw : WfTable tbl) (he : ∀ c, c ≠ 0 → Interp.emits tbl c) (hd : I.defaultAxioms) (ha : I.classAxioms tbl) {t u : TExp} (ht : Closed tbl t)
    (h : Nominal tbl t u) : I.sub (I.eval [] t) (I.eval [] u) := by
  obtain ⟨hT, hR, hE, _⟩ := hd
  induction h with
  | refl => exact hR _
  | tail h1 h2 ih => exact hT _ _ _ ih (hE _ _ (directSub_ext hw he ha.1 (nominal_closed hw ht h1) h2))

theorem nominal_object (hw : WfTable tbl) {t : TExp} (ht : Closed tbl t) : Nominal tbl t (.app 0 []) := by
  obtain ⟨rank, hr⟩ := hw.acyclic
  cases ht with
  | app c as hl hc =>
    induction hk : rank c using Nat.strong_induction_on generalizing c as with
    | _ k ih =>
      by_cases h0 : c = 0
      · subst h0
        rw [hw.objVars] at hl
        rw [List.eq_nil_of_length_eq_zero hl]
        exact .refl
      · cases hs : (tbl c).sup with
        | none => exact .single (.default c as h0 hs)
        | some p =>
          obtain ⟨d, es⟩ := p
          have hcl := directSub_closed hw (.app c as hl hc) (.declared c as d es hs)
          have hst := DirectSub.declared (tbl := tbl) c as d es hs
          rw [TExp.subst] at hcl hst
          cases hcl with
          | app _ _ hl' hc' =>
            exact .head hst (ih (rank d) (by have := hr c d es hs; omega) d _ hl' hc' rfl)

/-- Types of a proper class are different from `object`. -/
theorem not_object (hw : WfTable tbl) (he : ∀ c, c ≠ 0 → Interp.emits tbl c) (hd : I.defaultAxioms) (ha : I.classAxioms tbl) {c : Nat} {as : List TExp}
    (ht : Closed tbl (.app c as)) (h0 : c ≠ 0) : I.eval [] (.app c as) ≠ I.object := by
  intro heq
  have hd' := hd
  obtain ⟨hT, hR, hE, _, _, hO, hX, hX2, hP, _⟩ := hd
  -- go up to a direct child of object
  have hn := nominal_object hw ht
  rcases ReflTransGen.cases_tail hn with e | ⟨v, hv, hvo⟩
  · cases e; exact h0 rfl
  · have hvc := nominal_closed hw ht hv
    have hsv := nominal_sub hw he hd' ha ht hv
    rw [heq] at hsv
    have hvobj : I.eval [] v = I.object := Classical.byContradiction fun h => hX2 _ _ (hO _) h hsv
    have hev := directSub_ext hw he ha.1 hvc hvo
    rw [eval_app] at hev
    have hne : I.ext I.noneType I.object := by
      have := (ha.1 1 (he 1 (by decide)) [] (by simp [hw.noneVars])).1
      simpa [Interp.supOf, hw.noneSup, Interp.noneType, Interp.eval, Interp.evalList, Interp.object] using this
    by_cases hvn : I.noneType = I.eval [] v
    · have h1 := ha.2.2.1 0 1 (by
        rw [Interp.basic, Interp.basic, if_pos hw.objVars, if_pos hw.noneVars]
        exact (hvn.trans hvobj).symm)
      exact absurd h1 (by decide)
    · exact hP _ _ _ (hR _) (hX _ _ _ hne hev hvn).1 (hvobj ▸ hO _)

theorem eval_inj (hw : WfTable tbl) (he : ∀ c, c ≠ 0 → Interp.emits tbl c) (hd : I.defaultAxioms) (ha : I.classAxioms tbl) {t : TExp} (ht : Closed tbl t) :
    ∀ u, Closed tbl u → I.eval [] t = I.eval [] u → t = u := by
  induction ht with
  | app c as hl hc ih =>
    intro u hu heq
    cases hu with
    | app d bs hl' hc' =>
      have hobj : ∀ xs : List TExp, xs.length = (tbl 0).nvars → xs = [] := by
        intro xs h; rw [hw.objVars] at h; exact List.eq_nil_of_length_eq_zero h
      by_cases hc0 : c = 0
      · subst hc0
        rw [hobj as hl] at heq ⊢
        by_cases hd0 : d = 0
        · subst hd0; rw [hobj bs hl']
        · exact absurd heq.symm (by rw [eval_app 0]; exact not_object hw he hd ha (.app d bs hl' hc') hd0)
      · by_cases hd0 : d = 0
        · subst hd0
          rw [hobj bs hl'] at heq
          exact absurd heq (by rw [eval_app 0]; exact not_object hw he hd ha (.app c as hl hc) hc0)
        · rw [eval_app, eval_app] at heq
          have h1 := (ha.1 c (he c hc0) (as.map (I.eval [])) (by simpa using hl)).2
          have h2 := (ha.1 d (he d hd0) (bs.map (I.eval [])) (by simpa using hl')).2
          rw [heq, h2] at h1
          have hcd := ha.2.2.1 _ _ h1
          subst hcd
          congr 1
          apply List.ext_getElem (by omega)
          intro i hi hi'
          have hR := hd.2.1
          have e1 := ha.2.1 d (I.cls d (bs.map (I.eval []))) (as.map (I.eval [])) (by simpa using hl)
            (by rw [heq]; exact hR _) i (by simpa using hi)
          have e2 := ha.2.1 d (I.cls d (bs.map (I.eval []))) (bs.map (I.eval [])) (by simpa using hl')
            (hR _) i (by simpa using hi')
          rw [e1] at e2
          simp only [List.getElem_map] at e2
          exact ih _ (List.getElem_mem hi) _ (hc' _ (List.getElem_mem hi')) e2

/-- Unrelated types: some ancestor of the first is known not to be a subtype of some
ancestor of the second. -/
theorem unrelated_nsub (hw : WfTable tbl) (he : ∀ c, c ≠ 0 → Interp.emits tbl c) (hd : I.defaultAxioms) (ha : I.classAxioms tbl) {t u : TExp}
    (ht : Closed tbl t) (hu : Closed tbl u) (h1 : ¬ Nominal tbl t u) (h2 : ¬ Nominal tbl u t) :
    ∃ t' u', I.sub (I.eval [] t) t' ∧ I.sub (I.eval [] u) u' ∧ I.nsub t' u' := by
  obtain ⟨t', u', p, a1, a2, a3, a4, a5⟩ := diverge (S := DirectSub tbl) (fun a b c => directSub_unique) (nominal_object hw ht)
    (nominal_object hw hu) h1 h2
  have ht' := nominal_closed hw ht a1
  have hu' := nominal_closed hw hu a2
  refine ⟨I.eval [] t', I.eval [] u', nominal_sub hw he hd ha ht a1, nominal_sub hw he hd ha hu a2, ?_⟩
  exact (hd.2.2.2.2.2.2.1 _ _ _ (directSub_ext hw he ha.1 ht' a3) (directSub_ext hw he ha.1 hu' a4)
    (fun h => a5 (eval_inj hw he hd ha ht' _ hu' h))).1

end Derive

/-! ### A model of the axioms -/

namespace Mdl

/-- Ground types: a class with coded arguments, or an extra constant. -/
abbrev G := (Nat × List Nat) ⊕ Nat

variable (tbl : Table)

mutual
def evalCode (as : List Nat) : TExp → Nat
  | .var i => as[i]?.getD 0
  | .app c es => 2 * Encodable.encode (Sum.inl (c, evalCodeList as es) : G)
def evalCodeList (as : List Nat) : List TExp → List Nat
  | [] => []
  | e :: es => evalCode as e :: evalCodeList as es
end

theorem evalCodeList_eq (as : List Nat) (es : List TExp) : evalCodeList as es = es.map (evalCode as) := by
  induction es with
  | nil => rfl
  | cons e es ih => simp [evalCodeList, ih]

/-- Direct supertype of a ground type. -/
def step : G → Option G
  | .inl (c, as) =>
    if c = 0 then (if as = [] then none else some (.inl (0, [])))
    else match (tbl c).sup with
      | none => some (.inl (0, []))
      | some (d, es) => some (.inl (d, evalCodeList as es))
  | .inr _ => some (.inl (0, []))

def St (g h : G) : Prop := step tbl g = some h

abbrev Le (g h : G) : Prop := ReflTransGen (St tbl) g h

theorem st_unique (a b c : G) (h : St tbl a b) (h' : St tbl a c) : b = c := by
  unfold St at h h'; rw [h] at h'; exact Option.some.inj h'

def grank (rank : Nat → Nat) : G → Nat
  | .inl (c, as) => if c = 0 then (if as = [] then 0 else 1) else rank c + 2
  | .inr _ => 1

theorem grank_step {rank : Nat → Nat} (hr : ∀ c d es, (tbl c).sup = some (d, es) → rank d < rank c) (a b : G)
    (h : St tbl a b) : grank rank b < grank rank a := by
  unfold St step at h
  match a, h with
  | .inr _, h => cases h; simp [grank]
  | .inl (c, as), h =>
    simp only at h
    split at h
    · split at h
      · cases h
      · cases h; simp [grank, *]
    · rename_i h0
      split at h
      · cases h; simp [grank, h0]
      · rename_i d es hs
        cases h
        have := hr c d es hs
        simp only [grank, h0, if_false]
        split
        · split <;> omega
        · omega

section
variable {tbl} (hac : ∃ rank : Nat → Nat, ∀ c d es, (tbl c).sup = some (d, es) → rank d < rank c)
include hac

theorem le_antisymm {a b : G} (h : Le tbl a b) (h' : Le tbl b a) : a = b := by
  obtain ⟨rank, hr⟩ := hac
  exact chain_antisymm (grank rank) (grank_step tbl hr) h h'

theorem le_object (a : G) : Le tbl a (.inl (0, [])) := by
  obtain ⟨rank, hr⟩ := hac
  induction hk : grank rank a using Nat.strong_induction_on generalizing a with
  | _ k ih =>
    cases hs : step tbl a with
    | none =>
      match a, hs with
      | .inl (c, as), hs =>
        unfold step at hs
        simp only at hs
        split at hs
        · rename_i h; subst h
          split at hs
          · rename_i h; subst h; exact .refl
          · cases hs
        · split at hs <;> cases hs
    | some b => exact .head hs (ih _ (by have := grank_step tbl hr a b hs; omega) b rfl)
end

/-- The down-set of finitely many ground types. -/
def downF (F : Finset G) : Set G := {g | ∃ f ∈ F, Le tbl g f}

/-- Types: finitely generated non-empty down-sets. -/
abbrev T := {S : Set G // ∃ F : Finset G, F.Nonempty ∧ S = downF tbl F}

def down (g : G) : T tbl := ⟨{h | Le tbl h g}, {g}, ⟨g, by simp⟩, by ext h; simp [downF]⟩

instance : Countable (T tbl) := by
  have : Function.Surjective (fun F : {F : Finset G // F.Nonempty} => (⟨downF tbl F.1, F.1, F.2, rfl⟩ : T tbl)) := by
    rintro ⟨S, F, hF, rfl⟩
    exact ⟨⟨F, hF⟩, rfl⟩
  exact this.countable

noncomputable def num : T tbl → Nat := (Countable.exists_injective_nat (T tbl)).choose

theorem num_inj : Function.Injective (num tbl) := (Countable.exists_injective_nat (T tbl)).choose_spec

open Classical in
/-- Codes: even for principal types. -/
noncomputable def code (t : T tbl) : Nat :=
  if h : ∃ g, t = down tbl g then 2 * Encodable.encode h.choose else 2 * num tbl t + 1

variable {tbl}

theorem down_inj (hac : ∃ rank : Nat → Nat, ∀ c d es, (tbl c).sup = some (d, es) → rank d < rank c) {g h : G}
    (e : down tbl g = down tbl h) : g = h := by
  have e' : ({x | Le tbl x g} : Set G) = {x | Le tbl x h} := congrArg Subtype.val e
  have h1 : g ∈ ({x | Le tbl x h} : Set G) := e' ▸ (ReflTransGen.refl : Le tbl g g)
  have h2 : h ∈ ({x | Le tbl x g} : Set G) := e' ▸ (ReflTransGen.refl : Le tbl h h)
  exact le_antisymm hac h1 h2

theorem code_down (hac : ∃ rank : Nat → Nat, ∀ c d es, (tbl c).sup = some (d, es) → rank d < rank c) (g : G) :
    code tbl (down tbl g) = 2 * Encodable.encode g := by
  unfold code
  have h : ∃ g', down tbl g = down tbl g' := ⟨g, rfl⟩
  rw [dif_pos h, down_inj hac h.choose_spec.symm]

theorem code_inj (hac : ∃ rank : Nat → Nat, ∀ c d es, (tbl c).sup = some (d, es) → rank d < rank c) {s t : T tbl}
    (e : code tbl s = code tbl t) : s = t := by
  unfold code at e
  split at e <;> split at e
  · rename_i h1 h2
    have : h1.choose = h2.choose := Encodable.encode_injective (by omega)
    rw [h1.choose_spec, h2.choose_spec, this]
  · omega
  · omega
  · exact num_inj tbl (by omega)

theorem nonempty (t : T tbl) : ∃ g, g ∈ t.1 := by
  obtain ⟨S, F, ⟨g, hg⟩, rfl⟩ := t
  exact ⟨g, g, hg, .refl⟩

theorem down_closed (t : T tbl) {g h : G} (hg : g ∈ t.1) (hh : Le tbl h g) : h ∈ t.1 := by
  obtain ⟨S, F, hF, rfl⟩ := t
  obtain ⟨f, hf, hl⟩ := hg
  exact ⟨f, hf, hh.trans hl⟩

theorem down_sub (t : T tbl) (g : G) : (down tbl g).1 ⊆ t.1 ↔ g ∈ t.1 :=
  ⟨fun h => h (ReflTransGen.refl : Le tbl g g), fun h _ hx => down_closed t h hx⟩

/-- Unions of types. -/
theorem union_fin (ts : List (T tbl)) (hne : ts ≠ []) :
    ∃ F : Finset G, F.Nonempty ∧ {g | ∃ t ∈ ts, g ∈ t.1} = downF tbl F := by
  classical
  induction ts with
  | nil => exact absurd rfl hne
  | cons t ts ih =>
    obtain ⟨S, F, hF, rfl⟩ := t
    by_cases h : ts = []
    · subst h
      refine ⟨F, hF, ?_⟩
      ext g; simp
    · obtain ⟨F', hF', e⟩ := ih h
      refine ⟨F ∪ F', hF.inl, ?_⟩
      ext g
      have : (∃ t ∈ ts, g ∈ t.1) ↔ g ∈ downF tbl F' := by rw [← e]; rfl
      simp only [List.mem_cons, exists_eq_or_imp, Set.mem_ofPred_eq, this]
      simp only [downF, Set.mem_ofPred_eq, Finset.mem_union]
      constructor
      · rintro (⟨f, h1, h2⟩ | ⟨f, h1, h2⟩)
        · exact ⟨f, .inl h1, h2⟩
        · exact ⟨f, .inr h1, h2⟩
      · rintro ⟨f, h1 | h1, h2⟩
        · exact .inl ⟨f, h1, h2⟩
        · exact .inr ⟨f, h1, h2⟩

variable (tbl)

open Classical in
noncomputable def unionT (ts : List (T tbl)) : T tbl :=
  if h : ts ≠ [] then ⟨{g | ∃ t ∈ ts, g ∈ t.1}, union_fin ts h⟩ else down tbl (.inl (0, []))

noncomputable def clsT (c : Nat) (ts : List (T tbl)) : T tbl := down tbl (.inl (c, ts.map (code tbl)))

noncomputable def basicT (c : Nat) : T tbl := if (tbl c).nvars = 0 then clsT tbl c [] else down tbl (.inr (c + 1))

noncomputable def basicG : G → T tbl
  | .inl (c, _) => basicT tbl c
  | .inr n => down tbl (.inr n)

open Classical in
noncomputable def getBasicT (t : T tbl) : T tbl :=
  if h : ∃ g, t = down tbl g then basicG tbl h.choose else down tbl (.inr 0)

open Classical in
noncomputable def argT (c : Nat) (z : T tbl) (i : Nat) : T tbl :=
  if h : ∃ ts : List (T tbl), z.1 ⊆ (clsT tbl c ts).1 then h.choose[i]?.getD z else z

/-- The nominal interpretation.  Objects are the proper class types that are not below
NoneType, plus null. -/
@[reducible] noncomputable def interp : Interp where
  T := T tbl
  R := Option {p : Nat × List Nat // ¬ Le tbl (.inl p) (.inl (1, []))}
  null := none
  typeof := fun r => match r with
    | none => down tbl (.inl (1, []))
    | some p => down tbl (.inl p.1)
  ext := fun a b => ∃ g h, step tbl g = some h ∧ a = down tbl g ∧ b = down tbl h
  sub := fun a b => a.1 ⊆ b.1
  nsub := fun a b => Disjoint a.1 b.1
  getBasic := getBasicT tbl
  unionBasic := down tbl (.inr 0)
  cls := clsT tbl
  basicC := fun c => down tbl (.inr (c + 1))
  argOf := argT tbl
  union := unionT tbl
  tuple := fun _ => down tbl (.inl (0, []))
  tupleVar := fun _ => down tbl (.inl (0, []))
  tupleArgs := fun _ => []

variable {tbl}

theorem getBasic_down (hac : ∃ rank : Nat → Nat, ∀ c d es, (tbl c).sup = some (d, es) → rank d < rank c) (g : G) :
    getBasicT tbl (down tbl g) = basicG tbl g := by
  unfold getBasicT
  have h : ∃ g', down tbl g = down tbl g' := ⟨g, rfl⟩
  rw [dif_pos h, down_inj hac h.choose_spec.symm]

theorem basicT_ne (hac : ∃ rank : Nat → Nat, ∀ c d es, (tbl c).sup = some (d, es) → rank d < rank c) (c : Nat) :
    basicT tbl c ≠ down tbl (.inr 0) := by
  intro h
  unfold basicT at h
  split at h
  · have := down_inj hac h; cases this
  · have := down_inj hac h; simp at this

theorem basicT_inj (hac : ∃ rank : Nat → Nat, ∀ c d es, (tbl c).sup = some (d, es) → rank d < rank c) {c d : Nat}
    (h : basicT tbl c = basicT tbl d) : c = d := by
  unfold basicT clsT at h
  split at h <;> split at h <;> have := down_inj hac h <;> simp at this <;> omega

theorem evalCode_eval (hac : ∃ rank : Nat → Nat, ∀ c d es, (tbl c).sup = some (d, es) → rank d < rank c) {n : Nat} (ts : List (T tbl)) (hn : ts.length = n) :
    ∀ e, WfExp tbl n e → code tbl ((interp tbl).eval ts e) = evalCode (ts.map (code tbl)) e := by
  intro e h
  induction h with
  | var i hi =>
    refine (congrArg (code tbl) (eval_var (interp tbl) ts i)).trans ?_
    unfold evalCode
    rw [List.getElem?_eq_getElem (show i < (ts.map (code tbl)).length by simp; omega),
      List.getElem?_eq_getElem (show i < ts.length by omega)]
    simp
  | app c es hl _ ih =>
    refine (congrArg (code tbl) (eval_app' (interp tbl) ts c es)).trans ?_
    unfold evalCode
    rw [evalCodeList_eq]
    show code tbl (clsT tbl c _) = _
    unfold clsT
    rw [code_down hac, List.map_map]
    congr 4
    exact List.map_congr_left fun a ha => ih a ha

theorem cls_eq_eval (hac : ∃ rank : Nat → Nat, ∀ c d es, (tbl c).sup = some (d, es) → rank d < rank c) {n : Nat} (ts : List (T tbl)) (hn : ts.length = n)
    (d : Nat) (es : List TExp) (h : WfExp tbl n (.app d es)) :
    (interp tbl).eval ts (.app d es) = down tbl (.inl (d, evalCodeList (ts.map (code tbl)) es)) := by
  refine (eval_app' (interp tbl) ts d es).trans ?_
  rw [evalCodeList_eq]
  show clsT tbl d _ = _
  unfold clsT
  congr 3
  rw [List.map_map]
  cases h with
  | app _ _ _ hh => exact List.map_congr_left fun a ha => evalCode_eval hac ts hn a (hh a ha)

theorem principal_of_basic (x : T tbl) (hb : getBasicT tbl x ≠ down tbl (.inr 0)) : ∃ g, x = down tbl g := by
  by_contra hc
  apply hb
  unfold getBasicT
  rw [dif_neg hc]

theorem down_sub_union (as : List (T tbl)) (hne : as ≠ []) (g : G) :
    (down tbl g).1 ⊆ (unionT tbl as).1 ↔ ∃ a ∈ as, (down tbl g).1 ⊆ a.1 := by
  rw [down_sub]
  simp only [down_sub]
  unfold unionT
  rw [dif_pos hne]
  rfl

theorem union_sub (as : List (T tbl)) (hne : as ≠ []) (x : T tbl) :
    (unionT tbl as).1 ⊆ x.1 ↔ ∀ a ∈ as, a.1 ⊆ x.1 := by
  unfold unionT
  rw [dif_pos hne]
  constructor
  · intro h a ha g hg; exact h ⟨a, ha, hg⟩
  · rintro h g ⟨a, ha, hg⟩; exact h a ha hg

theorem interp_default (hw : WfTable tbl) : (interp tbl).defaultAxioms := by
  have hac := hw.acyclic
  refine ⟨?_, ?_, ?_, ?_, ?_, ?_, ?_, ?_, ?_, ?_, ?_⟩
  · intro a b c h1 h2; exact Set.Subset.trans h1 h2
  · intro a; exact Set.Subset.refl _
  · rintro a b ⟨g, h, hs, rfl, rfl⟩
    intro x hx
    exact ReflTransGen.tail hx hs
  · intro r
    have e : (interp tbl).noneType = down tbl (.inl (1, [])) := rfl
    rw [e]
    cases r with
    | none => exact ⟨fun _ => rfl, fun _ => Set.Subset.refl _⟩
    | some p =>
      constructor
      · intro h
        exact absurd ((down_sub _ _).1 h) p.2
      · intro h; cases h
  · intro r
    show getBasicT tbl _ ≠ down tbl (.inr 0)
    cases r with
    | none => show getBasicT tbl (down tbl _) ≠ _; rw [getBasic_down hac]; exact basicT_ne hac _
    | some p => show getBasicT tbl (down tbl _) ≠ _; rw [getBasic_down hac]; exact basicT_ne hac _
  · intro a x _
    exact le_object hac x
  · rintro a b p ⟨g, h, hs, rfl, rfl⟩ ⟨g', h', hs', rfl, e⟩ hne
    have hh := down_inj hac e
    subst hh
    have hgg : g ≠ g' := fun h => hne (by rw [h])
    have hdis : ∀ x, Le tbl x g → Le tbl x g' → False := by
      intro x h1 h2
      have aux : ∀ a b : G, step tbl a = some h → step tbl b = some h → Le tbl a b → a = b := by
        intro a b ha hb hab
        rcases ReflTransGen.cases_head hab with e | ⟨c, hc, hcb⟩
        · exact e
        · have e := st_unique tbl _ _ _ hc ha
          subst e
          have : c = b := le_antisymm hac hcb (.single hb)
          subst this
          obtain ⟨rank, hr⟩ := hac
          exact absurd (grank_step tbl hr _ _ hb) (by omega)
      rcases chain_comparable (st_unique tbl) h1 h2 with h3 | h3
      · exact hgg (aux _ _ hs hs' h3)
      · exact hgg (aux _ _ hs' hs h3).symm
    constructor
    · exact Set.disjoint_left.2 fun x h1 h2 => hdis x h1 h2
    · exact Set.disjoint_left.2 fun x h1 h2 => hdis x h2 h1
  · intro a b h1 hne h2
    exact hne (Subtype.ext (Set.Subset.antisymm h1 h2))
  · intro a m s h1 h2 h3
    obtain ⟨g, hg⟩ := nonempty a
    exact Set.disjoint_left.1 h2 (h1 hg) (h3 hg)
  · intro as x ⟨hl, _⟩ hb
    have hne : as ≠ [] := by rintro rfl; simp at hl
    obtain ⟨g, rfl⟩ := principal_of_basic (tbl := tbl) x hb
    exact down_sub_union as hne g
  · intro as x ⟨hl, _⟩
    have hne : as ≠ [] := by rintro rfl; simp at hl
    exact union_sub as hne x

theorem interp_class (hw : WfTable tbl) : (interp tbl).classAxioms tbl := by
  have hac := hw.acyclic
  refine ⟨?_, ?_, ?_⟩
  · intro c he as hl
    have hc0 : c ≠ 0 := by rintro rfl; exact he ⟨hw.objIface, hw.objSup⟩
    constructor
    · refine ⟨.inl (c, as.map (code tbl)), ?_⟩
      cases hs : (tbl c).sup with
      | none =>
        refine ⟨.inl (0, []), ?_, rfl, ?_⟩
        · simp [step, hc0, hs]
        · simp only [Interp.supOf, hs]; rfl
      | some p =>
        obtain ⟨d, es⟩ := p
        refine ⟨.inl (d, evalCodeList (as.map (code tbl)) es), ?_, rfl, ?_⟩
        · simp [step, hc0, hs]
        · simp only [Interp.supOf, hs]
          exact cls_eq_eval hac as hl d es (hw.wfSup c d es hs)
    · show getBasicT tbl (down tbl _) = _
      rw [getBasic_down hac]
      rfl
  · intro c z as hl hz i hi
    show argT tbl c z i = _
    unfold argT
    have hex : ∃ ts : List (T tbl), z.1 ⊆ (clsT tbl c ts).1 := ⟨as, hz⟩
    rw [dif_pos hex]
    have hts := hex.choose_spec
    generalize hex.choose = ts at hts
    obtain ⟨g, hg⟩ := nonempty z
    have h1 : Le tbl g (.inl (c, as.map (code tbl))) := hz hg
    have h2 : Le tbl g (.inl (c, ts.map (code tbl))) := hts hg
    obtain ⟨rank, hr⟩ := hw.acyclic
    -- a chain visits every class other than object once
    have key : (Sum.inl (c, as.map (code tbl)) : G) = .inl (c, ts.map (code tbl)) ∨ c = 0 := by
      by_cases hc : c = 0
      · exact .inr hc
      left
      rcases chain_comparable (st_unique tbl) h1 h2 with h3 | h3
      · exact (rank_le (grank rank) (grank_step tbl hr) h3).2 (by simp [grank, hc])
      · exact ((rank_le (grank rank) (grank_step tbl hr) h3).2 (by simp [grank, hc])).symm
    rcases key with e | e
    · simp only [Sum.inl.injEq, Prod.mk.injEq, true_and] at e
      have : as = ts := by
        have hinj : Function.Injective (code tbl) := fun a b h => code_inj hac h
        exact (List.map_injective_iff.2 hinj) e
      subst this
      rw [List.getElem?_eq_getElem hi]
      rfl
    · subst e
      rw [hw.objVars] at hl
      omega
  · refine ⟨fun c d h => basicT_inj hac h, fun c => basicT_ne hac c⟩

/-- Evaluation of closed types in the model. -/
theorem eval_closed (hw : WfTable tbl) {t : TExp} (ht : Closed tbl t) :
    ∃ g, (interp tbl).eval [] t = down tbl g := by
  cases ht with
  | app c as _ _ => exact ⟨.inl (c, (as.map ((interp tbl).eval [])).map (code tbl)), by rw [eval_app]; rfl⟩

end Mdl
end Nagini.TypeDomain
