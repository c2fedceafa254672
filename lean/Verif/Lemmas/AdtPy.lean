import Verif.Lemmas.AdtModel
set_option linter.unusedVariables false
set_option linter.unusedSimpArgs false
/-! The representation of Python values in an interpretation of the axioms. -/
namespace Nagini.Adt
section
variable {I : Interp} {As : List Cls} {le : Nat → Nat → Prop} {none : Nat}

theorem models_facts (hh : Hier As le none) (hm : I.Models As le none) {A : Cls} (hA : A ∈ As) : Facts I A :=
  (sat_iff A (hh.cons A hA)).1 (hm.2 A hA).2

theorem typeof_cons (hh : Hier As le none) (hm : I.Models As le none) {A c : Cls} (hA : A ∈ As) (hc : c ∈ A.cons)
    {vs : List I.U} (hv : I.sorted (sorts A c) vs) :
    I.fn .typeof [I.fn (.box A.id) [I.fn (.cons A.id c.name) vs]] = I.fn (.pytype c.id) [] := by
  have hf := models_facts hh hm hA
  have hd := (hm.2 A hA).1.result _ _ _ _ (cons_fn hc) (by simp) _ hv
  exact (hf.boxIs _ hd c hc).1 ((hf.isc c hc _ hd).1 (hf.const c hc vs hv))

/-- What is known about the representation of a value. -/
def RepOk (I : Interp) : FTy → PVal → Prop
  | .int, v => I.dom .int (I.rep v)
  | .bool, v => I.dom .bool (I.rep v)
  | .type, v => False
  | .cls _ _, v => I.dom .ref (I.rep v) ∧ ∃ A c vs, v = .obj A c vs ∧ I.fn .typeof [I.rep v] = I.fn (.pytype c.id) [] ∧
      I.sorted (sorts A c) (I.reps A c.fields vs)

theorem reps_cons (I : Interp) (A : Cls) (f : String × FTy) (fs v vs) :
    I.reps A (f :: fs) (v :: vs) =
      (if isAdt A f.2 then I.fn (.unbox A.id) [I.rep v] else I.rep v) :: I.reps A fs vs := by
  obtain ⟨n, t⟩ := f
  cases t <;> simp [Interp.reps, isAdt]

theorem fieldSort_eq {A : Cls} {f : String × FTy} (h : sameName A f.2 = isAdt A f.2) :
    fieldSort A f.2 = if isAdt A f.2 then .adt A.id else translateType f.2 := by
  unfold fieldSort; rw [h]

mutual
theorem rep_ok (hh : Hier As le none) (hm : I.Models As le none) : ∀ (t : FTy) (v : PVal), HasTy As le t v →
    RepOk I t v
  | .int, .int n, h => by simp only [RepOk, Interp.rep]; exact (hm.1.int_dom _).2 ⟨n, rfl⟩
  | .bool, .bool b, h => by simp only [RepOk, Interp.rep]; exact (hm.1.bool_dom _).2 ⟨b, rfl⟩
  | .cls i n, .obj A c vs, h => by
    simp only [HasTy] at h
    obtain ⟨hA, hc, hle, hvs⟩ := h
    have hs := reps_ok hh hm A hA c hc c.fields vs (fun f hf => hf) hvs
    have hd := (hm.2 A hA).1.result _ _ _ _ (cons_fn hc) (by simp) _ hs
    simp only [RepOk]
    exact ⟨by simp only [Interp.rep]; exact (hm.2 A hA).1.box _ hd, A, c, vs, rfl,
      by simp only [Interp.rep]; exact typeof_cons hh hm hA hc hs, hs⟩
  | .int, .bool _, h | .int, .obj .., h | .bool, .int _, h | .bool, .obj .., h | .cls .., .int _, h
  | .cls .., .bool _, h | .type, _, h => by simp [HasTy] at h

theorem reps_ok (hh : Hier As le none) (hm : I.Models As le none) (A : Cls) (hA : A ∈ As) (c : Cls) (hc : c ∈ A.cons) :
    ∀ (fs : List (String × FTy)) (vs : List PVal), (∀ f ∈ fs, f ∈ c.fields) → HasTys As le fs vs →
      I.sorted (fs.map fun f => fieldSort A f.2) (I.reps A fs vs)
  | [], [], _, _ => by simp [Interp.reps, Interp.sorted]
  | f :: fs, v :: vs, hf, h => by
    simp only [HasTys] at h
    have h1 := rep_ok hh hm f.2 v h.1
    have h2 := reps_ok hh hm A hA c hc fs vs (fun g hg => hf g (by simp [hg])) h.2
    rw [reps_cons]
    refine ⟨?_, h2⟩
    show I.dom (fieldSort A f.2) _
    rw [fieldSort_eq (hh.same A hA c hc f (hf f (by simp)))]
    split
    · next ha =>
      refine (hm.2 A hA).1.unbox _ ?_
      cases e : f.2 with
      | cls i n => rw [e] at h1; exact h1.1
      | int | bool | type => rw [e] at ha; simp [isAdt] at ha
    · cases e : f.2 with
      | cls i n => rw [e] at h1; exact h1.1
      | int => rw [e] at h1; exact h1
      | bool => rw [e] at h1; exact h1
      | type => rw [e] at h1; exact h1.elim
  | [], _ :: _, _, h | _ :: _, [], _, h => by simp [HasTys] at h
end

theorem obj_sorted (hh : Hier As le none) (hm : I.Models As le none) {A c : Cls} (hA : A ∈ As) (hc : c ∈ A.cons)
    {vs} (h : HasTys As le c.fields vs) : I.sorted (sorts A c) (I.reps A c.fields vs) :=
  reps_ok hh hm A hA c hc c.fields vs (fun f hf => hf) h

theorem obj_dom (hh : Hier As le none) (hm : I.Models As le none) {A c : Cls} (hA : A ∈ As) (hc : c ∈ A.cons)
    {vs} (h : HasTys As le c.fields vs) : I.dom (.adt A.id) (I.fn (.cons A.id c.name) (I.reps A c.fields vs)) :=
  (hm.2 A hA).1.result _ _ _ _ (cons_fn hc) (by simp) _ (obj_sorted hh hm hA hc h)

theorem obj_typeof (hh : Hier As le none) (hm : I.Models As le none) {A c : Cls} (hA : A ∈ As) (hc : c ∈ A.cons)
    {vs} (h : HasTys As le c.fields vs) : I.fn .typeof [I.rep (.obj A c vs)] = I.fn (.pytype c.id) [] := by
  simp only [Interp.rep]; exact typeof_cons hh hm hA hc (obj_sorted hh hm hA hc h)

theorem box_unbox_rep (hh : Hier As le none) (hm : I.Models As le none) {A : Cls} (hA : A ∈ As) {n v}
    (h : HasTy As le (.cls A.id n) v) : I.fn (.box A.id) [I.fn (.unbox A.id) [I.rep v]] = I.rep v := by
  have h1 := rep_ok hh hm _ _ h
  obtain ⟨hd, B, c, vs, rfl, ht, _⟩ := h1
  simp only [HasTy] at h
  refine (models_facts hh hm hA).boxUnbox _ hd ?_
  rw [ht]
  exact (hm.1.subtype _ _).2 h.2.2.1

def kind : FTy → Nat
  | .int => 0
  | .bool => 1
  | .cls .. => 2
  | .type => 3

mutual
theorem rep_eq (hh : Hier As le none) (hm : I.Models As le none) : ∀ (t t' : FTy) (v v' : PVal), HasTy As le t v →
    HasTy As le t' v' → kind t = kind t' → (I.rep v = I.rep v' ↔ pyEq v v' ∧ sameCls v v')
  | .int, .int, .int m, .int n, _, _, _ => by
    simp only [Interp.rep, pyEq, sameCls, and_true]
    exact ⟨hm.1.int_inj m n, fun h => by rw [h]⟩
  | .bool, .bool, .bool a, .bool b, _, _, _ => by
    simp only [Interp.rep, pyEq, sameCls, and_true]
    exact ⟨hm.1.bool_inj a b, fun h => by rw [h]⟩
  | .cls i n, .cls i' n', .obj A c vs, .obj A' c' vs', h, h', _ => by
    simp only [HasTy] at h h'
    obtain ⟨hA, hc, _, hvs⟩ := h
    obtain ⟨hA', hc', _, hvs'⟩ := h'
    have same : c.id = c'.id → A = A' ∧ c = c' := sameCls_of_id hh hA hA' (cons_all hc) (cons_all hc')
    simp only [pyEq, sameCls]
    constructor
    · intro e
      have ht := obj_typeof hh hm hA hc hvs
      rw [e, obj_typeof hh hm hA' hc' hvs'] at ht
      have hid := hm.1.pytype_inj _ _ ht
      obtain ⟨hAA, hcc⟩ := same hid.symm
      subst hAA; subst hcc
      have hf := models_facts hh hm hA
      simp only [Interp.rep] at e
      have e1 := (hf.boxInj _ (obj_dom hh hm hA hc hvs) c hc _ (obj_dom hh hm hA hc hvs')).2 e
      have e2 := hf.inj c hc _ _ (obj_sorted hh hm hA hc hvs) (obj_sorted hh hm hA hc hvs') e1
      have := (reps_eq hh hm A hA c.fields vs vs' hvs hvs').1 e2
      exact ⟨this.1, rfl, this.2⟩
    · rintro ⟨h1, hid, h2⟩
      obtain ⟨hAA, hcc⟩ := same hid
      subst hAA; subst hcc
      simp only [Interp.rep]
      rw [(reps_eq hh hm A hA c.fields vs vs' hvs hvs').2 ⟨h1, h2⟩]
  | .int, _, .bool _, _, h, _, _ | .int, _, .obj .., _, h, _, _ | .bool, _, .int _, _, h, _, _
  | .bool, _, .obj .., _, h, _, _ | .cls .., _, .int _, _, h, _, _
  | .cls .., _, .bool _, _, h, _, _ | .type, _, _, _, h, _, _ => by simp [HasTy] at h
  | _, .int, _, .bool _, _, h, _ | _, .int, _, .obj .., _, h, _ | _, .bool, _, .int _, _, h, _
  | _, .bool, _, .obj .., _, h, _ | _, .cls .., _, .int _, _, h, _
  | _, .cls .., _, .bool _, _, h, _ | _, .type, _, _, _, h, _ => by simp [HasTy] at h
  | .int, .bool, .int _, .bool _, _, _, h | .int, .cls .., .int _, .obj .., _, _, h | .bool, .int, .bool _, .int _, _, _, h
  | .bool, .cls .., .bool _, .obj .., _, _, h | .cls .., .int, .obj .., .int _, _, _, h
  | .cls .., .bool, .obj .., .bool _, _, _, h => by simp [kind] at h

theorem reps_eq (hh : Hier As le none) (hm : I.Models As le none) (A : Cls) (hA : A ∈ As) :
    ∀ (fs : List (String × FTy)) (vs vs' : List PVal), HasTys As le fs vs → HasTys As le fs vs' →
      (I.reps A fs vs = I.reps A fs vs' ↔ pyEqs vs vs' ∧ sameClss vs vs')
  | [], [], [], _, _ => by simp [pyEqs, sameClss]
  | f :: fs, v :: vs, v' :: vs', h, h' => by
    simp only [HasTys] at h h'
    have h1 := rep_eq hh hm f.2 f.2 v v' h.1 h'.1 rfl
    have h2 := reps_eq hh hm A hA fs vs vs' h.2 h'.2
    rw [reps_cons, reps_cons, List.cons.injEq, h2]
    simp only [pyEqs, sameClss]
    have h3 : ((if isAdt A f.2 then I.fn (.unbox A.id) [I.rep v] else I.rep v) =
        (if isAdt A f.2 then I.fn (.unbox A.id) [I.rep v'] else I.rep v')) ↔ I.rep v = I.rep v' := by
      split
      · next ha =>
        obtain ⟨i, n, e⟩ : ∃ i n, f.2 = .cls i n := by
          cases e : f.2 with
          | cls i n => exact ⟨i, n, rfl⟩
          | int | bool | type => rw [e] at ha; simp [isAdt] at ha
        rw [e] at ha
        simp only [isAdt, beq_iff_eq] at ha
        subst ha
        rw [e] at h h'
        constructor
        · intro hu
          rw [← box_unbox_rep hh hm hA h.1, hu, box_unbox_rep hh hm hA h'.1]
        · intro hu; rw [hu]
      · exact Iff.rfl
    rw [h3, h1]
    constructor
    · rintro ⟨⟨a, b⟩, c, d⟩; exact ⟨⟨a, c⟩, b, d⟩
    · rintro ⟨⟨a, c⟩, b, d⟩; exact ⟨⟨a, b⟩, c, d⟩
  | [], _ :: _, _, h, _ | _ :: _, [], _, h, _ => by simp [HasTys] at h
  | [], _, _ :: _, _, h | _ :: _, _, [], _, h => by simp [HasTys] at h
end

theorem lookup_fields (hh : Hier As le none) (hm : I.Models As le none) (A : Cls) (f : String) (t : FTy) :
    ∀ (fs : List (String × FTy)) (vs : List PVal), HasTys As le fs vs → fs.lookup f = some t →
      ∃ w, ((fs.map (·.1)).zip vs).lookup f = some w ∧ HasTy As le t w ∧
        ((f, t), if isAdt A t then I.fn (.unbox A.id) [I.rep w] else I.rep w) ∈ fs.zip (I.reps A fs vs)
  | [], [], _, h => by simp at h
  | g :: fs, v :: vs, h, hl => by
    simp only [HasTys] at h
    obtain ⟨gn, gt⟩ := g
    simp only [List.lookup_cons] at hl
    simp only [List.map_cons, List.zip_cons_cons, List.lookup_cons, reps_cons]
    cases e : f == gn with
    | true =>
      rw [e] at hl
      simp only [Option.some.injEq] at hl
      subst hl
      have : f = gn := by simpa using e
      subst this
      exact ⟨v, rfl, h.1, by simp⟩
    | false =>
      rw [e] at hl
      obtain ⟨w, a, b, c⟩ := lookup_fields hh hm A f t fs vs h.2 hl
      exact ⟨w, a, b, List.mem_cons_of_mem _ c⟩
  | [], _ :: _, h, _ | _ :: _, [], h, _ => by simp [HasTys] at h

mutual
theorem eval_ok (hh : Hier As le none) (hm : I.Models As le none) {Γ env ρ} (hg : Agree I As le Γ env ρ) :
    ∀ {e : Ex} {t : FTy}, ETy As le Γ e t →
      ∃ v, eval env e = some v ∧ HasTy As le t v ∧ I.tm ρ (trans e) = I.rep v
  | _, _, .int n => ⟨.int n, by simp [eval], by simp [HasTy], by simp [trans, Interp.tm, Interp.rep]⟩
  | _, _, .bool n => ⟨.bool n, by simp [eval], by simp [HasTy], by simp [trans, Interp.tm, Interp.rep]⟩
  | _, _, .var h => by
    obtain ⟨v, a, b, c⟩ := hg _ _ h
    exact ⟨v, by simp [eval, a], b, by simp [trans, c]⟩
  | _, _, .new (A := A) (c := c) hA hc hes => by
    obtain ⟨vs, a, b, d⟩ := evals_ok hh hm hg A hA hes
    refine ⟨.obj A c vs, by simp [eval, a], ?_, ?_⟩
    · simp only [HasTy]
      exact ⟨hA, hc, (hh.below A hA c (cons_all hc) _).2 (List.mem_map.2 ⟨c, mem_all c, rfl⟩), b⟩
    · simp only [trans, tm_app, List.map_cons, List.map_nil, consApp, d, Interp.rep]
  | _, _, .field (A := A) (c := c) (e := e0) (f := f) (t := t) hA hc hall he hl => by
    obtain ⟨v, a, b, d⟩ := eval_ok hh hm hg he
    obtain ⟨_, B, c', vs, rfl, _, _⟩ := rep_ok hh hm _ _ b
    simp only [HasTy] at b
    obtain ⟨hB, hc', hle, hvs⟩ := b
    have hid := (hh.below A hA c (cons_all hc) _).1 hle
    rw [hall] at hid
    simp only [List.map_cons, List.map_nil, List.mem_singleton] at hid
    obtain ⟨hAB, hcc⟩ := sameCls_of_id hh hB hA (cons_all hc') (cons_all hc) hid
    subst hAB; subst hcc
    obtain ⟨w, h1, h2, h3⟩ := lookup_fields hh hm B f t _ _ hvs hl
    refine ⟨w, by simp [eval, a, h1], h2, ?_⟩
    have hf := models_facts hh hm hB
    have hdec := hf.dec c' hc' _ (obj_sorted hh hm hB hc' hvs) _ h3
    simp only at hdec
    have hun : I.fn (.unbox B.id) [I.tm ρ (trans e0)] = I.fn (.cons B.id c'.name) (I.reps B c'.fields vs) := by
      rw [d]; simp only [Interp.rep]; exact hf.unboxBox _ (obj_dom hh hm hB hc' hvs)
    simp only [trans, hl]
    by_cases ha : isAdt B t = true
    · simp only [ha, if_true, tm_app, List.map_cons, List.map_nil, hun] at hdec ⊢
      rw [hdec]
      obtain ⟨i, n, e⟩ : ∃ i n, t = .cls i n := by
        cases t with
        | cls i n => exact ⟨i, n, rfl⟩
        | int | bool | type => simp [isAdt] at ha
      rw [e] at ha h2
      simp only [isAdt, beq_iff_eq] at ha
      subst ha
      exact box_unbox_rep hh hm hB h2
    · rw [if_neg ha] at hdec
      rw [if_neg ha]
      simp only [tm_app, List.map_cons, List.map_nil, hun]
      exact hdec
  | _, _, .sub he hs => by
    obtain ⟨v, a, b, d⟩ := eval_ok hh hm hg he
    refine ⟨v, a, ?_, d⟩
    cases v with
    | int | bool => simp [HasTy] at b
    | obj A c vs =>
      simp only [HasTy] at b ⊢
      exact ⟨b.1, b.2.1, hs _ b.2.2.1, b.2.2.2⟩

theorem evals_ok (hh : Hier As le none) (hm : I.Models As le none) {Γ env ρ} (hg : Agree I As le Γ env ρ) (A : Cls)
    (hA : A ∈ As) : ∀ {fs : List (String × FTy)} {es : List Ex}, ETys As le Γ fs es →
      ∃ vs, evals env es = some vs ∧ HasTys As le fs vs ∧ (transArgs A fs es).map (I.tm ρ) = I.reps A fs vs
  | _, _, .nil => ⟨[], by simp [evals], by simp [HasTys], by simp [transArgs, Interp.reps]⟩
  | _, _, .cons (f := f) he hes => by
    obtain ⟨v, a, b, d⟩ := eval_ok hh hm hg he
    obtain ⟨vs, a', b', d'⟩ := evals_ok hh hm hg A hA hes
    refine ⟨v :: vs, by simp [evals, a, a'], by simp [HasTys, b, b'], ?_⟩
    rw [reps_cons]
    obtain ⟨n, t⟩ := f
    simp only [transArgs, List.map_cons, d', List.cons.injEq, and_true]
    split
    · simp [d]
    · exact d
end
end
end Nagini.Adt
