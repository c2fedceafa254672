import Verif.Spec.Adt
import Mathlib.Data.List.Nodup
import Mathlib.Data.List.Pairwise
set_option linter.unusedVariables false
set_option linter.unusedSimpArgs false
/-! The axioms of an ADT as statements about an interpretation. -/
namespace Nagini.Adt
variable {I : Interp}

theorem tms_map (ρ : V → I.U) (ts : List Tm) : I.tms ρ ts = ts.map (I.tm ρ) := by
  induction ts with
  | nil => rfl
  | cons t ts ih => simp [Interp.tms, ih]

@[simp] theorem tm_var (ρ : V → I.U) (x) : I.tm ρ (.var x) = ρ x := by simp [Interp.tm]
@[simp] theorem tm_app (ρ : V → I.U) (f ts) : I.tm ρ (.app f ts) = I.fn f (ts.map (I.tm ρ)) := by
  simp [Interp.tm, tms_map]
@[simp] theorem upd_same {α : Type} (ρ : V → α) (x v) : upd ρ x v x = v := by simp [upd]
theorem upd_ne {α : Type} (ρ : V → α) {x y} (v) (h : y ≠ x) : upd ρ x v y = ρ y := by simp [upd, h]

def updL {α : Type} (ρ : V → α) : List V → List α → V → α
  | x :: xs, v :: vs => updL (upd ρ x v) xs vs
  | _, _ => ρ

theorem updL_not_mem {α : Type} (xs : List V) : ∀ (ρ : V → α) (vs : List α) (y), y ∉ xs → updL ρ xs vs y = ρ y := by
  induction xs with
  | nil => intro ρ vs y _; simp [updL]
  | cons x xs ih =>
    intro ρ vs y hy
    cases vs with
    | nil => simp [updL]
    | cons v vs =>
      simp only [List.mem_cons, not_or] at hy
      simp only [updL]
      rw [ih _ _ _ hy.2, upd_ne _ _ hy.1]

theorem map_updL {α : Type} (xs : List V) : ∀ (ρ : V → α) (vs : List α), xs.Nodup → xs.length = vs.length →
    xs.map (updL ρ xs vs) = vs := by
  induction xs with
  | nil => intro ρ vs _ h; cases vs <;> simp_all
  | cons x xs ih =>
    intro ρ vs hn h
    cases vs with
    | nil => simp at h
    | cons v vs =>
      simp only [List.nodup_cons] at hn
      simp only [List.length_cons, Nat.add_right_cancel_iff] at h
      simp only [updL, List.map_cons, List.cons.injEq]
      exact ⟨by rw [updL_not_mem _ _ _ _ hn.1]; simp, ih _ _ hn.2 h⟩

theorem sorted_length : ∀ (ss : List Srt) (vs : List I.U), I.sorted ss vs → ss.length = vs.length
  | [], [], _ => rfl
  | s :: ss, v :: vs, h => by simp [sorted_length ss vs h.2]
  | [], _ :: _, h => by simp [Interp.sorted] at h
  | _ :: _, [], h => by simp [Interp.sorted] at h

theorem holds_foralls (φ : Fm) (xs : List (V × Srt)) : ∀ (ρ : V → I.U), I.holds ρ (foralls xs φ) ↔
    ∀ vs, I.sorted (xs.map (·.2)) vs → I.holds (updL ρ (xs.map (·.1)) vs) φ := by
  induction xs with
  | nil =>
    intro ρ
    constructor
    · intro h vs hv
      cases vs with
      | nil => exact h
      | cons => simp [Interp.sorted] at hv
    · intro h; exact h [] trivial
  | cons x xs ih =>
    intro ρ
    show (∀ v, I.dom x.2 v → I.holds (upd ρ x.1 v) (foralls xs φ)) ↔ _
    constructor
    · intro h vs hv
      cases vs with
      | nil => simp [Interp.sorted] at hv
      | cons v vs => exact (ih _).1 (h v hv.1) vs hv.2
    · intro h v hv
      exact (ih _).2 fun vs hvs => h (v :: vs) ⟨hv, hvs⟩

theorem foralls_append (xs ys : List (V × Srt)) (φ : Fm) : foralls (xs ++ ys) φ = foralls xs (foralls ys φ) := by
  simp [foralls]

theorem holds_conjoin (ρ : V → I.U) : ∀ l : List Fm, I.holds ρ (conjoin l) ↔ ∀ φ ∈ l, I.holds ρ φ
  | [] => by simp [conjoin, Interp.holds]
  | [φ] => by simp [conjoin]
  | φ :: ψ :: l => by
    have := holds_conjoin ρ (ψ :: l)
    simp only [conjoin, Interp.holds, this, List.mem_cons, forall_eq_or_imp]

theorem holds_disjoin (ρ : V → I.U) : ∀ l : List Fm, l ≠ [] → (I.holds ρ (disjoin l) ↔ ∃ φ ∈ l, I.holds ρ φ)
  | [], h => absurd rfl h
  | [φ], _ => by simp [disjoin]
  | φ :: ψ :: l, _ => by
    have := holds_disjoin ρ (ψ :: l) (by simp)
    simp only [disjoin, Interp.holds, this, List.mem_cons, exists_eq_or_imp]

def sorts (A c : Cls) : List Srt := c.fields.map fun f => fieldSort A f.2

theorem params_snd (A : Cls) : ∀ (fs : List (String × FTy)) (i : Nat),
    (paramsFrom A i fs).map (·.2) = fs.map fun f => fieldSort A f.2
  | [], _ => rfl
  | (_, t) :: fs, i => by simp [paramsFrom, params_snd A fs (i + 1)]

theorem params_fst (A : Cls) : ∀ (fs : List (String × FTy)) (i : Nat),
    (paramsFrom A i fs).map (·.1) = (List.range' i fs.length).map V.arg
  | [], _ => rfl
  | (_, t) :: fs, i => by simp [paramsFrom, params_fst A fs (i + 1), List.range'_succ]

def xs1 (c : Cls) : List V := (List.range' 0 c.fields.length).map V.arg
def xs2 (c : Cls) : List V := (List.range' 0 c.fields.length).map V.arg2

theorem xs1_nodup (c : Cls) : (xs1 c).Nodup :=
  (List.nodup_range' (step := 1)).map (fun a b h => by simpa using h)
theorem xs2_nodup (c : Cls) : (xs2 c).Nodup :=
  (List.nodup_range' (step := 1)).map (fun a b h => by simpa using h)
theorem xs12 (c : Cls) (x) (h : x ∈ xs1 c) : x ∉ xs2 c := by
  simp only [xs1, xs2, List.mem_map] at *
  rintro ⟨b, _, hb⟩
  obtain ⟨a, _, ha⟩ := h
  rw [← ha] at hb; cases hb

theorem argTms_eq (A c : Cls) : argTms A c = (xs1 c).map .var := by
  have := params_fst A c.fields 0
  simp only [argTms, params, xs1, ← this, List.map_map]; rfl
theorem argTms2_eq (A c : Cls) : argTms2 A c = (xs2 c).map .var := by
  have : (paramsFrom A 0 c.fields).map (fun x => prime x.1) = xs2 c := by
    have := congrArg (List.map prime) (params_fst A c.fields 0)
    simp only [List.map_map] at this
    simpa [xs2, Function.comp_def, prime] using this
  simp only [argTms2, params, ← this, List.map_map]; rfl

theorem params_map2 (A c : Cls) : (params A c).map (·.2) = sorts A c := params_snd A c.fields 0
theorem params_map1 (A c : Cls) : (params A c).map (·.1) = xs1 c := params_fst A c.fields 0

theorem sorts_length (A c : Cls) : (sorts A c).length = c.fields.length := by simp [sorts]
theorem xs1_length (c : Cls) : (xs1 c).length = c.fields.length := by simp [xs1]
theorem xs2_length (c : Cls) : (xs2 c).length = c.fields.length := by simp [xs2]

theorem tm_args (A c : Cls) (ρ : V → I.U) (vs : List I.U) (h : I.sorted (sorts A c) vs) :
    (argTms A c).map (I.tm (updL ρ (xs1 c) vs)) = vs := by
  have hl := sorted_length _ _ h
  rw [argTms_eq, List.map_map]
  have : (I.tm (updL ρ (xs1 c) vs) ∘ Tm.var) = updL ρ (xs1 c) vs := by funext x; simp
  rw [this]
  exact map_updL _ _ _ (xs1_nodup c) (by rw [xs1_length, ← hl, sorts_length])

/-- The content of the axioms. -/
structure Facts (I : Interp) (A : Cls) : Prop where
  inj : ∀ c ∈ A.cons, ∀ vs ws, I.sorted (sorts A c) vs → I.sorted (sorts A c) ws →
    I.fn (.cons A.id c.name) vs = I.fn (.cons A.id c.name) ws → vs = ws
  dec : ∀ c ∈ A.cons, ∀ vs, I.sorted (sorts A c) vs → ∀ p ∈ c.fields.zip vs,
    I.fn (.decons A.id c.name p.1.1) [I.fn (.cons A.id c.name) vs] = p.2
  types : ∀ c ∈ A.cons, ∀ f ∈ c.fields, ∀ i n, f.2 = .cls i n → isAdt A f.2 = false → ∀ v, I.dom (.adt A.id) v →
    I.pred .issubtype [I.fn .typeof [I.fn (.decons A.id c.name f.1) [v]], I.fn (.pytype i) []]
  cod : ∀ c ∈ A.cons, c.fields ≠ [] → ∀ v, I.dom (.adt A.id) v → I.pred (.isCons A.id c.name) [v] →
    v = I.fn (.cons A.id c.name) (c.fields.map fun f => I.fn (.decons A.id c.name f.1) [v])
  const : ∀ c ∈ A.cons, ∀ vs, I.sorted (sorts A c) vs →
    I.fn (.consType A.id) [I.fn (.cons A.id c.name) vs] = I.fn (.const A.id c.name) []
  total : ∀ v, I.dom (.adt A.id) v → ∃ c ∈ A.cons, I.fn (.consType A.id) [v] = I.fn (.const A.id c.name) []
  isc : ∀ c ∈ A.cons, ∀ v, I.dom (.adt A.id) v →
    (I.fn (.consType A.id) [v] = I.fn (.const A.id c.name) [] ↔ I.pred (.isCons A.id c.name) [v])
  subs : ∀ r, I.dom .ref r → I.pred .issubtype [I.fn .typeof [r], I.fn (.pytype A.id) []] →
    ∃ c ∈ A.cons, I.fn .typeof [r] = I.fn (.pytype c.id) []
  boxTy : ∀ v, I.dom (.adt A.id) v →
    I.pred .issubtype [I.fn .typeof [I.fn (.box A.id) [v]], I.fn (.pytype A.id) []]
  unboxBox : ∀ v, I.dom (.adt A.id) v → I.fn (.unbox A.id) [I.fn (.box A.id) [v]] = v
  boxIs : ∀ v, I.dom (.adt A.id) v → ∀ c ∈ A.cons,
    (I.pred (.isCons A.id c.name) [v] ↔ I.fn .typeof [I.fn (.box A.id) [v]] = I.fn (.pytype c.id) [])
  boxInj : ∀ v, I.dom (.adt A.id) v → ∀ c ∈ A.cons, ∀ w, I.dom (.adt A.id) w →
    (v = w ↔ I.fn (.box A.id) [v] = I.fn (.box A.id) [w])
  boxUnbox : ∀ r, I.dom .ref r → I.pred .issubtype [I.fn .typeof [r], I.fn (.pytype A.id) []] →
    I.fn (.box A.id) [I.fn (.unbox A.id) [r]] = r

theorem zip_eq_iff (ρ : V → I.U) : ∀ (ts us : List Tm), ts.length = us.length →
    ((∀ φ ∈ (ts.zip us).map fun p => Fm.eq p.1 p.2, I.holds ρ φ) ↔ ts.map (I.tm ρ) = us.map (I.tm ρ))
  | [], [], _ => by simp
  | t :: ts, u :: us, h => by
    have := zip_eq_iff ρ ts us (by simpa using h)
    simp only [List.zip_cons_cons, List.map_cons, List.mem_cons, forall_eq_or_imp, List.cons.injEq, this]
    rfl
  | [], _ :: _, h => by simp at h
  | _ :: _, [], h => by simp at h

theorem tm_args1 (A c : Cls) (ρ : V → I.U) (vs ws : List I.U) (h : I.sorted (sorts A c) vs) :
    (argTms A c).map (I.tm (updL (updL ρ (xs1 c) vs) (xs2 c) ws)) = vs := by
  refine Eq.trans ?_ (tm_args A c ρ vs h)
  rw [argTms_eq]
  simp only [List.map_map]
  exact List.map_congr_left fun x hx => by
    simp only [Function.comp, tm_var]; exact updL_not_mem _ _ _ _ (xs12 c x hx)

theorem tm_args2 (A c : Cls) (ρ : V → I.U) (vs ws : List I.U) (h : I.sorted (sorts A c) ws) :
    (argTms2 A c).map (I.tm (updL (updL ρ (xs1 c) vs) (xs2 c) ws)) = ws := by
  have hl := sorted_length _ _ h
  rw [argTms2_eq, List.map_map]
  have : (I.tm (updL (updL ρ (xs1 c) vs) (xs2 c) ws) ∘ Tm.var) = updL (updL ρ (xs1 c) vs) (xs2 c) ws := by
    funext x; simp
  rw [this]
  exact map_updL _ _ _ (xs2_nodup c) (by rw [xs2_length, ← hl, sorts_length])

theorem filter_ne (cs : List Cls) (c : Cls) :
    c ∈ cs.filter (fun c => !c.fields.isEmpty) ↔ c ∈ cs ∧ c.fields ≠ [] := by
  simp

theorem sorted_nil {A c : Cls} (h : c.fields = []) {vs : List I.U} (hv : I.sorted (sorts A c) vs) : vs = [] := by
  have := sorted_length _ _ hv
  simp only [sorts_length, h, List.length_nil] at this
  exact List.length_eq_zero_iff.1 this.symm

theorem prime_snd (A c : Cls) : ((params A c).map fun x => (prime x.1, x.2)).map (·.2) = sorts A c := by
  rw [← params_map2, List.map_map]; rfl

theorem prime_fst (A c : Cls) : ((params A c).map fun x => (prime x.1, x.2)).map (·.1) = xs2 c := by
  have := congrArg (List.map prime) (params_map1 A c)
  simp only [List.map_map] at this
  simp only [List.map_map]
  rw [show ((fun x : V × Srt => x.1) ∘ fun x : V × Srt => (prime x.1, x.2)) = prime ∘ (fun x : V × Srt => x.1) from rfl,
    this]
  simp [xs1, xs2, prime]

theorem eq_iff (A : Cls) : (∀ φ ∈ equalityAxioms A, ∀ ρ, I.holds ρ φ) ↔
    ∀ c ∈ A.cons, ∀ vs ws, I.sorted (sorts A c) vs → I.sorted (sorts A c) ws →
      I.fn (.cons A.id c.name) vs = I.fn (.cons A.id c.name) ws → vs = ws := by
  have key : ∀ c, (∀ ρ : V → I.U, I.holds ρ (foralls (params A c ++ (params A c).map (fun x => (prime x.1, x.2)))
      (.eqv (.eq (consApp A c (argTms A c)) (consApp A c (argTms2 A c)))
        (conjoin ((argTms A c).zip (argTms2 A c) |>.map fun p => .eq p.1 p.2))))) ↔
      ∀ vs ws, I.sorted (sorts A c) vs → I.sorted (sorts A c) ws →
      (I.fn (.cons A.id c.name) vs = I.fn (.cons A.id c.name) ws ↔ vs = ws) := by
    intro c
    have h1 : ∀ ρ vs ws, I.sorted (sorts A c) vs → I.sorted (sorts A c) ws →
        (I.holds (updL (updL ρ (xs1 c) vs) (xs2 c) ws) (.eqv (.eq (consApp A c (argTms A c)) (consApp A c (argTms2 A c)))
        (conjoin ((argTms A c).zip (argTms2 A c) |>.map fun p => .eq p.1 p.2))) ↔
        (I.fn (.cons A.id c.name) vs = I.fn (.cons A.id c.name) ws ↔ vs = ws)) := by
      intro ρ vs ws hv hw
      simp only [Interp.holds, holds_conjoin, consApp, tm_app]
      rw [zip_eq_iff _ _ _ (by simp [argTms, argTms2]), tm_args1 A c ρ vs ws hv, tm_args2 A c ρ vs ws hw]
    constructor
    · intro h vs ws hv hw
      have := h (fun _ => I.null)
      rw [foralls_append, holds_foralls] at this
      have := this vs (by rw [params_map2]; exact hv)
      rw [holds_foralls] at this
      have := this ws (by rw [prime_snd]; exact hw)
      rw [params_map1, prime_fst] at this
      exact (h1 _ vs ws hv hw).1 this
    · intro h ρ
      rw [foralls_append, holds_foralls]
      intro vs hv
      rw [holds_foralls]
      intro ws hw
      rw [params_map2] at hv
      rw [prime_snd] at hw
      rw [params_map1, prime_fst]
      exact (h1 _ vs ws hv hw).2 (h vs ws hv hw)
  constructor
  · intro h c hc vs ws hv hw he
    by_cases hf : c.fields = []
    · rw [sorted_nil hf hv, sorted_nil hf hw]
    · exact ((key c).1 (h _ (List.mem_map.2 ⟨c, (filter_ne _ _).2 ⟨hc, hf⟩, rfl⟩)) vs ws hv hw).1 he
  · intro h φ hφ
    obtain ⟨c, hc, rfl⟩ := List.mem_map.1 hφ
    have hc := ((filter_ne _ _).1 hc).1
    exact (key c).2 fun vs ws hv hw => ⟨h c hc vs ws hv hw, fun e => by rw [e]⟩

theorem dec_iff (A : Cls) : (∀ φ ∈ deconsOverCons A, ∀ ρ, I.holds ρ φ) ↔
    ∀ c ∈ A.cons, ∀ vs, I.sorted (sorts A c) vs → ∀ p ∈ c.fields.zip vs,
      I.fn (.decons A.id c.name p.1.1) [I.fn (.cons A.id c.name) vs] = p.2 := by
  have h1 : ∀ c (ρ : V → I.U) vs, I.sorted (sorts A c) vs → c.fields.zip vs =
      (c.fields.zip (argTms A c)).map fun p => (p.1, I.tm (updL ρ (xs1 c) vs) p.2) := by
    intro c ρ vs hv
    conv => lhs; rw [← tm_args A c ρ vs hv]
    rw [List.zip_map_right]; rfl
  constructor
  · intro h c hc vs hv p hp
    have hf : c.fields ≠ [] := by intro e; simp [e] at hp
    have := h _ (List.mem_map.2 ⟨c, (filter_ne _ _).2 ⟨hc, hf⟩, rfl⟩) (fun _ => I.null)
    rw [holds_conjoin] at this
    rw [h1 c (fun _ => I.null) vs hv] at hp
    obtain ⟨q, hq, rfl⟩ := List.mem_map.1 hp
    have := this _ (List.mem_map.2 ⟨q, hq, rfl⟩)
    rw [holds_foralls] at this
    have := this vs (by rw [params_map2]; exact hv)
    rw [params_map1] at this
    simp only [Interp.holds, consApp, tm_app, List.map_cons, List.map_nil, tm_args A c _ vs hv] at this
    exact this
  · intro h φ hφ ρ
    obtain ⟨c, hc, rfl⟩ := List.mem_map.1 hφ
    have hc := ((filter_ne _ _).1 hc).1
    rw [holds_conjoin]
    intro ψ hψ
    obtain ⟨q, hq, rfl⟩ := List.mem_map.1 hψ
    rw [holds_foralls]
    intro vs hv
    rw [params_map2] at hv
    rw [params_map1]
    simp only [Interp.holds, consApp, tm_app, List.map_cons, List.map_nil, tm_args A c _ vs hv]
    exact h c hc vs hv (q.1, I.tm (updL ρ (xs1 c) vs) q.2)
      (by rw [h1 c ρ vs hv]; exact List.mem_map.2 ⟨q, hq, rfl⟩)

theorem types_iff (A : Cls) : (∀ φ ∈ deconsTypes A, ∀ ρ, I.holds ρ φ) ↔
    ∀ c ∈ A.cons, ∀ f ∈ c.fields, ∀ i n, f.2 = .cls i n → isAdt A f.2 = false → ∀ v, I.dom (.adt A.id) v →
    I.pred .issubtype [I.fn .typeof [I.fn (.decons A.id c.name f.1) [v]], I.fn (.pytype i) []] := by
  constructor
  · intro h c hc f hf i n e ha v hv
    have hch : checked A f.2 = true := by rw [e] at ha ⊢; simp [checked, ha]
    have := h _ (List.mem_map.2 ⟨c, List.mem_filter.2 ⟨hc, List.any_eq_true.2 ⟨f, hf, hch⟩⟩, rfl⟩) (fun _ => I.null)
    rw [holds_conjoin] at this
    have := this _ (List.mem_map.2 ⟨f, List.mem_filter.2 ⟨hf, hch⟩, rfl⟩) v hv
    rw [e] at this
    simpa [typeCheck, Interp.holds, tms_map] using this
  · intro h φ hφ ρ
    obtain ⟨c, hc, rfl⟩ := List.mem_map.1 hφ
    have hc := (List.mem_filter.1 hc).1
    rw [holds_conjoin]
    intro ψ hψ
    obtain ⟨f, hf, rfl⟩ := List.mem_map.1 hψ
    obtain ⟨hf, hch⟩ := List.mem_filter.1 hf
    intro v hv
    cases e : f.2 with
    | cls i n =>
      have := h c hc f hf i n e (by rw [e] at hch ⊢; simpa [checked] using hch) v hv
      simpa [typeCheck, Interp.holds, tms_map] using this
    | int => trivial
    | bool => trivial
    | type => trivial

theorem cod_iff (A : Cls) : (∀ φ ∈ consOverDecons A, ∀ ρ, I.holds ρ φ) ↔
    ∀ c ∈ A.cons, c.fields ≠ [] → ∀ v, I.dom (.adt A.id) v → I.pred (.isCons A.id c.name) [v] →
    v = I.fn (.cons A.id c.name) (c.fields.map fun f => I.fn (.decons A.id c.name f.1) [v]) := by
  constructor
  · intro h c hc hf v hv hi
    have := h _ (List.mem_map.2 ⟨c, (filter_ne _ _).2 ⟨hc, hf⟩, rfl⟩) (fun _ => I.null) v hv
    simpa [Interp.holds, tms_map, consApp, hi, Function.comp_def] using this
  · intro h φ hφ ρ
    obtain ⟨c, hc, rfl⟩ := List.mem_map.1 hφ
    obtain ⟨hc, hf⟩ := (filter_ne _ _).1 hc
    intro v hv hi
    have := h c hc hf v hv (by simpa [Interp.holds, tms_map] using hi)
    simpa [Interp.holds, tms_map, consApp, Function.comp_def] using this

theorem const_iff (A : Cls) : (∀ φ ∈ consTypeConst A, ∀ ρ, I.holds ρ φ) ↔
    ∀ c ∈ A.cons, ∀ vs, I.sorted (sorts A c) vs →
    I.fn (.consType A.id) [I.fn (.cons A.id c.name) vs] = I.fn (.const A.id c.name) [] := by
  constructor
  · intro h c hc vs hv
    have := h _ (List.mem_map.2 ⟨c, hc, rfl⟩) (fun _ => I.null)
    rw [holds_foralls] at this
    have := this vs (by rw [params_map2]; exact hv)
    rw [params_map1] at this
    simpa only [Interp.holds, consApp, tm_app, List.map_cons, List.map_nil, tm_args A c _ vs hv] using this
  · intro h φ hφ ρ
    obtain ⟨c, hc, rfl⟩ := List.mem_map.1 hφ
    rw [holds_foralls]
    intro vs hv
    rw [params_map2] at hv
    rw [params_map1]
    simp only [Interp.holds, consApp, tm_app, List.map_cons, List.map_nil, tm_args A c _ vs hv]
    exact h c hc vs hv

theorem total_iff (A : Cls) (hA : A.cons ≠ []) : (∀ φ ∈ consTypeTotal A, ∀ ρ, I.holds ρ φ) ↔
    ∀ v, I.dom (.adt A.id) v → ∃ c ∈ A.cons, I.fn (.consType A.id) [v] = I.fn (.const A.id c.name) [] := by
  have h1 : ∀ (ρ : V → I.U) v, I.holds (upd ρ .obj v) (disjoin (A.cons.map fun c =>
      .eq (.app (.consType A.id) [.var .obj]) (.app (.const A.id c.name) []))) ↔
      ∃ c ∈ A.cons, I.fn (.consType A.id) [v] = I.fn (.const A.id c.name) [] := by
    intro ρ v
    rw [holds_disjoin _ _ (by simpa using hA)]
    simp [Interp.holds]
  simp only [consTypeTotal, List.mem_singleton, forall_eq]
  exact ⟨fun h v hv => (h1 _ v).1 (h (fun _ => I.null) v hv), fun h ρ v hv => (h1 ρ v).2 (h v hv)⟩

theorem isc_iff (A : Cls) : (∀ φ ∈ consTypeBool A, ∀ ρ, I.holds ρ φ) ↔
    ∀ c ∈ A.cons, ∀ v, I.dom (.adt A.id) v →
    (I.fn (.consType A.id) [v] = I.fn (.const A.id c.name) [] ↔ I.pred (.isCons A.id c.name) [v]) := by
  constructor
  · intro h c hc v hv
    have := h _ (List.mem_map.2 ⟨c, hc, rfl⟩) (fun _ => I.null) v hv
    simpa [Interp.holds, tms_map] using this
  · intro h φ hφ ρ
    obtain ⟨c, hc, rfl⟩ := List.mem_map.1 hφ
    intro v hv
    simpa [Interp.holds, tms_map] using h c hc v hv

theorem subs_iff (A : Cls) (hA : A.cons ≠ []) : (∀ φ ∈ consSubclasses A, ∀ ρ, I.holds ρ φ) ↔
    ∀ r, I.dom .ref r → I.pred .issubtype [I.fn .typeof [r], I.fn (.pytype A.id) []] →
    ∃ c ∈ A.cons, I.fn .typeof [r] = I.fn (.pytype c.id) [] := by
  have h1 : ∀ (ρ : V → I.U) v, I.holds (upd ρ .ref v) (disjoin (A.cons.map fun c =>
      .eq (.app .typeof [.var .ref]) (.app (.pytype c.id) []))) ↔
      ∃ c ∈ A.cons, I.fn .typeof [v] = I.fn (.pytype c.id) [] := by
    intro ρ v
    rw [holds_disjoin _ _ (by simpa using hA)]
    simp [Interp.holds]
  simp only [consSubclasses, List.mem_singleton, forall_eq]
  constructor
  · intro h v hv hs
    exact (h1 _ v).1 (h (fun _ => I.null) v hv (by simpa [Interp.holds, tms_map] using hs))
  · intro h ρ v hv hs
    exact (h1 ρ v).2 (h v hv (by simpa [Interp.holds, tms_map] using hs))

theorem sat_iff (A : Cls) (hA : A.cons ≠ []) : Sat I A ↔ Facts I A := by
  have hax : (∀ φ ∈ axioms A, ∀ ρ, I.holds ρ φ) ↔
      ((((((((∀ φ ∈ equalityAxioms A, ∀ ρ, I.holds ρ φ) ∧ (∀ φ ∈ deconsOverCons A, ∀ ρ, I.holds ρ φ)) ∧
      (∀ φ ∈ deconsTypes A, ∀ ρ, I.holds ρ φ)) ∧ (∀ φ ∈ consOverDecons A, ∀ ρ, I.holds ρ φ)) ∧
      (∀ φ ∈ consTypeConst A, ∀ ρ, I.holds ρ φ)) ∧ (∀ φ ∈ consTypeTotal A, ∀ ρ, I.holds ρ φ)) ∧
      (∀ φ ∈ consTypeBool A, ∀ ρ, I.holds ρ φ)) ∧ (∀ φ ∈ consSubclasses A, ∀ ρ, I.holds ρ φ)) := by
    simp only [axioms, List.mem_append, or_imp, forall_and]
  rw [eq_iff, dec_iff, types_iff, cod_iff, const_iff, total_iff A hA, isc_iff, subs_iff A hA] at hax
  have hbox : (∀ v, I.dom (.adt A.id) v → ∀ φ ∈ boxPost A, ∀ ρ,
      I.holds (upd (upd ρ .obj v) .result (I.fn (.box A.id) [v])) φ) ↔
      ∀ v, I.dom (.adt A.id) v →
        I.pred .issubtype [I.fn .typeof [I.fn (.box A.id) [v]], I.fn (.pytype A.id) []] ∧
        I.fn (.unbox A.id) [I.fn (.box A.id) [v]] = v ∧
        ∀ c ∈ A.cons,
          (I.pred (.isCons A.id c.name) [v] ↔ I.fn .typeof [I.fn (.box A.id) [v]] = I.fn (.pytype c.id) []) ∧
          ∀ w, I.dom (.adt A.id) w → (v = w ↔ I.fn (.box A.id) [v] = I.fn (.box A.id) [w]) := by
    have hu : ∀ (ρ : V → I.U) v w, upd (upd ρ .obj v) .result w .obj = v := fun ρ v w => by
      rw [upd_ne _ _ (by decide), upd_same]
    have hu1 : ∀ (ρ : V → I.U) v w x, upd (upd (upd ρ .obj v) .result w) .other x .obj = v := fun ρ v w x => by
      rw [upd_ne _ _ (by decide), hu]
    have hu2 : ∀ (ρ : V → I.U) v w x, upd (upd (upd ρ .obj v) .result w) .other x .result = w := fun ρ v w x => by
      rw [upd_ne _ _ (by decide), upd_same]
    refine forall_congr' fun v => imp_congr_right fun hv => ?_
    simp only [boxPost, List.mem_cons, List.mem_flatMap, List.not_mem_nil, or_false]
    constructor
    · intro h
      refine ⟨?_, ?_, fun c hc => ⟨?_, fun w hw => ?_⟩⟩
      · have := h _ (.inl rfl) (fun _ => I.null)
        simpa [typeCheck, Interp.holds, tms_map] using this
      · have := h _ (.inr (.inl rfl)) (fun _ => I.null)
        simpa [Interp.holds, hu] using this
      · have := h _ (.inr (.inr ⟨c, hc, .inl rfl⟩)) (fun _ => I.null)
        simpa [Interp.holds, tms_map, hu] using this
      · have := h _ (.inr (.inr ⟨c, hc, .inr rfl⟩)) (fun _ => I.null) w hw
        simpa [Interp.holds, hu1, hu2] using this
    · rintro ⟨h1, h2, h3⟩ φ (rfl | rfl | ⟨c, hc, rfl | rfl⟩) ρ
      · simpa [typeCheck, Interp.holds, tms_map] using h1
      · simpa [Interp.holds, hu] using h2
      · simpa [Interp.holds, tms_map, hu] using (h3 c hc).1
      · intro w hw
        simpa [Interp.holds, hu1, hu2] using (h3 c hc).2 w hw
  have hunbox : (∀ r, I.dom .ref r → ∀ ρ, I.holds (upd ρ .ref r) (unboxPre A) →
      I.holds (upd (upd ρ .ref r) .result (I.fn (.unbox A.id) [r])) (unboxPost A)) ↔
      ∀ r, I.dom .ref r → I.pred .issubtype [I.fn .typeof [r], I.fn (.pytype A.id) []] →
        I.fn (.box A.id) [I.fn (.unbox A.id) [r]] = r := by
    have hu : ∀ (ρ : V → I.U) v w, upd (upd ρ .ref v) .result w .ref = v := fun ρ v w => by
      rw [upd_ne _ _ (by decide), upd_same]
    refine forall_congr' fun v => imp_congr_right fun hv => ?_
    constructor
    · intro h hs
      have := h (fun _ => I.null) (by simpa [unboxPre, typeCheck, Interp.holds, tms_map] using hs)
      simpa [unboxPost, Interp.holds, hu] using this
    · intro h ρ hs
      have := h (by simpa [unboxPre, typeCheck, Interp.holds, tms_map] using hs)
      simpa [unboxPost, Interp.holds, hu] using this
  constructor
  · rintro ⟨h1, h2, h3⟩
    obtain ⟨⟨⟨⟨⟨⟨⟨a, b⟩, c⟩, d⟩, e⟩, f⟩, g⟩, k⟩ := hax.1 h1
    have h2 := hbox.1 h2
    exact ⟨a, b, c, d, e, f, g, k, fun v hv => (h2 v hv).1, fun v hv => (h2 v hv).2.1,
      fun v hv c hc => ((h2 v hv).2.2 c hc).1, fun v hv c hc => ((h2 v hv).2.2 c hc).2, hunbox.1 h3⟩
  · rintro ⟨a, b, c, d, e, f, g, k, l, m, n, o, p⟩
    exact ⟨hax.2 ⟨⟨⟨⟨⟨⟨⟨a, b⟩, c⟩, d⟩, e⟩, f⟩, g⟩, k⟩,
      hbox.2 fun v hv => ⟨l v hv, m v hv, fun c hc => ⟨n v hv c hc, o v hv c hc⟩⟩, hunbox.2 p⟩

end Nagini.Adt
