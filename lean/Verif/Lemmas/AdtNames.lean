import Verif.Lemmas.AdtPy
set_option linter.unusedVariables false
set_option linter.unusedSimpArgs false
/-! The generated declarations are well typed and have different names. -/
namespace Nagini.Adt

section sorts
variable {As : List Cls}

theorem fmOk_foralls (φ : Fm) (xs : List (V × Srt)) : ∀ Γ : V → Option Srt,
    FmOk As Γ (foralls xs φ) ↔ FmOk As (updL Γ (xs.map (·.1)) (xs.map fun x => some x.2)) φ := by
  induction xs with
  | nil => intro Γ; exact Iff.rfl
  | cons x xs ih => intro Γ; exact ih _

theorem fmOk_conjoin (Γ : V → Option Srt) : ∀ l : List Fm, (∀ φ ∈ l, FmOk As Γ φ) → FmOk As Γ (conjoin l)
  | [], _ => trivial
  | [φ], h => h φ (by simp)
  | φ :: ψ :: l, h => ⟨h φ (by simp), fmOk_conjoin Γ (ψ :: l) fun χ hχ => h χ (List.mem_cons_of_mem _ hχ)⟩

theorem fmOk_disjoin (Γ : V → Option Srt) : ∀ l : List Fm, (∀ φ ∈ l, FmOk As Γ φ) → FmOk As Γ (disjoin l)
  | [], _ => trivial
  | [φ], h => h φ (by simp)
  | φ :: ψ :: l, h => ⟨h φ (by simp), fmOk_disjoin Γ (ψ :: l) fun χ hχ => h χ (List.mem_cons_of_mem _ hχ)⟩

theorem tmsOk_vars (Γ : V → Option Srt) : ∀ (xs : List V) (ss : List Srt), xs.map Γ = ss.map some →
    TmsOk As Γ (xs.map .var) ss
  | [], [], _ => .nil
  | x :: xs, s :: ss, h => by
    simp only [List.map_cons, List.cons.injEq] at h
    exact .cons (.var h.1) (tmsOk_vars Γ xs ss h.2)
  | [], _ :: _, h => by simp at h
  | _ :: _, [], h => by simp at h

def G1 (Γ : V → Option Srt) (A c : Cls) : V → Option Srt := updL Γ (xs1 c) ((sorts A c).map some)
def G2 (Γ : V → Option Srt) (A c : Cls) : V → Option Srt := updL (G1 Γ A c) (xs2 c) ((sorts A c).map some)

theorem args_ok (Γ : V → Option Srt) (A c : Cls) : TmsOk As (G1 Γ A c) (argTms A c) (sorts A c) := by
  rw [argTms_eq]
  exact tmsOk_vars _ _ _ (map_updL _ _ _ (xs1_nodup c) (by simp [xs1_length, sorts_length]))

theorem args_ok1 (Γ : V → Option Srt) (A c : Cls) : TmsOk As (G2 Γ A c) (argTms A c) (sorts A c) := by
  rw [argTms_eq]
  refine tmsOk_vars _ _ _ ?_
  rw [← map_updL (xs1 c) Γ ((sorts A c).map some) (xs1_nodup c) (by simp [xs1_length, sorts_length])]
  exact List.map_congr_left fun x hx => by
    unfold G2; rw [updL_not_mem _ _ _ _ (xs12 c x hx)]
    rfl

theorem args_ok2 (Γ : V → Option Srt) (A c : Cls) : TmsOk As (G2 Γ A c) (argTms2 A c) (sorts A c) := by
  rw [argTms2_eq]
  exact tmsOk_vars _ _ _ (map_updL _ _ _ (xs2_nodup c) (by simp [xs2_length, sorts_length]))

theorem params_some (A c : Cls) : (params A c).map (fun x => some x.2) = (sorts A c).map some := by
  rw [← params_map2, List.map_map]; rfl
theorem prime_some (A c : Cls) : ((params A c).map fun x => (prime x.1, x.2)).map (fun x => some x.2) =
    (sorts A c).map some := by
  rw [← params_map2, List.map_map, List.map_map]; rfl

theorem zip_ok (Γ : V → Option Srt) : ∀ (ts us : List Tm) (ss : List Srt), TmsOk As Γ ts ss → TmsOk As Γ us ss →
    ∀ φ ∈ (ts.zip us).map (fun p => Fm.eq p.1 p.2), FmOk As Γ φ
  | _, _, _, .nil, .nil, φ, h => by simp at h
  | _, _, _, .cons (t := t) (ts := ts) a as, .cons (t := u) (ts := us) b bs, φ, h => by
    simp only [List.zip_cons_cons, List.map_cons, List.mem_cons] at h
    rcases h with rfl | h
    · exact ⟨_, a, b⟩
    · exact zip_ok Γ ts us _ as bs φ h

theorem zip_mem_ok (Γ : V → Option Srt) (A : Cls) : ∀ (fs : List (String × FTy)) (ts : List Tm),
    TmsOk As Γ ts (fs.map fun f => fieldSort A f.2) → ∀ p ∈ fs.zip ts, p.1 ∈ fs ∧ TmOk As Γ p.2 (fieldSort A p.1.2)
  | [], _, _, p, h => by simp at h
  | f :: fs, _, .cons (ts := ts) a as, p, h => by
    simp only [List.zip_cons_cons, List.mem_cons] at h
    rcases h with rfl | h
    · exact ⟨by simp, a⟩
    · have := zip_mem_ok Γ A fs ts as p h
      exact ⟨List.mem_cons_of_mem _ this.1, this.2⟩

theorem sig_cons {A c : Cls} (hA : A ∈ As) (hc : c ∈ A.cons) : Sig As (.cons A.id c.name) (sorts A c) (.adt A.id) :=
  .fn hA (cons_fn hc)

theorem sig_decons {A c : Cls} (hA : A ∈ As) (hc : c ∈ A.cons) {f : String × FTy} (hf : f ∈ c.fields) :
    Sig As (.decons A.id c.name f.1) [.adt A.id] (fieldSort A f.2) := by
  refine .fn (u := false) hA ?_
  simp only [functions, List.mem_append]
  exact .inl (.inl (.inr (List.mem_flatMap.2 ⟨c, hc, List.mem_map.2 ⟨f, hf, rfl⟩⟩)))

theorem sig_type {A : Cls} (hA : A ∈ As) : Sig As (.consType A.id) [.adt A.id] .int := by
  refine .fn (u := false) hA ?_
  simp only [functions, List.mem_append]
  exact .inl (.inr (List.mem_cons_self ..))

theorem sig_const {A c : Cls} (hA : A ∈ As) (hc : c ∈ A.cons) : Sig As (.const A.id c.name) [] .int := by
  refine .fn (u := true) hA ?_
  simp only [functions, List.mem_append]
  exact .inl (.inr (List.mem_cons_of_mem _ (List.mem_map.2 ⟨c, hc, rfl⟩)))

theorem sig_is {A c : Cls} (hA : A ∈ As) (hc : c ∈ A.cons) : Sig As (.isCons A.id c.name) [.adt A.id] .bool := by
  refine .fn (u := false) hA ?_
  simp only [functions, List.mem_append]
  exact .inr (List.mem_map.2 ⟨c, hc, rfl⟩)

theorem one {Γ : V → Option Srt} {t s} (h : TmOk As Γ t s) : TmsOk As Γ [t] [s] := .cons h .nil

theorem check_ok {Γ : V → Option Srt} {t : Tm} {f : FTy} (h : ∀ i n, f = .cls i n → TmOk As Γ t .ref) :
    FmOk As Γ (typeCheck t f) := by
  cases f with
  | cls i n => exact ⟨[.ty, .ty], .issubtype, .cons (.app .typeof (one (h i n rfl))) (one (.app (.pytype i) .nil))⟩
  | int | bool | type => trivial

theorem decls_ok {A : Cls} (hA : A ∈ As) (hs : ∀ c ∈ A.cons, ∀ f ∈ c.fields, sameName A f.2 = isAdt A f.2) :
    DeclsOk As A where
  axioms φ hφ := by
    simp only [axioms, List.mem_append] at hφ
    rcases hφ with ((((((hφ | hφ) | hφ) | hφ) | hφ) | hφ) | hφ) | hφ
    · obtain ⟨c, hc, rfl⟩ := List.mem_map.1 hφ
      have hc := ((filter_ne _ _).1 hc).1
      rw [foralls_append, fmOk_foralls, fmOk_foralls, params_map1, prime_fst, params_some, prime_some]
      exact ⟨⟨.adt A.id, .app (sig_cons hA hc) (args_ok1 _ A c), .app (sig_cons hA hc) (args_ok2 _ A c)⟩,
        fmOk_conjoin _ _ (zip_ok _ _ _ _ (args_ok1 _ A c) (args_ok2 _ A c))⟩
    · obtain ⟨c, hc, rfl⟩ := List.mem_map.1 hφ
      have hc := ((filter_ne _ _).1 hc).1
      refine fmOk_conjoin _ _ fun ψ hψ => ?_
      obtain ⟨p, hp, rfl⟩ := List.mem_map.1 hψ
      rw [fmOk_foralls, params_map1, params_some]
      have := zip_mem_ok (As := As) _ A c.fields _ (args_ok (fun _ => none) A c) p hp
      exact ⟨_, .app (sig_decons hA hc this.1) (one (.app (sig_cons hA hc) (args_ok _ A c))), this.2⟩
    · obtain ⟨c, hc, rfl⟩ := List.mem_map.1 hφ
      have hc := (List.mem_filter.1 hc).1
      refine fmOk_conjoin _ _ fun ψ hψ => ?_
      obtain ⟨f, hf, rfl⟩ := List.mem_map.1 hψ
      obtain ⟨hf, hch⟩ := List.mem_filter.1 hf
      refine check_ok fun i n e => ?_
      have hd := sig_decons hA hc hf
      have : fieldSort A f.2 = .ref := by
        unfold fieldSort; rw [hs c hc f hf]
        rw [e] at hch ⊢
        simp only [checked, Bool.not_eq_true'] at hch
        rw [hch]; rfl
      rw [this] at hd
      exact .app hd (one (.var (by simp)))
    · obtain ⟨c, hc, rfl⟩ := List.mem_map.1 hφ
      have hc := ((filter_ne _ _).1 hc).1
      refine ⟨⟨_, sig_is hA hc, one (.var (by simp))⟩, .adt A.id, .var (by simp), .app (sig_cons hA hc) ?_⟩
      have : ∀ fs : List (String × FTy), (∀ f ∈ fs, f ∈ c.fields) →
          TmsOk As (upd (fun _ => none) .obj (some (.adt A.id)))
            (fs.map fun f => .app (.decons A.id c.name f.1) [.var .obj]) (fs.map fun f => fieldSort A f.2) := by
        intro fs
        induction fs with
        | nil => intro _; exact .nil
        | cons f fs ih =>
          intro h
          exact .cons (.app (sig_decons hA hc (h f (by simp))) (one (.var (by simp)))) (ih fun g hg => h g (by simp [hg]))
      exact this c.fields fun f hf => hf
    · obtain ⟨c, hc, rfl⟩ := List.mem_map.1 hφ
      rw [fmOk_foralls, params_map1, params_some]
      exact ⟨.int, .app (sig_type hA) (one (.app (sig_cons hA hc) (args_ok _ A c))), .app (sig_const hA hc) .nil⟩
    · simp only [consTypeTotal, List.mem_singleton] at hφ
      subst hφ
      refine fmOk_disjoin _ _ fun ψ hψ => ?_
      obtain ⟨c, hc, rfl⟩ := List.mem_map.1 hψ
      exact ⟨.int, .app (sig_type hA) (one (.var (by simp))), .app (sig_const hA hc) .nil⟩
    · obtain ⟨c, hc, rfl⟩ := List.mem_map.1 hφ
      exact ⟨⟨.int, .app (sig_type hA) (one (.var (by simp))), .app (sig_const hA hc) .nil⟩,
        _, sig_is hA hc, one (.var (by simp))⟩
    · simp only [consSubclasses, List.mem_singleton] at hφ
      subst hφ
      refine ⟨⟨_, .issubtype, .cons (.app .typeof (one (.var (by simp)))) (one (.app (.pytype _) .nil))⟩,
        fmOk_disjoin _ _ fun ψ hψ => ?_⟩
      obtain ⟨c, hc, rfl⟩ := List.mem_map.1 hψ
      exact ⟨.ty, .app .typeof (one (.var (by simp))), .app (.pytype _) .nil⟩
  box φ hφ := by
    simp only [boxPost, List.mem_cons, List.mem_flatMap, List.not_mem_nil, or_false] at hφ
    rcases hφ with rfl | rfl | ⟨c, hc, rfl | rfl⟩
    · exact check_ok fun i n e => .var (by simp)
    · exact ⟨.adt A.id, .app (.unbox hA) (one (.var (by simp))), .var (by simp [upd])⟩
    · exact ⟨⟨_, sig_is hA hc, one (.var (by simp [upd]))⟩,
        .ty, .app .typeof (one (.var (by simp))), .app (.pytype _) .nil⟩
    · exact ⟨⟨.adt A.id, .var (by simp [upd]), .var (by simp)⟩,
        .ref, .var (by simp [upd]), .app (.box hA) (one (.var (by simp)))⟩
  unboxPre := check_ok fun i n e => .var (by simp)
  unboxPost := ⟨.ref, .app (.box hA) (one (.var (by simp))), .var (by simp [upd])⟩

mutual
theorem trans_ok {le : Nat → Nat → Prop} (hs : ∀ A ∈ As, ∀ c ∈ A.cons, ∀ f ∈ c.fields, sameName A f.2 = isAdt A f.2)
    {Γ : V → Option FTy} : ∀ {e t}, ETy As le Γ e t →
      TmOk As (fun x => (Γ x).map translateType) (trans e) (translateType t)
  | _, _, .int n => by simp only [trans]; exact .int n
  | _, _, .bool n => by simp only [trans]; exact .bool n
  | _, _, .var h => by simp only [trans]; exact .var (by simp [h])
  | _, _, .new (A := A) (c := c) hA hc hes => by
    simp only [trans]
    exact .app (.box hA) (one (.app (sig_cons hA hc) (transs_ok hs A hA c hc (fun f hf => hf) hes)))
  | _, _, .field (A := A) (c := c) (f := f) (t := t) hA hc hall he hl => by
    have h1 := trans_ok hs he
    have hf : (f, t) ∈ c.fields := by
      obtain ⟨k, h⟩ := List.lookup_eq_some_iff.1 hl
      obtain ⟨l2, h, _⟩ := h
      rw [h]; simp
    have hd : TmOk As (fun x => (Γ x).map translateType) (.app (.decons A.id c.name f) [.app (.unbox A.id) [trans _]])
        (fieldSort A t) :=
      .app (sig_decons hA hc hf) (one (.app (.unbox hA) (one h1)))
    have hfs := fieldSort_eq (hs A hA c hc (f, t) hf)
    simp only at hfs
    simp only [trans, hl]
    rw [hfs] at hd
    split
    · next ha =>
      rw [if_pos ha] at hd
      have : translateType t = .ref := by cases t <;> simp [isAdt] at ha; rfl
      rw [this]
      exact .app (.box hA) (one hd)
    · next ha => rw [if_neg ha] at hd; exact hd
  | _, _, .sub he _ => by
    have := trans_ok hs he
    exact this

theorem transs_ok {le : Nat → Nat → Prop} (hs : ∀ A ∈ As, ∀ c ∈ A.cons, ∀ f ∈ c.fields, sameName A f.2 = isAdt A f.2)
    {Γ : V → Option FTy} (A : Cls) (hA : A ∈ As) (c : Cls) (hc : c ∈ A.cons) : ∀ {fs : List (String × FTy)} {es : List Ex}, (∀ f ∈ fs, f ∈ c.fields) →
      ETys As le Γ fs es →
      TmsOk As (fun x => (Γ x).map translateType) (transArgs A fs es) (fs.map fun f => fieldSort A f.2)
  | _, _, _, .nil => by simp only [transArgs]; exact .nil
  | f :: fs, e :: es, hf, .cons he hes => by
    have h1 := trans_ok hs he
    have h2 := transs_ok hs A hA c hc (fun g hg => hf g (by simp [hg])) hes
    have hfs := fieldSort_eq (hs A hA c hc f (hf f (by simp)))
    obtain ⟨n, t⟩ := f
    simp only [transArgs]
    refine .cons ?_ h2
    show TmOk As _ _ (fieldSort A t)
    simp only at hfs
    rw [hfs]
    split
    · next ha =>
      have : translateType t = .ref := by cases t <;> simp [isAdt] at ha; rfl
      simp only [this] at h1
      exact .app (.unbox hA) (one h1)
    · exact h1
end
end sorts

/-! ### Names -/

def shape : Sym → List Char × Option (List Char)
  | .cons _ c => (c.toList, none)
  | .decons _ c f => (c.toList, some f.toList)
  | .consType _ => ("cons".toList, some "type".toList)
  | .const _ c => (c.toList, some "type".toList)
  | .isCons _ c => ("is".toList, some c.toList)
  | _ => ([], none)

def tailOf : Option (List Char) → List Char
  | none => []
  | some r => '_' :: r

theorem str_shape (n : String) (f : Sym) (h : shape f ≠ ([], none) ∨ ∃ k c, f = .cons k c) :
    (f.str n).toList = n.toList ++ '_' :: ((shape f).1 ++ tailOf (shape f).2) := by
  cases f <;> simp [Sym.str, shape, tailOf, String.toList_append] at h ⊢

theorem split_unique : ∀ (x y : List Char) (o p : Option (List Char)), '_' ∉ x → '_' ∉ y →
    x ++ tailOf o = y ++ tailOf p → x = y ∧ o = p
  | [], [], o, p, _, _, h => by
    cases o <;> cases p <;> simp_all [tailOf]
  | [], b :: y, o, p, _, hy, h => by
    cases o with
    | none => simp [tailOf] at h
    | some r =>
      simp only [tailOf, List.nil_append, List.cons_append, List.cons.injEq] at h
      simp [← h.1] at hy
  | a :: x, [], o, p, hx, _, h => by
    cases p with
    | none => simp [tailOf] at h
    | some r =>
      simp only [tailOf, List.nil_append, List.cons_append, List.cons.injEq] at h
      simp [h.1] at hx
  | a :: x, b :: y, o, p, hx, hy, h => by
    simp only [List.cons_append, List.cons.injEq] at h
    simp only [List.mem_cons, not_or] at hx hy
    have := split_unique x y o p hx.2 hy.2 h.2
    exact ⟨by rw [h.1, this.1], this.2⟩

theorem syms_nodup (A : Cls) (hn : (A.cons.map Cls.name).Nodup) (hf : ∀ c ∈ A.cons, (c.fields.map (·.1)).Nodup) :
    ((functions A).map (·.1)).Nodup := by
  simp only [functions, List.map_append, List.map_cons, List.map_map, List.map_flatMap]
  have hname : ∀ g : String → Sym, (∀ a b, g a = g b → a = b) → (A.cons.map fun c => g c.name).Nodup := by
    intro g hg
    have := hn.map (f := g) hg
    rwa [List.map_map] at this
  have hdec : (A.cons.flatMap fun c => c.fields.map fun f => Sym.decons A.id c.name f.1).Nodup := by
    rw [List.nodup_flatMap]
    constructor
    · intro c hc
      have := (hf c hc).map (f := fun f => Sym.decons A.id c.name f) (fun a b h => by simpa using h)
      rwa [List.map_map] at this
    · rw [List.Nodup, List.pairwise_map] at hn
      refine hn.imp fun {a b} hab x hx hy => ?_
      obtain ⟨f, _, rfl⟩ := List.mem_map.1 hx
      obtain ⟨g, _, e⟩ := List.mem_map.1 hy
      simp only [Sym.decons.injEq] at e
      exact hab e.2.1.symm
  rw [List.nodup_append, List.nodup_append, List.nodup_append, List.nodup_cons]
  refine ⟨⟨⟨hname (Sym.cons A.id) (fun a b h => by simpa using h), hdec, ?_⟩,
    ⟨?_, hname (Sym.const A.id) (fun a b h => by simpa using h)⟩, ?_⟩,
    hname (Sym.isCons A.id) (fun a b h => by simpa using h), ?_⟩
  · rintro a ha b hb rfl
    simp only [List.mem_map, List.mem_flatMap, Function.comp] at ha hb
    obtain ⟨c, _, rfl⟩ := ha
    obtain ⟨d, _, f, _, e⟩ := hb
    cases e
  · simp
  · rintro a ha b hb rfl
    simp only [List.mem_append, List.mem_cons, List.mem_map, List.mem_flatMap, Function.comp] at ha hb
    rcases ha with ⟨c, _, rfl⟩ | ⟨d, _, f, _, rfl⟩ <;> rcases hb with e | ⟨c, _, e⟩ <;> cases e
  · rintro a ha b hb rfl
    simp only [List.mem_append, List.mem_cons, List.mem_map, List.mem_flatMap, Function.comp] at ha hb
    obtain ⟨c, _, rfl⟩ := hb
    rcases ha with (⟨c, _, e⟩ | ⟨d, _, f, _, e⟩) | e | ⟨c, _, e⟩ <;> cases e

theorem names_distinct (A : Cls) (hn : (A.cons.map Cls.name).Nodup) (hf : ∀ c ∈ A.cons, (c.fields.map (·.1)).Nodup)
    (hu : ∀ c ∈ A.cons, '_' ∉ c.name.toList) (hc : ∀ c ∈ A.cons, c.name ≠ "cons" ∧ c.name ≠ "is")
    (ht : ∀ c ∈ A.cons, ∀ f ∈ c.fields, f.1 ≠ "type") : NamesDistinct A := by
  have hs := syms_nodup A hn hf
  have : (functions A).map (fun x => x.1.str A.name) = ((functions A).map (·.1)).map (Sym.str A.name) := by
    rw [List.map_map]; rfl
  unfold NamesDistinct
  rw [this]
  have hmem : ∀ f ∈ (functions A).map (·.1), (∃ c ∈ A.cons, f = .cons A.id c.name) ∨
      (∃ c ∈ A.cons, ∃ g ∈ c.fields, f = .decons A.id c.name g.1) ∨ f = .consType A.id ∨
      (∃ c ∈ A.cons, f = .const A.id c.name) ∨ (∃ c ∈ A.cons, f = .isCons A.id c.name) := by
    intro f hf
    simp only [functions, List.map_append, List.map_cons, List.map_map, List.map_flatMap, List.mem_append,
      List.mem_cons, List.mem_map, List.mem_flatMap, Function.comp] at hf
    rcases hf with ((⟨c, h, rfl⟩ | ⟨d, h, f, h', rfl⟩) | rfl | ⟨c, h, rfl⟩) | ⟨c, h, rfl⟩
    · exact .inl ⟨c, h, rfl⟩
    · exact .inr (.inl ⟨d, h, f, h', rfl⟩)
    · exact .inr (.inr (.inl rfl))
    · exact .inr (.inr (.inr (.inl ⟨c, h, rfl⟩)))
    · exact .inr (.inr (.inr (.inr ⟨c, h, rfl⟩)))
  have hund : ∀ f ∈ (functions A).map (·.1), '_' ∉ (shape f).1 ∧
      (f.str A.name).toList = A.name.toList ++ '_' :: ((shape f).1 ++ tailOf (shape f).2) := by
    intro f hf
    rcases hmem f hf with ⟨c, h, rfl⟩ | ⟨c, h, g, _, rfl⟩ | rfl | ⟨c, h, rfl⟩ | ⟨c, h, rfl⟩
    · exact ⟨hu c h, str_shape _ _ (.inr ⟨_, _, rfl⟩)⟩
    · exact ⟨hu c h, str_shape _ _ (.inl (by simp [shape]))⟩
    · exact ⟨by simp only [shape]; decide, str_shape _ _ (.inl (by simp [shape]))⟩
    · exact ⟨hu c h, str_shape _ _ (.inl (by simp [shape]))⟩
    · exact ⟨by simp only [shape]; decide, str_shape _ _ (.inl (by simp [shape]))⟩
  refine List.Nodup.map_on (fun a ha b hb e => ?_) hs
  have ea := hund a ha
  have eb := hund b hb
  have e' := congrArg String.toList e
  rw [ea.2, eb.2] at e'
  have e' := List.append_cancel_left e'
  simp only [List.cons.injEq, true_and] at e'
  have hsh := split_unique _ _ _ _ ea.1 eb.1 e'
  rcases hmem a ha with ⟨c, h, rfl⟩ | ⟨c, h, g, hg, rfl⟩ | rfl | ⟨c, h, rfl⟩ | ⟨c, h, rfl⟩ <;>
    rcases hmem b hb with ⟨d, h', rfl⟩ | ⟨d, h', g', hg', rfl⟩ | rfl | ⟨d, h', rfl⟩ | ⟨d, h', rfl⟩ <;>
    simp only [shape, Option.some.injEq, String.toList_inj, reduceCtorEq, and_false, and_true] at hsh
  all_goals first
    | exact hsh.elim
    | rfl
    | exact absurd hsh.2 (ht c h g hg)
    | exact absurd hsh.2.symm (ht d h' g' hg')
    | exact absurd hsh.1 (hc c h).2
    | exact absurd hsh.1.symm (hc d h').2
    | exact absurd hsh.1 (hc c h).1
    | exact absurd hsh.1.symm (hc d h').1
    | exact absurd hsh (hc c h).1
    | exact absurd hsh.symm (hc d h').1
    | (exfalso; exact absurd hsh.1 (by decide))
    | rw [hsh]
    | rw [hsh.1, hsh.2]
    | rw [hsh.2]

end Nagini.Adt
