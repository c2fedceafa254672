import Verif.Lemmas.Creates
import Verif.Props.ExprTypes
import Mathlib.Tactic.Choose

/-!
C141: pure collections are created with a type that all of their elements have, which the prelude
relies on (C88).
C142: pure collections are created with the type that they have according to the static types.
-/
namespace Nagini.Creates

open ExprTypes

/-- C141, full claim. -/
def CreatedTyped : Prop :=
  ∀ (sub : Nat → Nat → Prop) (P : Prog) (W : World) (tenv : Nat → Option Ty) (env : Nat → Option Val)
    (e : Exp) (k : Kind) (t : Ty) (vs : List Val), Sound sub P W → EnvOk sub tenv env →
    Everywhere (Good sub P W tenv env) e →
    (∀ v w r, W.cmp v w = some r → ∃ b, r = .bool b) →
    created P tenv e = some (k, t) → eval W env e = some (.coll k vs) → Typed sub vs t

/-- C141 for displays, and for conversions of expressions that are neither optional nor tuples whose
elements have different types: the value is a collection of the kind that is created, and its elements
have the type that it is created with. -/
theorem C141_partial {sub : Nat → Nat → Prop} {P : Prog} {W : World} {tenv : Nat → Option Ty}
    {env : Nat → Option Val} {e : Exp} {k : Kind} {t : Ty} {v : Val} (hs : Sound sub P W)
    (he : EnvOk sub tenv env) (hg : Everywhere (Good sub P W tenv env) e)
    (hcmp : ∀ v w r, W.cmp v w = some r → ∃ b, r = .bool b) (hu : UniformArg P tenv e)
    (hc : created P tenv e = some (k, t)) (hv : eval W env e = some v) :
    ∃ vs, v = .coll k vs ∧ Typed sub vs t := by
  cases e with
  | toSeq e =>
    obtain ⟨a, ha, heq⟩ := map_some hc
    cases heq
    obtain ⟨te, h1, h2⟩ := bind_some ha
    rw [eval] at hv
    obtain ⟨vs, h3, rfl⟩ := map_some hv
    obtain ⟨w, h4, h5⟩ := bind_some h3
    rw [Everywhere] at hg
    exact ⟨vs, rfl, seqArg_typed hs (hu te h1) h2 (typ_has hs hcmp he e hg.2 h1 h4) h5⟩
  | toMS e =>
    obtain ⟨a, ha, heq⟩ := map_some hc
    cases heq
    obtain ⟨te, h1, h2⟩ := bind_some ha
    rw [eval] at hv
    obtain ⟨vs, h3, rfl⟩ := map_some hv
    obtain ⟨w, h4, h5⟩ := bind_some h3
    rw [Everywhere] at hg
    exact ⟨vs, rfl, msArg_typed hs (hu te h1) h2 (typ_has hs hcmp he e hg.2 h1 h4) h5⟩
  | disp k' ann es =>
    rw [created] at hc
    by_cases hp : Creates.pure k' = true
    · rw [if_pos hp] at hc
      obtain ⟨a, ha, heq⟩ := map_some hc
      cases heq
      obtain ⟨te, h1, h2⟩ := bind_some ha
      have hh := typ_has hs hcmp he _ hg h1 hv
      obtain ⟨b, rfl⟩ := disp_kind h1
      cases h2
      cases hh with
      | coll hh => exact ⟨_, rfl, hh⟩
    · rw [if_neg hp] at hc
      cases hc
  | _ => cases hc

/-- The variables of the examples of `ExprTypes`, and `x4: Tuple[int, str]`,
`x5: Optional[List[int]]`, `x6: Tuple[int, int]`. -/
abbrev exT : Nat → Option Ty
  | 4 => some (.tup [.cls 1, .cls 4])
  | 5 => some (.opt (.coll .list (.cls 1)))
  | 6 => some (.tup [.cls 1, .cls 1])
  | x => exTenv x

/-- Their values. -/
abbrev exV : Nat → Option Val
  | 4 => some (.tup [.int 5, .str 0])
  | 5 => some (.coll .list [.int 5])
  | 6 => some (.tup [.int 5, .int 6])
  | x => exEnv x

theorem exOk : EnvOk exSub exT exV := by
  have hint : ∀ n, Has exSub (.int n) (.cls 1) := fun n => .cls (.inl rfl)
  have hstr : ∀ n, Has exSub (.str n) (.cls 4) := fun n => .cls (.inl rfl)
  intro x t v ht hv
  match x, ht, hv with
  | 4, ht, hv =>
    cases ht; cases hv
    refine .tup rfl fun i v t hv ht => ?_
    match i, hv, ht with
    | 0, hv, ht => cases hv; cases ht; exact hint 5
    | 1, hv, ht => cases hv; cases ht; exact hstr 0
  | 5, ht, hv =>
    cases ht; cases hv
    exact .some (.coll fun x hx => by simp only [List.mem_singleton] at hx; subst hx; exact hint 5)
  | 6, ht, hv =>
    cases ht; cases hv
    refine .tup rfl fun i v t hv ht => ?_
    match i, hv, ht with
    | 0, hv, ht => cases hv; cases ht; exact hint 5
    | 1, hv, ht => cases hv; cases ht; exact hint 6
  | 0, ht, hv => exact exEnvOk 0 t v ht hv
  | 1, ht, hv => exact exEnvOk 1 t v ht hv
  | 2, ht, hv => exact exEnvOk 2 t v ht hv
  | 3, ht, hv => exact exEnvOk 3 t v ht hv
  | _ + 7, ht, hv => cases ht

/-- A world whose comparisons return booleans. -/
abbrev exWorld : World := { exW with cmp := fun _ _ => some (.bool true) }

theorem exWorldSound : Sound exSub exP exWorld where
  refl := exSound.refl
  lub := exSound.lub
  ret := fun f t vs v h => by cases h
  getitem := fun c d t id k v h => by cases h
  builtin := fun v d t h => by cases h
  ints := exSound.ints

theorem exCmp : ∀ v w r, exWorld.cmp v w = some r → ∃ b, r = .bool b := fun _ _ _ h => ⟨true, by cases h; rfl⟩

/-- `C141_partial` covers `ToSeq(x3)` for the dictionary `x3`, `ToSeq(x6)` for the pair `x6`,
`ToMS(x2)` and `PSet(x0[0], x3[7])` in the example. -/
example : UniformArg exP exT (.toSeq (.var 3)) ∧ created exP exT (.toSeq (.var 3)) = some (.pseq, .cls 1) ∧
    UniformArg exP exT (.toSeq (.var 6)) ∧ created exP exT (.toSeq (.var 6)) = some (.pseq, .cls 1) ∧
    created exP exT (.toMS (.var 2)) = some (.pms, .coll .list (.cls 1)) ∧
    created exP exT (.disp .pset none [.subLit (.var 0) 0, .subLit (.var 3) 7]) = some (.pset, .cls 0) ∧
    Everywhere (Good exSub exP exWorld exT exV) (.disp .pset none [.subLit (.var 0) 0, .subLit (.var 3) 7]) := by
  refine ⟨fun t h => ?_, rfl, fun t h => ?_, rfl, rfl, rfl, ?_⟩
  · cases h; trivial
  · cases h
    intro a ha b hb
    simp at ha hb
    rw [ha, hb]
  · simp [Everywhere, EverywhereL, Good, Plain, AnnOk, Paired]

/-- C141 fails for tuples: `ToSeq(x4)` for `x4: Tuple[int, str]` is created as a sequence of integers,
but has a string as its second element. -/
theorem C141_fails : ¬ CreatedTyped := fun h =>
  not_has_cls (by simp [clsOf])
    (h exSub exP exWorld exT exV (.toSeq (.var 4)) .pseq (.cls 1) [.int 5, .str 0] exWorldSound exOk
      (by simp [Everywhere, Good, Plain, AnnOk, Paired, typ, exT]) exCmp rfl rfl (.str 0) (by simp))

/-- C141 fails for optional collections: `ToSeq(x5)` for `x5: Optional[List[int]]` is created as a
sequence of `None`s. -/
theorem C141_optional_fails : ¬ CreatedTyped := fun h =>
  not_has_cls (by simp [clsOf])
    (h exSub exP exWorld exT exV (.toSeq (.var 5)) .pseq (.cls 3) [.int 5] exWorldSound exOk
      (by simp [Everywhere, Good, Plain, AnnOk, Paired, typ, exT]) exCmp rfl rfl (.int 5) (by simp))

/-- Conversions of optional collections are created with a type of their elements only if all elements
are `None`. -/
theorem C141_optional_exact {sub : Nat → Nat → Prop} {P : Prog} {tenv : Nat → Option Ty} {e c : Exp} {a t : Ty}
    {k : Kind} {vs : List Val} (hr : ∀ c, sub c c) (hn : OnlyNone sub) (ha : typ P tenv e = some (.opt a))
    (hc : c = .toSeq e ∨ c = .toMS e) (ht : created P tenv c = some (k, t)) :
    Typed sub vs t ↔ ∀ v ∈ vs, v = .none := by
  have : t = .cls 3 := by
    rcases hc with rfl | rfl <;> simp only [created, ha, Option.bind_some, seqArg, msArg, firstArg,
      Option.map_some, Option.some.injEq, Prod.mk.injEq] at ht <;> exact ht.2.symm
  subst this
  refine ⟨fun h v hv => hn v (has_cls (h v hv)), fun h v hv => ?_⟩
  rw [h v hv]
  exact .cls (hr 3)

example : OnlyNone exSub := fun v h => by
  rcases h with h | h
  · cases v with
    | none => rfl
    | coll k vs => cases k <;> simp [clsOf, kindC] at h
    | ints c xs => cases c <;> simp [clsOf, intsC] at h
    | obj c id => simp only [clsOf] at h; omega
    | _ => simp [clsOf] at h
  · cases h

/-- A tuple type whose element types have values is always converted with a type of the elements
exactly if all values of the other types have the first type. -/
theorem C141_tuple_exact {sub : Nat → Nat → Prop} {P : Prog} {W : World} {a t : Ty} {as : List Ty} {k : Kind}
    (hi : ∀ b ∈ a :: as, ∃ w, Has sub w b)
    (ht : created P (fun _ => some (.tup (a :: as))) (.toSeq (.var 0)) = some (k, t)) :
    (∀ v vs, Has sub v (.tup (a :: as)) →
      eval W (fun _ => some v) (.toSeq (.var 0)) = some (.coll k vs) → Typed sub vs t) ↔
    ∀ b ∈ as, ∀ w, Has sub w b → Has sub w a := by
  simp only [created, typ, Option.bind_some, seqArg, firstArg, Option.map_some, Option.some.injEq,
    Prod.mk.injEq] at ht
  obtain ⟨rfl, rfl⟩ := ht
  constructor
  · intro h b hb w hw
    -- a tuple of arbitrary values, with `w` at the place of `b`
    obtain ⟨i, hi', hbi⟩ := List.getElem_of_mem hb
    have : Nonempty Val := ⟨.none⟩
    choose! f hf using hi
    have hhas : Has sub (.tup (((a :: as).map f).set (i + 1) w)) (.tup (a :: as)) := by
      refine .tup (by simp) fun j v t hv ht => ?_
      rw [List.getElem?_set] at hv
      split at hv
      · rename_i hij
        subst hij
        split at hv
        · cases hv
          rw [List.getElem?_cons_succ, List.getElem?_eq_getElem hi', hbi] at ht
          cases ht
          exact hw
        · cases hv
      · rw [List.getElem?_map, ht] at hv
        cases hv
        exact hf t (List.mem_of_getElem? ht)
    refine h _ (((a :: as).map f).set (i + 1) w) hhas (by simp only [eval, Option.bind_some, elems, Option.map_some]) w ?_
    refine List.mem_iff_getElem?.mpr ⟨i + 1, ?_⟩
    rw [List.getElem?_set_self (by simp; omega)]
  · intro h v vs hv he x hx
    cases hv with
    | tup hl hh =>
      simp only [eval, Option.bind_some, elems, Option.map_some, Option.some.injEq, Val.coll.injEq,
        true_and] at he
      subst he
      obtain ⟨b, hb, hxb⟩ := tup_mem (.tup hl hh) hx
      rcases List.mem_cons.mp hb with rfl | hb
      · exact hxb
      · exact h b hb x hxb

/-- `C141_tuple_exact` applies to `Tuple[int, str]`. -/
example : (∀ b ∈ [Ty.cls 1, .cls 4], ∃ w, Has exSub w b) ∧
    created exP (fun _ => some (.tup [.cls 1, .cls 4])) (.toSeq (.var 0)) = some (.pseq, .cls 1) := by
  refine ⟨fun b hb => ?_, rfl⟩
  simp at hb
  rcases hb with rfl | rfl
  · exact ⟨.int 0, .cls (.inl rfl)⟩
  · exact ⟨.str 0, .cls (.inl rfl)⟩

/-- C142, full claim. -/
def CreatedStatic : Prop :=
  ∀ (P : Prog) (tenv : Nat → Option Ty) (e : Exp) (k : Kind) (t : Ty), (∀ a, P.lub a a = some a) →
    created P tenv e = some (k, t) → typ P tenv e = some (.coll k t)

/-- C142 for displays, and for conversions of expressions that are neither optional nor tuples whose
elements have different types. -/
theorem C142_partial {P : Prog} {tenv : Nat → Option Ty} {e : Exp} {k : Kind} {t : Ty}
    (hl : ∀ a, P.lub a a = some a) (hu : UniformArg P tenv e) (hc : created P tenv e = some (k, t)) :
    typ P tenv e = some (.coll k t) := by
  cases e with
  | toSeq e =>
    obtain ⟨a, ha, heq⟩ := map_some hc
    cases heq
    obtain ⟨te, h1, h2⟩ := bind_some ha
    rw [typ, h1, Option.bind_some, seqArg_iter hl (hu te h1) h2]
    rfl
  | toMS e =>
    obtain ⟨a, ha, heq⟩ := map_some hc
    cases heq
    obtain ⟨te, h1, h2⟩ := bind_some ha
    rw [typ, h1, Option.bind_some, msArg_iter hl (hu te h1) h2]
    rfl
  | disp k' ann es =>
    rw [created] at hc
    by_cases hp : Creates.pure k' = true
    · rw [if_pos hp] at hc
      obtain ⟨a, ha, heq⟩ := map_some hc
      cases heq
      obtain ⟨te, h1, h2⟩ := bind_some ha
      obtain ⟨b, rfl⟩ := disp_kind h1
      cases h2
      exact h1
    · rw [if_neg hp] at hc
      cases hc
  | _ => cases hc

/-- All displays of pure collections and all conversions of lists, sets, dictionaries, pure
collections and ranges with a static type are translated. -/
theorem C142_accepts {P : Prog} {tenv : Nat → Option Ty} :
    (∀ ann es t k, (k = Kind.pseq ∨ k = Kind.pset ∨ k = Kind.pms) → typ P tenv (.disp k ann es) = some t →
      ∃ a, created P tenv (.disp k ann es) = some (k, a)) ∧
    (∀ e t, typ P tenv e = some t →
      ((∃ k a, t = .coll k a) ∨ (∃ k v, t = .dict k v) ∨ (∃ a as, t = .tup (a :: as)) ∨ t = .cls 7) →
      (∃ a, created P tenv (.toSeq e) = some (.pseq, a)) ∧ ∃ a, created P tenv (.toMS e) = some (.pms, a)) := by
  refine ⟨fun ann es t k hk h => ?_, fun e t h ht => ?_⟩
  · obtain ⟨a, rfl⟩ := disp_kind h
    refine ⟨a, ?_⟩
    rw [created, if_pos (by rcases hk with rfl | rfl | rfl <;> rfl), h]
    rfl
  · simp only [created, h, Option.bind_some]
    rcases ht with ⟨k, a, rfl⟩ | ⟨k, v, rfl⟩ | ⟨a, as, rfl⟩ | rfl <;> exact ⟨⟨_, rfl⟩, _, rfl⟩

open Classical in
/-- Supertypes of the examples: of different types, `object`. -/
noncomputable abbrev exLub : Prog := ⟨fun a b => if a = b then some a else some (.cls 0), fun _ => none, fun _ => none⟩

/-- `C142_partial` covers `ToSeq(x3)`, and `C142_accepts` covers `PSet(x0)`. -/
example : (∀ a, exLub.lub a a = some a) ∧ UniformArg exLub exT (.toSeq (.var 3)) ∧
    created exLub exT (.toSeq (.var 3)) = some (.pseq, .cls 1) ∧
    typ exLub exT (.disp .pset none [.var 0]) = some (.coll .pset (.coll .list (.cls 1))) :=
  ⟨fun a => if_pos rfl, fun t h => by cases h; trivial, rfl, rfl⟩

/-- C142 fails for tuples: the static type of `ToSeq(x4)` is `PSeq[object]`, it is created as
`PSeq[int]`. -/
theorem C142_fails : ¬ CreatedStatic := fun h => by
  have := h exLub exT (.toSeq (.var 4)) .pseq (.cls 1) (fun a => if_pos rfl) rfl
  have h2 : typ exLub exT (.toSeq (.var 4)) = some (.coll .pseq (.cls 0)) := by
    have : common exLub [.cls 1, .cls 4] = some (.cls 0) := by
      simp [common, commonFrom]
    show ((common exLub [.cls 1, .cls 4])).map (Ty.coll .pseq) = _
    rw [this]
    rfl
  rw [h2] at this
  cases this

end Nagini.Creates
