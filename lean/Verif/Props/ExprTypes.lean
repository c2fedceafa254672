import Verif.Lemmas.ExprTypes

/-!
C121: every expression has a value of its static type.
C122: the types that the encoding of `enumerate` assumes are types of the elements.
-/
namespace Nagini.ExprTypes

/-- C121, full claim. -/
def StaticTypes : Prop :=
  ∀ (sub : Nat → Nat → Prop) (P : Prog) (W : World) (tenv : Nat → Option Ty) (env : Nat → Option Val)
    (e : Exp) (t : Ty) (v : Val), Sound sub P W → EnvOk sub tenv env →
    Everywhere (fun e => AnnOk sub W env e ∧ Paired e) e →
    typ P tenv e = some t → eval W env e = some v → Has sub v t

/-- C121 for comparisons that return booleans and expressions without slices of lists, bytes,
bytearrays and ranges, `d.get(k)` and iteration over optional dictionaries. -/
theorem C121_partial {sub : Nat → Nat → Prop} {P : Prog} {W : World} {tenv : Nat → Option Ty}
    {env : Nat → Option Val} {e : Exp} {t : Ty} {v : Val} (hs : Sound sub P W) (he : EnvOk sub tenv env)
    (hcmp : ∀ v w r, W.cmp v w = some r → ∃ b, r = .bool b)
    (hg : Everywhere (Good sub P W tenv env) e)
    (ht : typ P tenv e = some t) (hv : eval W env e = some v) : Has sub v t :=
  typ_has hs hcmp he e hg ht hv

/-- A small class hierarchy: everything is an object. -/
abbrev exSub (c d : Nat) : Prop := c = d ∨ d = 0

/-- A program without functions. -/
abbrev exP : Prog := ⟨fun _ _ => some (.cls 0), fun _ => none, fun _ => none⟩

/-- A world whose comparisons return integers. -/
abbrev exW : World :=
  { truthy := fun _ => true
    same := fun a b => match a, b with | .int m, .int n => m == n | _, _ => false
    cmp := fun _ _ => some (.int 0)
    call := fun _ _ => none
    getitem := fun _ _ _ => none }

theorem exSound : Sound exSub exP exW where
  refl := fun c => .inl rfl
  lub := fun a b s v h _ => by cases h; exact .cls (.inr rfl)
  ret := fun f t vs v h => by cases h
  getitem := fun c d t id k v h => by cases h
  builtin := fun v d t h => by cases h
  ints := fun v d hd h => by
    have h0 : clsOf v = d := by
      rcases h with h | h
      · exact h
      · subst h; rcases hd with h | h | h | h <;> cases h
    cases v with
    | ints c xs => exact ⟨c, xs, rfl⟩
    | coll k vs => cases k <;> simp only [clsOf, kindC] at h0 <;> omega
    | _ => simp only [clsOf] at h0; omega

/-- Types of the variables of the examples: `x0: List[int]`, `x1: Optional[Dict[int, str]]`,
`x2: List[List[int]]`, `x3: Dict[int, str]`. -/
abbrev exTenv : Nat → Option Ty
  | 0 => some (.coll .list (.cls 1))
  | 1 => some (.opt (.dict (.cls 1) (.cls 4)))
  | 2 => some (.coll .list (.coll .list (.cls 1)))
  | 3 => some (.dict (.cls 1) (.cls 4))
  | _ => none

/-- Values of these variables. -/
abbrev exEnv : Nat → Option Val
  | 0 => some (.coll .list [.int 5, .int 6])
  | 1 => some (.dict [.int 7] [.str 0])
  | 2 => some (.coll .list [.coll .list [.int 5], .coll .list []])
  | 3 => some (.dict [.int 7] [.str 0])
  | _ => none

theorem exEnvOk : EnvOk exSub exTenv exEnv := by
  have hint : ∀ n, Has exSub (.int n) (.cls 1) := fun n => .cls (.inl rfl)
  have hstr : ∀ n, Has exSub (.str n) (.cls 4) := fun n => .cls (.inl rfl)
  have hd : Has exSub (.dict [.int 7] [.str 0]) (.dict (.cls 1) (.cls 4)) :=
    .dict (fun x hx => by simp only [List.mem_singleton] at hx; subst hx; exact hint 7)
      (fun x hx => by simp only [List.mem_singleton] at hx; subst hx; exact hstr 0)
  intro x t v ht hv
  match x, ht, hv with
  | 0, ht, hv =>
    cases ht; cases hv
    refine .coll (fun x hx => ?_)
    simp only [List.mem_cons, List.not_mem_nil, or_false] at hx
    rcases hx with rfl | rfl <;> exact hint _
  | 1, ht, hv => cases ht; cases hv; exact .some hd
  | 2, ht, hv =>
    cases ht; cases hv
    refine .coll (fun x hx => ?_)
    simp only [List.mem_cons, List.not_mem_nil, or_false] at hx
    rcases hx with rfl | rfl
    · exact .coll (fun x hx => by simp only [List.mem_singleton] at hx; subst hx; exact hint 5)
    · exact .coll (fun x hx => by cases hx)
  | 3, ht, hv => cases ht; cases hv; exact hd
  | _ + 4, ht, _ => cases ht

/-- A value of a class that is not a superclass of its own has not that class as its type. -/
theorem not_has_cls {sub : Nat → Nat → Prop} {v : Val} {c : Nat} (h : ¬ sub (clsOf v) c) :
    ¬ Has sub v (.cls c) := fun hh => h (has_cls hh)

/-- `C121_partial` covers `(x0[-1], {x3[7]: [1, None]}, enumerate(x2))` in the example. -/
example : ∃ (e : Exp) (t : Ty) (v : Val), Everywhere (Good exSub exP exW exTenv exEnv) e ∧
    typ exP exTenv e = some t ∧ eval exW exEnv e = some v ∧
    t = .tup [.cls 1, .dict (.cls 4) (.coll .list (.cls 0)), .coll .list (.tup [.cls 1, .coll .list (.cls 1)])] :=
  ⟨.tuple [.subLit (.var 0) (-1),
      .dictDisp none [.subDyn (.var 3) (.const (.int 7))] [.disp .list none [.const (.int 1), .const .none]],
      .enumerate (.var 2)], _, _,
    by simp [Everywhere, EverywhereL, Good, Plain, AnnOk, Paired, typ, exTenv], rfl, rfl, rfl⟩

/-- C121 fails for slices: the type of `x0[0:1]` is `int`. -/
theorem C121_slice_fails : ¬ StaticTypes := fun h =>
  not_has_cls (by simp [clsOf, kindC])
    (h exSub exP exW exTenv exEnv (.slice none (.var 0) 0 (some 1)) (.cls 1) (.coll .list [.int 5])
      exSound exEnvOk (by simp [Everywhere, AnnOk, Paired]) rfl rfl)

/-- The value of a slice of a list of objects of a class never has the static type of the slice,
unless the class is a superclass of `list`. -/
theorem C121_slice_never_fails {sub : Nat → Nat → Prop} {P : Prog} {W : World} {tenv : Nat → Option Ty}
    {env : Nat → Option Val} {e : Exp} {c lo : Nat} {hi : Option Nat} {ann : Option Ty} {vs : List Val} {r : Val}
    (ht : typ P tenv e = some (.coll .list (.cls c))) (hc : ¬ sub 10 c)
    (hv : eval W env e = some (.coll .list vs)) (hr : eval W env (.slice ann e lo hi) = some r) :
    ∃ t, typ P tenv (.slice ann e lo hi) = some t ∧ ¬ Has sub r t := by
  refine ⟨.cls c, by rw [typ, ht]; rfl, ?_⟩
  rw [eval, hv] at hr
  cases hr
  exact not_has_cls hc

example : typ exP exTenv (.var 0) = some (.coll .list (.cls 1)) ∧ ¬ exSub 10 1 ∧
    eval exW exEnv (.var 0) = some (.coll .list [.int 5, .int 6]) ∧
    eval exW exEnv (.slice none (.var 0) 1 none) = some (.coll .list [.int 6]) :=
  ⟨rfl, by simp, rfl, rfl⟩

/-- C121 fails for `d.get(k)` with an absent key: the type of `x3.get(8)` is `str`. -/
theorem C121_get_fails : ¬ StaticTypes := fun h =>
  not_has_cls (by simp [clsOf])
    (h exSub exP exW exTenv exEnv (.dictGet (.var 3) (.const (.int 8))) (.cls 4) .none
      exSound exEnvOk (by simp [Everywhere, AnnOk, Paired]) rfl rfl)

/-- The value of `d.get(k)` has its static type or is `None`. -/
theorem C121_get_partial {sub : Nat → Nat → Prop} {P : Prog} {W : World} {tenv : Nat → Option Ty}
    {env : Nat → Option Val} {e k : Exp} {t : Ty} {v : Val} (hs : Sound sub P W) (he : EnvOk sub tenv env)
    (hcmp : ∀ v w r, W.cmp v w = some r → ∃ b, r = .bool b)
    (hg : Everywhere (Good sub P W tenv env) e)
    (ht : typ P tenv (.dictGet e k) = some t) (hv : eval W env (.dictGet e k) = some v) :
    Has sub v (.opt t) := by
  rw [typ] at ht
  rw [eval] at hv
  obtain ⟨u, h1, h2⟩ := bind_some ht
  obtain ⟨w, h3, h4⟩ := bind_some hv
  obtain ⟨x, _, h5⟩ := bind_some h4
  have hw := C121_partial hs he hcmp hg h1 h3
  cases u with
  | dict a b =>
    cases h2
    cases hw with
    | dict hk hh =>
      rename_i ks vs
      cases h5
      cases hf : find W.same x ks vs with
      | none => exact .none
      | some r => exact .some (hh r (find_mem hf))
  | _ => cases h2

example : typ exP exTenv (.dictGet (.var 3) (.const (.int 7))) = some (.cls 4) ∧
    eval exW exEnv (.dictGet (.var 3) (.const (.int 7))) = some (.str 0) := ⟨rfl, rfl⟩

/-- C121 fails for comparisons whose method does not return a boolean. -/
theorem C121_compare_fails : ¬ StaticTypes := fun h =>
  not_has_cls (by simp [clsOf])
    (h exSub exP exW exTenv exEnv (.compare (.var 0) (.var 0)) (.cls 2) (.int 0)
      exSound exEnvOk (by simp [Everywhere, AnnOk, Paired]) rfl rfl)

/-- C122, full claim. -/
def EnumerateTypes : Prop :=
  ∀ (sub : Nat → Nat → Prop) (P : Prog) (W : World) (tenv : Nat → Option Ty) (env : Nat → Option Val)
    (e : Exp) (t : Ty) (v : Val) (vs : List Val), Sound sub P W → EnvOk sub tenv env →
    (∀ v w r, W.cmp v w = some r → ∃ b, r = .bool b) →
    Everywhere (fun e => AnnOk sub W env e ∧ Paired e) e →
    assumedTy P tenv e = some t → eval W env e = some v → elems v = some vs → ∀ x ∈ vs, Has sub x t

theorem assumedTy_iter {P : Prog} {tenv : Nat → Option Ty} {e : Exp} {t : Ty}
    (h : assumedTy P tenv e = some t) : ∃ u, typ P tenv e = some u ∧ iterTy P u = some t := by
  unfold assumedTy at h
  rw [typ] at h
  cases h1 : typ P tenv e with
  | none => rw [h1] at h; cases h
  | some u =>
    rw [h1] at h
    refine ⟨u, rfl, ?_⟩
    cases h2 : iterTy P u with
    | none => simp only [Option.bind_some, h2, Option.map_none] at h; cases h
    | some s => simp only [Option.bind_some, h2, Option.map_some] at h; rw [h]

/-- C122 for iterables without slices, `d.get(k)` and optional dictionaries. -/
theorem C122_partial {sub : Nat → Nat → Prop} {P : Prog} {W : World} {tenv : Nat → Option Ty}
    {env : Nat → Option Val} {e : Exp} {t : Ty} {v : Val} {vs : List Val}
    (hs : Sound sub P W) (he : EnvOk sub tenv env)
    (hcmp : ∀ v w r, W.cmp v w = some r → ∃ b, r = .bool b)
    (hg : Everywhere (Good sub P W tenv env) e) (ho : ∀ k w, typ P tenv e ≠ some (.opt (.dict k w)))
    (ht : assumedTy P tenv e = some t) (hv : eval W env e = some v) (hvs : elems v = some vs) :
    ∀ x ∈ vs, Has sub x t := by
  obtain ⟨u, h1, h2⟩ := assumedTy_iter ht
  exact elems_has hs (fun k w h => ho k w (by rw [h1, h])) h2 (C121_partial hs he hcmp hg h1 hv) hvs

example : Everywhere (Good exSub exP exW exTenv exEnv) (.var 2) ∧
    (∀ k w, typ exP exTenv (.var 2) ≠ some (.opt (.dict k w))) ∧
    assumedTy exP exTenv (.var 2) = some (.coll .list (.cls 1)) :=
  ⟨by simp [Everywhere, Good, Plain, AnnOk, Paired], by simp [typ, exTenv], rfl⟩

/-- A world whose comparisons return booleans. -/
abbrev exW2 : World := { exW with cmp := fun _ _ => some (.bool true) }

theorem exSound2 : Sound exSub exP exW2 :=
  ⟨exSound.refl, exSound.lub, exSound.ret, exSound.getitem, exSound.builtin, exSound.ints⟩

theorem exCmp2 : ∀ v w r, exW2.cmp v w = some r → ∃ b, r = .bool b :=
  fun _ _ _ h => by cases h; exact ⟨true, rfl⟩

/-- C122 fails for `enumerate(x2[0:1])`: the elements, which are lists, are assumed to be integers. -/
theorem C122_slice_fails : ¬ EnumerateTypes := fun h =>
  not_has_cls (by simp [clsOf, kindC])
    (h exSub exP exW2 exTenv exEnv (.slice none (.var 2) 0 (some 1)) (.cls 1)
      (.coll .list [.coll .list [.int 5]]) [.coll .list [.int 5]] exSound2 exEnvOk exCmp2
      (by simp [Everywhere, AnnOk, Paired]) rfl rfl rfl (.coll .list [.int 5]) (by simp))

/-- The assumption is false for every slice of a list of lists that has an element. -/
theorem C122_slice_never_fails {sub : Nat → Nat → Prop} {P : Prog} {W : World} {tenv : Nat → Option Ty}
    {env : Nat → Option Val} {e : Exp} {c lo : Nat} {hi : Option Nat} {ann : Option Ty} {vs xs : List Val} {r x : Val}
    (ht : typ P tenv e = some (.coll .list (.coll .list (.cls c)))) (hc : ¬ sub 10 c)
    (hv : eval W env e = some (.coll .list vs)) (hty : Has sub (.coll .list vs) (.coll .list (.coll .list (.cls c))))
    (hr : eval W env (.slice ann e lo hi) = some r) (hx : elems r = some xs) (hm : x ∈ xs) :
    ∃ t, assumedTy P tenv (.slice ann e lo hi) = some t ∧ ¬ Has sub x t := by
  refine ⟨.cls c, ?_, ?_⟩
  · unfold assumedTy
    rw [typ, typ, ht]
    rfl
  · rw [eval, hv] at hr
    cases hr
    cases hx
    have hmem : x ∈ vs := by
      unfold part at hm
      have := List.mem_of_mem_drop hm
      split at this
      · exact List.mem_of_mem_take this
      · exact this
    cases hty with
    | coll hh =>
      have := hh x hmem
      cases this with
      | coll _ => exact not_has_cls hc

example : eval exW exEnv (.slice none (.var 2) 0 (some 1)) = some (.coll .list [.coll .list [.int 5]]) ∧
    typ exP exTenv (.var 2) = some (.coll .list (.coll .list (.cls 1))) ∧ ¬ exSub 10 1 :=
  ⟨rfl, rfl, by simp⟩

/-- C122 fails for optional dictionaries: the keys of `x1: Optional[Dict[int, str]]` are assumed to be
strings. -/
theorem C122_optional_fails : ¬ EnumerateTypes := fun h =>
  not_has_cls (by simp [clsOf])
    (h exSub exP exW2 exTenv exEnv (.var 1) (.cls 4) (.dict [.int 7] [.str 0]) [.int 7]
      exSound2 exEnvOk exCmp2 (by simp [Everywhere, AnnOk, Paired]) rfl rfl rfl (.int 7) (by simp))

/-- C121 fails for `enumerate` and `ToSeq` of optional dictionaries as well. -/
theorem C121_optional_fails : ¬ StaticTypes := fun h => by
  have := h exSub exP exW exTenv exEnv (.toSeq (.var 1)) (.coll .pseq (.cls 4)) (.coll .pseq [.int 7])
      exSound exEnvOk (by simp [Everywhere, AnnOk, Paired]) rfl rfl
  cases this with
  | coll hh => exact not_has_cls (by simp [clsOf]) (hh (.int 7) (by simp))

end Nagini.ExprTypes
