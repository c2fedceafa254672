import Verif.Lemmas.MethodVars

/-!
C128: the expression for a type variable denotes the type that the variable stands for.  C129: calls that mypy accepts
meet the type preconditions.  C130: the result of a call has the type that mypy gives it.
-/
namespace Nagini.MethodVars

/-! ### C128 -/

/-- The definition found in a parameter of type `P` denotes the type that `v` stands for, for every argument. -/
def Denotes (ar : Nat → Nat) (v : Nat) (P : Ty) : Prop :=
  ∃ l, defOf v P = some l ∧ ∀ (D : Dom), D.Ok ar → ∀ (σ : Nat → D.T) (z : D.T), D.sub z (den D σ P) → evalDef D l z = σ v

/-- C128, full claim: for every type of a parameter in which the variable is a type argument. -/
def C128_claim : Prop := ∀ ar v P, WF ar P → Occurs v P → P ≠ .var v → Denotes ar v P

/-- C128, exactly: the definition is right iff the reversed position of the first occurrence leads to the variable, too. -/
theorem C128_partial {ar : Nat → Nat} {v : Nat} {P : Ty} {p : Path} (w : WF ar P) (hp : First v P p) (hne : P ≠ .var v) :
    Denotes ar v P ↔ At P p.reverse (.var v) := by
  have hpe : p ≠ [] := by
    rintro rfl
    cases hp
    exact hne rfl
  constructor
  · rintro ⟨l, hl, h⟩
    rw [defOf_first hp] at hl
    cases hl
    -- choose a class for `v` that differs from what is at the reversed position
    have key : ∀ k : Nat, let σ : Nat → (termDom (k + 1)).T := fun u => CT.app (if u = v then k else k + 1) []
        (∃ s, At P p.reverse s ∧ den (termDom (k + 1)) σ s = CT.app k []) := by
      intro k σ
      have hσ : Flat σ := fun u => ⟨_, rfl⟩
      have he := h (termDom (k + 1)) (termDom_ok ar _) σ (den _ σ P) (.inl rfl)
      have hv : σ v = CT.app k [] := by simp [σ]; rfl
      rcases eval_term hσ p.reverse P with ⟨s, h1, h2⟩ | ⟨_, h2⟩
      · exact ⟨s, h1, by rw [← h2, he, hv]⟩
      · rw [he, hv] at h2
        have h2 : CT.app k [] = CT.app (k + 1) [] := h2
        injection h2 with h3
        omega
    have huniq : ∀ t q s s', At t q s → At t q s' → s = s' := by
      intro t q s s' h1 h2
      induction h1 generalizing s' with
      | root => cases h2; rfl
      | arg ha _ ih =>
        cases h2 with
        | arg hb h2 => rw [ha] at hb; cases hb; exact ih _ h2
    obtain ⟨s, h1, h2⟩ := key 0
    cases s with
    | var u =>
      by_cases hu : u = v
      · exact hu ▸ h1
      · simp only [den, if_neg hu] at h2
        have h2 : CT.app (0 + 1) [] = CT.app 0 [] := h2
        injection h2 with h3
        omega
    | app c as =>
      obtain ⟨s', h1', h2'⟩ := key (c + 1)
      rw [← huniq _ _ _ _ h1 h1'] at h2'
      have h2' := (den_app _ _ _ _).symm.trans h2'
      have h2' : CT.app c _ = CT.app (c + 1) [] := h2'
      injection h2' with h3
      omega
  · intro h
    refine ⟨_, defOf_first hp, ?_⟩
    intro D ok σ z hz
    exact eval_at ok h w (by simpa using hpe) z hz

/-- In particular, it is right for type arguments that are not nested. -/
theorem C128_flat {ar : Nat → Nat} {v c : Nat} {as : List Ty} {i : Nat} (w : WF ar (.app c as)) (ha : as[i]? = some (.var v))
    (hmin : ∀ (j : Nat) (b : Ty), j < i → as[j]? = some b → ¬ Occurs v b) : Denotes ar v (.app c as) :=
  (C128_partial w (.arg ha .root hmin) (by simp)).2 (.arg ha .root)

/-- A parameter whose type is the variable: the variable stands for the type of the argument itself. -/
theorem C128_bare {v : Nat} (D : Dom) (z : D.T) : defOf v (.var v) = some [] ∧ evalDef D [] z = z :=
  ⟨by simp [defOf], rfl⟩

/-- `Dict[int, List[T]]` (`dict` is 1, `list` 2, `int` 3). -/
abbrev dictListT : Ty := .app 1 [.app 3 [], .app 2 [.var 0]]

/-- Numbers of type arguments of these classes. -/
abbrev ar : Nat → Nat := fun c => if c = 1 then 2 else if c = 2 then 1 else 0

theorem dictListT_wf : WF ar dictListT := by
  refine .app rfl ?_
  intro a ha
  simp at ha
  rcases ha with rfl | rfl
  · exact .app rfl (by simp)
  · refine .app rfl ?_
    intro a ha
    simp at ha
    subst ha
    exact .var

theorem no_var_int {v} : ¬ Occurs v (.app 3 []) := by
  rintro ⟨p, hp⟩
  cases hp with
  | arg h _ => simp at h

theorem dictListT_first : First 0 dictListT [(1, 1), (2, 0)] := by
  refine .arg (a := .app 2 [.var 0]) rfl (.arg (a := .var 0) rfl .root ?_) ?_
  · intro j b hj; omega
  · intro j b hj hb
    have : j = 0 := by omega
    subst this
    simp at hb; subst hb
    exact no_var_int

/-- C128 fails for nested type arguments: for `Dict[int, List[T]]`, T is `dict_arg(list_arg(typeof(x), 0), 1)`. -/
theorem C128_nested_fails : ¬ C128_claim := by
  intro h
  have h1 := (C128_partial dictListT_wf dictListT_first (by simp)).1 (h ar 0 dictListT dictListT_wf ⟨_, dictListT_first.at⟩ (by simp))
  simp at h1
  cases h1

/-- Cases that meet the hypotheses: `Dict[int, T]` and `List[List[T]]`. -/
example : Denotes ar 0 (.app 1 [.app 3 [], .var 0]) := by
  refine C128_flat (i := 1) (.app rfl ?_) rfl ?_
  · intro a ha
    simp at ha
    rcases ha with rfl | rfl
    · exact .app rfl (by simp)
    · exact .var
  · intro j b hj hb
    have : j = 0 := by omega
    subst this
    simp at hb; subst hb
    exact no_var_int

example : Denotes ar 0 (.app 2 [.app 2 [.var 0]]) := by
  refine (C128_partial (p := [(2, 0), (2, 0)]) ?_ ?_ (by simp)).2 ?_
  · refine .app rfl ?_
    intro a ha; simp at ha; subst ha
    refine .app rfl ?_
    intro a ha; simp at ha; subst ha
    exact .var
  · exact .arg rfl (.arg rfl .root (by intro j _ h; omega)) (by intro j _ h; omega)
  · exact .arg rfl (.arg rfl .root)

/-! ### C129 -/

/-- C129, full claim: calls that are well-typed for some types of the variables are accepted. -/
def C129_claim : Prop := ∀ ar (m : Meth), MethOk ar m → ∀ (D : Dom), D.Ok ar → ∀ (as : List D.T), as.length = m.params.length →
  ∀ σ, WellTyped D m as σ → Accepted D m as

/-- The variable is determined by the first parameter that mentions it: as a type argument, such that the reversed
position of the occurrence leads to the variable, too. -/
def Exact (m : Meth) (v : Nat) : Prop := ∃ (k : Nat) (P : Ty) (p : Path), m.params[k]? = some P ∧ First v P p ∧ P ≠ .var v ∧
  At P p.reverse (.var v) ∧ ∀ (j : Nat) (Q : Ty), j < k → m.params[j]? = some Q → ¬ Occurs v Q

/-- The variable is the type of one parameter and occurs in no other. -/
def Bare (m : Meth) (v : Nat) : Prop := ∃ (k : Nat), m.params[k]? = some (.var v) ∧
  ∀ (j : Nat) (Q : Ty), j ≠ k → m.params[j]? = some Q → ¬ Occurs v Q

/-- The value of a variable is found in the first parameter that mentions it. -/
theorem bindVar_first {D : Dom} {v : Nat} {P p} : ∀ (params : List Ty) (as : List D.T) (k : Nat) (a : D.T),
    params[k]? = some P → as[k]? = some a → First v P p →
    (∀ (j : Nat) (Q : Ty), j < k → params[j]? = some Q → ¬ Occurs v Q) →
    bindVar D v params as = some (evalDef D p.reverse a)
  | [], _, k, _, h, _, _, _ => by simp at h
  | Q :: ps, [], k, _, _, h, _, _ => by simp at h
  | Q :: ps, b :: bs, 0, a, hP, ha, hf, _ => by
    simp at hP ha
    subst hP ha
    simp [bindVar, defOf_first hf]
  | Q :: ps, b :: bs, k + 1, a, hP, ha, hf, hmin => by
    simp only [bindVar, defOf_none (hmin 0 Q (by omega) rfl)]
    exact bindVar_first ps bs k a (by simpa using hP) (by simpa using ha) hf
      (fun j R hj hR => hmin (j + 1) R (by omega) (by simpa using hR))

theorem bind_exact {ar m} (hm : MethOk ar m) {D : Dom} (ok : D.Ok ar) {as : List D.T} (hl : as.length = m.params.length) {σ}
    (hw : WellTyped D m as σ) {v} (he : Exact m v) : bind D m as v = σ v := by
  obtain ⟨k, P, p, hP, hf, hne, hrev, hmin⟩ := he
  have hk : k < as.length := by rw [hl]; exact (List.getElem?_eq_some_iff.1 hP).1
  have ha : as[k]? = some as[k] := List.getElem?_eq_getElem hk
  have hpe : p ≠ [] := by rintro rfl; cases hf; exact hne rfl
  rw [bind, bindVar_first m.params as k _ hP ha hf hmin, Option.getD_some]
  exact eval_at ok hrev (hm.wf P (List.mem_of_getElem? hP)) (by simpa using hpe) _ (hw.args k P _ hP ha)

theorem bind_bare {m : Meth} {D : Dom} {as : List D.T} {v k a} (hP : m.params[k]? = some (.var v)) (ha : as[k]? = some a)
    (hmin : ∀ (j : Nat) (Q : Ty), j ≠ k → m.params[j]? = some Q → ¬ Occurs v Q) : bind D m as v = a := by
  rw [bind, bindVar_first m.params as k a hP ha .root (fun j Q hj => hmin j Q (by omega)), Option.getD_some]
  rfl

/-- C129 for methods whose variables are determined exactly or occur once. -/
theorem C129_partial {ar : Nat → Nat} {m : Meth} (hm : MethOk ar m)
    (g : ∀ v, (∃ P ∈ m.params, Occurs v P) → Exact m v ∨ Bare m v) {D : Dom} (ok : D.Ok ar) {as : List D.T}
    (hl : as.length = m.params.length) {σ : Nat → D.T} (hw : WellTyped D m as σ) : Accepted D m as := by
  constructor
  · intro i P a hP ha
    by_cases hb : ∃ v, P = .var v ∧ Bare m v
    · obtain ⟨v, rfl, k, hk, hmin⟩ := hb
      have hik : i = k := Classical.byContradiction fun h => hmin i _ h hP ⟨[], .root⟩
      subst hik
      show D.sub a (bind D m as v)
      rw [bind_bare hP ha hmin]
      exact ok.refl a
    · have : den D (bind D m as) P = den D σ P := by
        apply den_congr
        intro v hv
        rcases g v ⟨P, List.mem_of_getElem? hP, hv⟩ with he | ⟨k, hk, hmin⟩
        · exact bind_exact hm ok hl hw he
        · by_cases hik : i = k
          · subst hik
            rw [hP] at hk
            cases hk
            exact absurd ⟨v, rfl, i, hP, hmin⟩ hb
          · exact absurd hv (hmin i P hik hP)
      rw [this]
      exact hw.args i P a hP ha
  · intro v b hb
    have hclosed : den D (bind D m as) b = den D σ b := den_congr D b (fun w hw => absurd hw (hm.closed v b hb w))
    rw [hclosed]
    rcases g v (hm.used v b hb) with he | ⟨k, hk, hmin⟩
    · rw [bind_exact hm ok hl hw he]
      exact hw.bounds v b hb
    · have hkl : k < as.length := by rw [hl]; exact (List.getElem?_eq_some_iff.1 hk).1
      have ha : as[k]? = some as[k] := List.getElem?_eq_getElem hkl
      rw [bind_bare hk ha hmin]
      exact ok.trans _ _ _ (hw.args k _ _ hk ha) (hw.bounds v b hb)

/-- `def f(x: T, y: T)`. -/
abbrev two : Meth := ⟨[.var 0, .var 0], [(0, .app 0 [])], .var 0⟩

theorem two_ok : MethOk ar two where
  wf P hP := by simp at hP; subst hP; exact .var
  closed v b hb w := by
    simp at hb
    obtain ⟨rfl, rfl⟩ := hb
    rintro ⟨p, hp⟩
    cases hp with
    | arg h _ => simp at h
  used v b hb := by
    simp at hb
    exact ⟨.var 0, by simp, hb.1 ▸ ⟨[], .root⟩⟩

/-- C129 fails if a variable is the type of two parameters: `f(1, "a")` (T is `object`) is rejected. -/
theorem C129_two_fails : ¬ C129_claim := by
  intro h
  have := (h ar two two_ok (termDom 0) (termDom_ok ar 0) [CT.app 3 [], CT.app 4 []] rfl (fun _ => CT.app 0 [])
    ⟨by
      intro i P a hP ha
      have : P = .var 0 := by rcases i with _ | _ | i <;> simp at hP <;> exact hP.symm
      subst this
      exact .inr rfl, by
      intro v b hb
      simp at hb
      obtain ⟨rfl, rfl⟩ := hb
      exact .inl rfl⟩).1 1 (.var 0) (CT.app 4 []) rfl rfl
  have hb : den (termDom 0) (bind (termDom 0) two [CT.app 3 [], CT.app 4 []]) (.var 0) = CT.app 3 [] := by
    simp [den, bind, bindVar, defOf, evalDef]
    rfl
  rw [hb] at this
  rcases this with h | h
  · injection h with h _; omega
  · injection h with h _; omega

/-- `def f(x: Dict[int, List[T]])`. -/
abbrev nested : Meth := ⟨[dictListT], [(0, .app 0 [])], .var 0⟩

theorem nested_ok : MethOk ar nested where
  wf P hP := by simp at hP; subst hP; exact dictListT_wf
  closed := two_ok.closed
  used v b hb := by
    simp at hb
    exact ⟨dictListT, by simp, hb.1 ▸ ⟨_, dictListT_first.at⟩⟩

/-- C129 fails for nested type arguments: no call of `f(x: Dict[int, List[T]])` is accepted. -/
theorem C129_nested_fails : ¬ C129_claim := by
  intro h
  have := (h ar nested nested_ok (termDom 9) (termDom_ok ar 9) [CT.app 1 [CT.app 3 [], CT.app 2 [CT.app 4 []]]] rfl
    (fun _ => CT.app 4 [])
    ⟨by
      intro i P a hP ha
      rcases i with _ | i
      · have hP : dictListT = P := by simpa using hP
        have ha : CT.app 1 [CT.app 3 [], CT.app 2 [CT.app 4 []]] = a := by injection ha
        subst hP ha
        exact .inl rfl
      · simp at hP, by
      intro v b hb
      simp at hb
      obtain ⟨rfl, rfl⟩ := hb
      exact .inr rfl⟩).1 0 dictListT _ rfl rfl
  have hb : bind (termDom 9) nested [CT.app 1 [CT.app 3 [], CT.app 2 [CT.app 4 []]]] 0 = CT.app 9 [] := by
    have hd : defOf 0 dictListT = some [(2, 0), (1, 1)] := by simpa using defOf_first dictListT_first
    simp only [bind, bindVar, hd, Option.getD_some]
    rfl
  simp only [den, denL, hb] at this
  rcases this with h | h
  · have h : CT.app 1 [CT.app 3 [], CT.app 2 [CT.app 4 []]] = CT.app 1 [CT.app 3 [], CT.app 2 [CT.app 9 []]] := h
    simp at h
  · have h : CT.app 1 [CT.app 3 [], CT.app 2 [CT.app 9 []]] = CT.app 0 [] := h
    simp at h

/-- `def f(v: V, l: List[T], t: T)` with `V` bounded by `int`: a case that meets the hypotheses of `C129_partial`. -/
abbrev three : Meth := ⟨[.var 1, .app 2 [.var 0], .var 0], [(0, .app 0 []), (1, .app 3 [])], .app 2 [.var 0]⟩

theorem not_occurs_var {v w} (h : v ≠ w) : ¬ Occurs v (.var w) := by
  rintro ⟨p, hp⟩
  cases hp
  exact h rfl

theorem not_occurs_list {v w} (h : v ≠ w) : ¬ Occurs v (.app 2 [.var w]) := by
  rintro ⟨p, hp⟩
  cases hp with
  | @arg _ _ p _ i a ha hp =>
    rcases i with _ | i <;> simp at ha
    subst ha
    exact not_occurs_var h ⟨p, hp⟩

theorem three_ok : MethOk ar three where
  wf P hP := by
    simp at hP
    rcases hP with rfl | rfl | rfl
    · exact .var
    · refine .app rfl ?_
      intro a ha; simp at ha; subst ha; exact .var
    · exact .var
  closed v b hb w := by
    simp at hb
    rintro ⟨p, hp⟩
    rcases hb with ⟨rfl, rfl⟩ | ⟨rfl, rfl⟩ <;> cases hp <;> rename_i h _ <;> simp at h
  used v b hb := by
    simp at hb
    rcases hb with ⟨rfl, rfl⟩ | ⟨rfl, rfl⟩
    · exact ⟨.var 0, by simp, [], .root⟩
    · exact ⟨.var 1, by simp, [], .root⟩

theorem three_exact : Exact three 0 :=
  ⟨1, .app 2 [.var 0], [(2, 0)], rfl, .arg rfl .root (by intro j _ h; omega), by simp, .arg rfl .root, by
    intro j Q hj hQ
    have : j = 0 := by omega
    subst this
    simp at hQ; subst hQ
    exact not_occurs_var (by omega)⟩

theorem three_bare : Bare three 1 :=
  ⟨0, rfl, by
    intro j Q hj hQ
    rcases j with _ | _ | _ | j <;> simp at hQ
    · exact absurd rfl hj
    · subst hQ; exact not_occurs_list (by omega)
    · subst hQ; exact not_occurs_var (by omega)⟩

theorem three_guard : ∀ v, (∃ P ∈ three.params, Occurs v P) → Exact three v ∨ Bare three v := by
  rintro v ⟨P, hP, hv⟩
  simp at hP
  by_cases h0 : v = 0
  · exact .inl (h0 ▸ three_exact)
  · by_cases h1 : v = 1
    · exact .inr (h1 ▸ three_bare)
    · rcases hP with rfl | rfl | rfl
      · exact absurd hv (not_occurs_var h1)
      · exact absurd hv (not_occurs_list h0)
      · exact absurd hv (not_occurs_var h0)

/-- The call `f(5, l, t)` with `l: List[str]` and `t: str` (`str` is 4) is well-typed and accepted. -/
theorem three_typed : WellTyped (termDom 9) three [CT.app 3 [], CT.app 2 [CT.app 4 []], CT.app 4 []]
    (fun v => CT.app (if v = 0 then 4 else 3) []) where
  args i P a hP ha := by
    rcases i with _ | _ | _ | i <;> simp at hP <;> subst hP <;> injection ha with ha <;> subst ha <;> exact .inl rfl
  bounds v b hb := by
    simp at hb
    rcases hb with ⟨rfl, rfl⟩ | ⟨rfl, rfl⟩
    · exact .inr rfl
    · exact .inl rfl

example : Accepted (termDom 9) three [CT.app 3 [], CT.app 2 [CT.app 4 []], CT.app 4 []] :=
  C129_partial three_ok three_guard (termDom_ok ar 9) rfl three_typed

/-! ### C130 -/

/-- C130, full claim: the result of a well-typed call has the type that mypy gives it. -/
def C130_claim : Prop := ∀ ar (m : Meth), MethOk ar m → ∀ (D : Dom), D.Ok ar → ∀ (as : List D.T), as.length = m.params.length →
  ∀ σ, WellTyped D m as σ → ∀ r, ResultType D m as r → D.sub r (den D σ m.res)

/-- C130 for result types whose variables are determined exactly, and for result types that are a variable which is the
type of a parameter. -/
theorem C130_partial {ar : Nat → Nat} {m : Meth} (hm : MethOk ar m)
    (g : (∀ v, Occurs v m.res → Exact m v) ∨ ∃ v, m.res = .var v ∧ Bare m v) {D : Dom} (ok : D.Ok ar) {as : List D.T}
    (hl : as.length = m.params.length) {σ : Nat → D.T} (hw : WellTyped D m as σ) {r : D.T} (hr : ResultType D m as r) :
    D.sub r (den D σ m.res) := by
  rcases g with g | ⟨v, hv, k, hk, hmin⟩
  · have : den D (bind D m as) m.res = den D σ m.res := den_congr D _ (fun v hv => bind_exact hm ok hl hw (g v hv))
    rw [← this]
    exact hr
  · have hkl : k < as.length := by rw [hl]; exact (List.getElem?_eq_some_iff.1 hk).1
    have ha : as[k]? = some as[k] := List.getElem?_eq_getElem hkl
    have hr' : D.sub r (den D (bind D m as) m.res) := hr
    rw [hv] at hr' ⊢
    have hb : den D (bind D m as) (.var v) = as[k] := bind_bare hk ha hmin
    rw [hb] at hr'
    exact ok.trans _ _ _ hr' (hw.args k _ _ hk ha)

/-- `def f(x: T) -> List[T]`. -/
abbrev wrap : Meth := ⟨[.var 0], [(0, .app 0 [])], .app 2 [.var 0]⟩

theorem wrap_ok : MethOk ar wrap where
  wf P hP := by simp at hP; subst hP; exact .var
  closed := two_ok.closed
  used v b hb := by
    simp at hb
    exact ⟨.var 0, by simp, hb.1 ▸ ⟨[], .root⟩⟩

/-- C130 fails for variables determined by the type of an argument: `l: List[object] = f(1)` gets a `List[int]`. -/
theorem C130_wrap_fails : ¬ C130_claim := by
  intro h
  have hb : den (termDom 0) (bind (termDom 0) wrap [CT.app 3 []]) (.app 2 [.var 0]) = CT.app 2 [CT.app 3 []] := by
    simp [den, denL, bind, bindVar, defOf, evalDef]
    rfl
  have := h ar wrap wrap_ok (termDom 0) (termDom_ok ar 0) [CT.app 3 []] rfl (fun _ => CT.app 0 [])
    ⟨by
      intro i P a hP ha
      rcases i with _ | i <;> simp at hP
      subst hP
      exact .inr rfl, by
      intro v b hb
      simp at hb
      obtain ⟨rfl, rfl⟩ := hb
      exact .inl rfl⟩ (CT.app 2 [CT.app 3 []]) (.inl hb.symm)
  rcases this with h | h
  · have h : CT.app 2 [CT.app 3 []] = CT.app 2 [CT.app 0 []] := h
    simp at h
  · have h : CT.app 2 [CT.app 0 []] = CT.app 0 [] := h
    simp at h

/-- A case that meets the hypotheses: the result of the call above is a `List[str]`. -/
example : ResultType (termDom 9) three [CT.app 3 [], CT.app 2 [CT.app 4 []], CT.app 4 []] (CT.app 2 [CT.app 4 []]) ∧
    (termDom 9).sub (CT.app 2 [CT.app 4 []]) (den (termDom 9) (fun v => CT.app (if v = 0 then 4 else 3) []) three.res) := by
  have hr : ResultType (termDom 9) three [CT.app 3 [], CT.app 2 [CT.app 4 []], CT.app 4 []] (CT.app 2 [CT.app 4 []]) := by
    refine .inl ?_
    simp [den, denL, bind, bindVar, defOf, defArgs, evalDef]
    rfl
  refine ⟨hr, C130_partial three_ok (.inl ?_) (termDom_ok ar 9) rfl three_typed hr⟩
  intro v hv
  by_cases h0 : v = 0
  · exact h0 ▸ three_exact
  · exact absurd hv (not_occurs_list h0)

end Nagini.MethodVars
