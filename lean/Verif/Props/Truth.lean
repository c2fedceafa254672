import Verif.Lemmas.Truth

/-!
C101: truth values of conditions.  C102: conversions between references, integers and booleans.
-/
set_option linter.unusedVariables false
namespace Nagini.Truth

/-- An expression that is translated, the object it stands for, and the static type of the condition. -/
structure Cond (I : Interp) (ρ : Env) (e : E) (t : STy) (v : Val) : Prop where
  env : ∀ x, (ρ.ref x).ok
  wt : e.wt
  pure : e.isPure = true
  types : t.ok
  defined : ∃ r, eval I ρ e = some r
  value : eval I ρ (toRef e) = some (.ref v)
  hasType : HasType v t

/-- **C101** (full claim): the contracts of the `__bool__` functions admit that every condition whose preconditions
hold has the truth value Python gives it. -/
def C101 : Prop :=
  ∀ W : World, ∃ I : Interp, Contracts W I ∧ ∀ ρ e t v x, Cond I ρ e t v →
    eval I ρ (toBool e (some t)) = some x → x = .bool (pyTruth W v)

theorem excluded_iff (c : Cls) : excluded c = false ↔ ¬ NumOrMutable c := by
  simp [excluded, NumOrMutable, sub, and_assoc]

/-- Objects that are false in Python although the function used for them says they are true. -/
def Misjudged (W : World) (t : STy) (v : Val) : Prop :=
  definer (pick v t) = .object ∧ v ≠ .none ∧ ¬ NumOrMutable (typeOf v) ∧ pyTruth W v = false

theorem bool_cond (t : STy) (v : Val) (ht : t = .cls .bool) (h : HasType v t) (hv : v.ok) : ∃ b, v = .bool b := by
  subst ht
  exact bool_iff v hv h

/-- Conditions on all other objects can have Python's truth values, in one interpretation. -/
theorem C101_partial (W : World) : ∃ I : Interp, Contracts W I ∧ ∀ ρ e t v x, Cond I ρ e t v → ¬ Misjudged W t v →
    eval I ρ (toBool e (some t)) = some x → x = .bool (pyTruth W v) := by
  refine ⟨pyInterp W, pyInterp_contracts W, ?_⟩
  intro ρ e t v x hc hm hx
  obtain ⟨r, hr⟩ := hc.defined
  have hv : v.ok := eval_ok _ ρ hc.env _ _ hc.value
  rcases toBool_eval W (pyInterp W) ρ hc.env e hc.wt hc.pure r hr v hc.value t with ⟨b, rfl, h⟩ | ⟨h1, h2⟩ | h
  · rw [h] at hx
    rw [← Option.some.inj hx, pyTruth_bool]
  · obtain ⟨b, hb⟩ := bool_cond t v h2 hc.hasType hv
    exact absurd hb (h1 b)
  · rw [h] at hx
    split at hx
    · rename_i had
      rw [← Option.some.inj hx]
      congr 1
      by_cases hf : definer (pick v t) = .float
      · rw [hf]
        by_cases hn : v = .none
        · subst hn; rfl
        · have hs : sub (typeOf v) .float = true := by
            rcases pick_sub v t hc.hasType with h' | h'
            · exact absurd h' hn
            · rw [← hf]; exact sub_trans _ _ _ h' (definer_mem _)
          exact (pyTruth_num W v hv .float (by simp) hs).symm
      · by_cases ho : definer (pick v t) = .object
        · rw [ho]
          by_cases hcond : v ≠ .none ∧ excluded (typeOf v) = false
          · have : pyTruth W v = true := by
              cases hp : pyTruth W v with
              | true => rfl
              | false => exact absurd ⟨ho, hcond.1, (excluded_iff _).1 hcond.2, hp⟩ hm
            rw [this]
            simp only [pyInterp, if_pos hcond]
          · simp only [pyInterp, if_neg hcond]
        · exact truth_of_definer W _ (pyInterp_contracts W) v hv (pick v t) (pick_sub v t hc.hasType) had hf
            (fun h => absurd h ho)
    · simp at hx

/-- The exception is exact: conditions on misjudged objects are true under every interpretation. -/
theorem C101_misjudged (W : World) (I : Interp) (hI : Contracts W I) (ρ : Env) (e : E) (t : STy) (v : Val)
    (hc : Cond I ρ e t v) (hm : Misjudged W t v) :
    eval I ρ (toBool e (some t)) = some (.bool true) ∧ pyTruth W v = false := by
  obtain ⟨r, hr⟩ := hc.defined
  have hv : v.ok := eval_ok _ ρ hc.env _ _ hc.value
  refine ⟨?_, hm.2.2.2⟩
  rcases toBool_eval W I ρ hc.env e hc.wt hc.pure r hr v hc.value t with ⟨b, rfl, h⟩ | ⟨h1, h2⟩ | h
  · exact absurd ⟨.float, by simp, by simp [typeOf, mro]⟩ hm.2.2.1
  · obtain ⟨b, hb⟩ := bool_cond t v h2 hc.hasType hv
    exact absurd hb (h1 b)
  · rw [h, hm.1, if_pos (show admits .object v = true from rfl), hI.object v hm.2.1 ((excluded_iff _).2 hm.2.2.1)]

/-- Where the function used is neither that of `object` nor that of `float`, conditions have Python's truth values
under every interpretation. -/
theorem C101_determined_partial (W : World) (I : Interp) (hI : Contracts W I) (ρ : Env) (e : E) (t : STy) (v : Val)
    (x : VVal) (hc : Cond I ρ e t v) (h1 : definer (pick v t) ≠ .float)
    (h2 : definer (pick v t) = .object → v = .none) (hx : eval I ρ (toBool e (some t)) = some x) :
    x = .bool (pyTruth W v) := by
  obtain ⟨r, hr⟩ := hc.defined
  have hv : v.ok := eval_ok _ ρ hc.env _ _ hc.value
  rcases toBool_eval W I ρ hc.env e hc.wt hc.pure r hr v hc.value t with ⟨b, rfl, h⟩ | ⟨h1, h2⟩ | h
  · rw [h] at hx
    rw [← Option.some.inj hx, pyTruth_bool]
  · obtain ⟨b, hb⟩ := bool_cond t v h2 hc.hasType hv
    exact absurd hb (h1 b)
  · rw [h] at hx
    split at hx
    · rename_i had
      rw [← Option.some.inj hx]
      congr 1
      exact truth_of_definer W I hI v hv (pick v t) (pick_sub v t hc.hasType) had h1 h2
    · simp at hx

/-- Conditions can be verified: preconditions fail at most for `None` where a user-defined `__bool__` is called, and
for ranges. -/
theorem C101_defined (W : World) (I : Interp) (hI : Contracts W I) (ρ : Env) (e : E) (t : STy) (v : Val)
    (hc : Cond I ρ e t v) (h1 : definer (pick v t) ≠ .range) (h2 : v = .none → builtin (definer (pick v t)) = true) :
    ∃ x, eval I ρ (toBool e (some t)) = some x := by
  obtain ⟨r, hr⟩ := hc.defined
  have hv : v.ok := eval_ok _ ρ hc.env _ _ hc.value
  rcases toBool_eval W I ρ hc.env e hc.wt hc.pure r hr v hc.value t with ⟨b, rfl, h⟩ | ⟨h1, h2⟩ | h
  · exact ⟨_, h⟩
  · obtain ⟨b, hb⟩ := bool_cond t v h2 hc.hasType hv
    exact absurd hb (h1 b)
  · have had : admits (definer (pick v t)) v = true := by
      by_cases hn : v = .none
      · subst hn
        have hb := h2 rfl
        cases hD : definer (pick .none t) <;> rw [hD] at hb h1 <;> first | rfl | exact absurd rfl h1 | simp [builtin] at hb
      · have hs : sub (typeOf v) (definer (pick v t)) = true := by
          rcases pick_sub v t hc.hasType with h' | h'
          · exact absurd h' hn
          · exact sub_trans _ _ _ h' (definer_mem _)
        cases hD : definer (pick v t) <;> rw [hD] at hs h1 <;> first | rfl | exact absurd rfl h1 | simp [admits, hs]
    rw [h, if_pos had]
    exact ⟨_, rfl⟩

/-- `t: Tuple[int, ...]` and the empty tuple. -/
abbrev emptyTuple : Val := .obj 0 .tuple 0

abbrev world0 : World := ⟨fun _ _ => false, fun _ _ => 0⟩
abbrev envOf (v : Val) : Env := ⟨fun _ => v, fun _ => 0, fun _ => true, fun _ => true⟩

/-- **C101 fails**: the empty tuple is true. -/
theorem C101_fails : ¬ C101 := by
  intro h
  obtain ⟨I, hI, h⟩ := h world0
  have hc : Cond I (envOf emptyTuple) (.refV 0) (.cls .tuple) emptyTuple :=
    ⟨fun _ => ⟨by decide, by decide, by decide, by decide⟩, trivial, rfl, rfl, ⟨_, rfl⟩, rfl, rfl⟩
  have hm : Misjudged world0 (.cls .tuple) emptyTuple := ⟨by decide, by decide, (excluded_iff _).1 (by decide), by decide⟩
  have h1 := C101_misjudged world0 I hI _ _ _ _ hc hm
  have h2 := h _ _ _ _ _ hc h1.1
  rw [h1.2] at h2
  simp at h2

/-- Also misjudged: `""` of static type `object`; `""` of static type `Optional[Union[int, str]]` (but not of
`Union[int, str]`); an object whose class defines `__len__`, or whose class defines `__bool__` and is used as an
`object`. -/
theorem C101_more_fails :
    Misjudged world0 (.cls .object) (.obj 1 .str 0) ∧
    Misjudged world0 (.optUnion .int [.str]) (.obj 1 .str 0) ∧
    ¬ Misjudged world0 (.union .int [.str]) (.obj 1 .str 0) ∧
    (let c := Cls.user 5 ⟨none, true⟩ .object
     accepted c = true ∧ Misjudged world0 (.cls c) (.obj 1 c 0)) ∧
    (let c := Cls.user 5 ⟨some true, false⟩ .object
     accepted c = true ∧ Misjudged world0 (.cls .object) (.obj 1 c 0) ∧ ¬ Misjudged world0 (.cls c) (.obj 1 c 0)) := by
  refine ⟨⟨by decide, by decide, (excluded_iff _).1 (by decide), by decide⟩, ⟨by decide, by decide, (excluded_iff _).1 (by decide), by decide⟩,
    fun h => absurd h.1 (by decide), ⟨by decide, ⟨by decide, by decide, (excluded_iff _).1 (by decide), by decide⟩⟩,
    ⟨by decide, ⟨by decide, by decide, (excluded_iff _).1 (by decide), by decide⟩, fun h => absurd h.1 (by decide)⟩⟩

/-- Non-vacuity: an integer expression as the condition, an empty string in a union, and a user-defined `__bool__`. -/
example : Cond (pyInterp world0) (envOf .none) (.add (.intV 0) (.intV 1)) (.cls .int) (.int 0) ∧
    ¬ Misjudged world0 (.cls .int) (.int 0) ∧
    eval (pyInterp world0) (envOf .none) (toBool (.add (.intV 0) (.intV 1)) (some (.cls .int))) = some (.bool false) := by
  exact ⟨⟨fun _ => trivial, ⟨rfl, rfl, trivial, trivial⟩, rfl, rfl, ⟨_, rfl⟩, rfl, rfl⟩,
    fun h => absurd h.1 (by decide), by decide⟩

example : Cond (pyInterp world0) (envOf (.obj 1 .str 0)) (.refV 0) (.union .bool [.int, .str]) (.obj 1 .str 0) ∧
    definer (pick (.obj 1 .str 0) (.union .bool [.int, .str])) = .str ∧
    eval (pyInterp world0) (envOf (.obj 1 .str 0)) (toBool (.refV 0) (some (.union .bool [.int, .str]))) =
      some (.bool false) := by
  refine ⟨⟨fun _ => ⟨by decide, by decide, by decide, by decide⟩, trivial, rfl, ⟨by decide, by decide⟩, ⟨_, rfl⟩, rfl,
    ⟨.str, by simp, by decide⟩⟩, by decide, by decide⟩

/-! C102 -/

/-- **C102**: converting an expression to a reference gives an equal object, and the same object unless the expression
is an unboxed integer; converting it to an integer gives its number, and converting a boolean to a boolean its
truth value. -/
theorem C102_values (I : Interp) (ρ : Env) (hρ : ∀ x, (ρ.ref x).ok) (e : E) (hw : e.wt) (hp : e.isPure = true)
    (r : VVal) (h : eval I ρ e = some r) :
    (∃ v, eval I ρ (toRef e) = some (.ref v) ∧ PyEq v r.obj ∧ ((∀ x, e ≠ .unboxI x) → v = r.obj)) ∧
    (sub (typeOf r.obj) .int = true → eval I ρ (toInt e) = some (.int (payload r.obj))) ∧
    (sub (typeOf r.obj) .bool = true → ∃ b, r.obj = .bool b ∧ eval I ρ (toBool e none) = some (.bool b)) := by
  have hok := eval_ok I ρ hρ
  have ht := eval_typ I ρ e r hw h
  refine ⟨toRef_eval I ρ e hw hp r h (fun x v _ hx => hok _ _ hx), ?_, ?_⟩
  · intro hs
    have refInt : ∀ (e : E) (v : Val), eval I ρ e = some (.ref v) → sub (typeOf v) .int = true →
        eval I ρ (refToInt e) = some (.int (payload v)) := by
      intro e v h hs
      by_cases hx : ∃ x, e = .boxI x
      · obtain ⟨x, rfl⟩ := hx
        rw [eval] at h
        split at h
        · rename_i i hi
          simp only [Option.some.injEq, VVal.ref.injEq] at h
          subst h
          exact hi
        · simp at h
      · have he : refToInt e = .unboxI e := by
          cases e <;> first | rfl | exact absurd ⟨_, rfl⟩ hx
        rw [he, eval, h]
        simp only [hs, if_true]
    rw [toInt, isPure'_eq, hp]
    cases r with
    | ref v => rw [← ht]; exact refInt e v h hs
    | int i => rw [← ht]; exact h
    | bool b =>
      rw [← ht]
      have hr : toRef e = boolToRef e := by rw [toRef, isPure'_eq, hp, ← ht]; rfl
      have h1 : eval I ρ (toRef e) = some (.ref (.bool b)) := by
        rw [hr]; exact boolToRef_eval I ρ e b h (fun x v _ hx => hok _ _ hx)
      exact refInt (toRef e) _ h1 hs
  · intro hs
    obtain ⟨b, hb⟩ := bool_iff r.obj (hok _ _ h) hs
    refine ⟨b, hb, ?_⟩
    rw [toBool, isPure'_eq, hp]
    cases r with
    | ref v =>
      rw [← ht]
      have hb' : v = .bool b := hb
      subst hb'
      by_cases hx : ∃ x, e = .boxB x
      · obtain ⟨x, rfl⟩ := hx
        rw [eval] at h
        split at h
        · rename_i b' hb'
          simp only [Option.some.injEq, VVal.ref.injEq, Val.bool.injEq] at h
          subst h
          exact hb'
        · simp at h
      · have he : refToBool e none = .unboxB e := by
          cases e <;> first | rfl | exact absurd ⟨_, rfl⟩ hx
        simp only [VVal.typ, if_true, he, eval, h]
        cases b <;> rfl
    | int i => simp [VVal.obj] at hb
    | bool b' =>
      rw [← ht]
      simp only [VVal.obj, Val.bool.injEq] at hb
      subst hb
      exact h

/-- Conversions of references are undone by converting back, unless the reference already is a box around its own
unboxing. -/
theorem C102_roundtrip (e : E) (ht : e.typ = .ref) (hp : e.isPure = true) :
    ((∀ x, e ≠ .boxI (.unboxI x)) → (∀ x, e = .boxI x → x.typ = .int) → toRef (toInt e) = e) ∧
    ((∀ x, e ≠ .boxB (.unboxB x)) → (∀ x, e = .boxB x → x.typ = .bool) → toRef (toBool e none) = e) := by
  have h1 : toInt e = refToInt e := by rw [toInt, isPure'_eq, hp, ht]; rfl
  have h2 : toBool e none = refToBool e none := by rw [toBool, isPure'_eq, hp, ht]; rfl
  rw [h1, h2]
  constructor
  · intro hn hx
    by_cases hb : ∃ x, e = .boxI x
    · obtain ⟨x, rfl⟩ := hb
      have hpx : x.isPure = true := hp
      show toRef x = .boxI x
      rw [toRef, isPure'_eq, hpx, hx x rfl]
      cases x <;> first | rfl | exact absurd rfl (hn _)
    · have he : refToInt e = .unboxI e := by
        cases e <;> first | rfl | exact absurd ⟨_, rfl⟩ hb
      rw [he, toRef, isPure'_eq, E.isPure, hp]
      rfl
  · intro hn hx
    by_cases hb : ∃ x, e = .boxB x
    · obtain ⟨x, rfl⟩ := hb
      have hpx : x.isPure = true := hp
      show toRef x = .boxB x
      rw [toRef, isPure'_eq, hpx, hx x rfl]
      cases x <;> first | rfl | exact absurd rfl (hn _)
    · have he : refToBool e none = .unboxB e := by
        cases e <;> first | rfl | exact absurd ⟨_, rfl⟩ hb
      rw [he, toRef, isPure'_eq, E.isPure, hp]
      rfl

/-- Expressions that contain permissions are left alone. -/
theorem C102_impure (e : E) (hp : e.isPure = false) (t : Option STy) : toRef e = e ∧ toBool e t = e ∧ toInt e = e := by
  simp [toRef, toBool, toInt, isPure'_eq, hp]

/-- Non-vacuity: `True` read as an integer is the number 1; converted back it is `True`. -/
example : eval (pyInterp world0) (envOf (.bool true)) (toInt (.refV 0)) = some (.int 1) ∧
    eval (pyInterp world0) (envOf (.bool true)) (toRef (toInt (.refV 0))) = some (.ref (.bool true)) ∧
    PyEq (.bool true) (.int 1) ∧ E.isPure (.and (.boolV 0) (.acc 0)) = false := by
  exact ⟨by decide, by decide, Or.inr ⟨by decide, by decide, by decide⟩, rfl⟩

end Nagini.Truth
