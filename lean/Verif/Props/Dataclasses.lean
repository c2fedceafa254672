import Verif.Lemmas.Dataclasses

/-!
C109: a constructor call of a data class with generated `__init__` makes the verifier assume only
values of attributes that the new object has in Python.
C110: a constructor call runs `__post_init__` exactly if Python does.
-/
namespace Nagini.Dataclasses

open Py

variable {E : Type}

/-- **C109**, full statement: if Python can create class `c` (with superclasses `cs`) and accepts
the call, then everything the verifier assumes about attributes of the new object is true. -/
def C109_full : Prop :=
  ∀ (c : Cls Nat) (cs : List (Cls Nat)) (ps : List Nat) (ks : List (Name × Nat))
    (r q : List (Name × Val Nat)),
    c.dataclass = true → c.hasInit = false → Creatable (pyFields (c :: cs)) →
    Constructs (pyFields (c :: cs)) ps ks r → initCall c ps ks = some q →
    ∀ n v, (n, v) ∈ q → Attr (c :: cs) r n v

/-- `@dataclass class A: x: int` with names `x = 0`, `y = 1`. -/
abbrev base : Cls Nat := ⟨true, false, [.ann 0 none], false, false⟩

/-- `@dataclass class B(A): y: int` with a method that reads `self.x` and `self.y`. -/
abbrev sub : Cls Nat := ⟨true, false, [.ann 1 none, .access 0, .access 1], false, false⟩

/-- `B(10, 20)` sets `x` to 10 and `y` to 20, but the verifier assumes the converse. -/
theorem C109_inherited_fails :
    Constructs (pyFields [sub, base]) [10, 20] [] [(0, .arg 10), (1, .arg 20)] ∧
    initCall sub [10, 20] [] = some [(1, .arg 10), (0, .arg 20)] :=
  ⟨⟨by decide, by decide, by decide, by decide⟩, by decide⟩

/-- `@dataclass class C: x: int; k = 5; y: int = 7`: the name `k` without annotation is no field in
Python. -/
abbrev withPlain : Cls Nat :=
  ⟨true, false, [.ann 0 none, .plain 2 5, .ann 1 (some (.const 7))], false, false⟩

/-- `C(10, 20)` sets `y` to 20; the verifier assumes that `y` is 7 and `k` is 20. -/
theorem C109_plain_fails :
    Constructs (pyFields [withPlain]) [10, 20] [] [(0, .arg 10), (1, .arg 20)] ∧
    initCall withPlain [10, 20] [] =
      some [(0, .arg 10), (2, .arg 20), (1, .dflt (.expr 7))] :=
  ⟨⟨by decide, by decide, by decide, by decide⟩, by decide⟩

/-- The same class with `k: ClassVar[int] = 5`, frozen. -/
abbrev withClassVar : Cls Nat :=
  ⟨true, true, [.ann 0 none, .classVar 2 5, .ann 1 (some (.const 7))], false, false⟩

/-- Class variables are treated as fields as well. -/
theorem C109_class_var_fails :
    Constructs (pyFields [withClassVar]) [10, 20] [] [(0, .arg 10), (1, .arg 20)] ∧
    initCall withClassVar [10, 20] [] =
      some [(0, .arg 10), (2, .arg 20), (1, .dflt (.expr 7))] :=
  ⟨⟨by decide, by decide, by decide, by decide⟩, by decide⟩

/-- `@dataclass class D: x: int`, a property `p`, and then `y: int = 7`. -/
abbrev withProp : Cls Nat :=
  ⟨true, false, [.ann 0 none, .prop 3, .ann 1 (some (.const 7))], false, false⟩

/-- `D(10, 20)` makes the verifier assume that the property `p` has the value 20, whatever its body
returns. -/
theorem C109_property_fails :
    Constructs (pyFields [withProp]) [10, 20] [] [(0, .arg 10), (1, .arg 20)] ∧
    initCall withProp [10, 20] [] = some [(0, .arg 10), (3, .arg 20), (1, .dflt (.expr 7))] :=
  ⟨⟨by decide, by decide, by decide, by decide⟩, by decide⟩

/-- `@dataclass class F: x: int; y: int`, where a function before the class accesses `y`. -/
abbrev accessedBefore : Cls Nat :=
  ⟨true, false, [.access 1, .ann 0 none, .ann 1 none], false, false⟩

/-- The order of the parameters depends on code in front of the class. -/
theorem C109_order_fails :
    Constructs (pyFields [accessedBefore]) [10, 20] [] [(0, .arg 10), (1, .arg 20)] ∧
    initCall accessedBefore [10, 20] [] = some [(1, .arg 10), (0, .arg 20)] :=
  ⟨⟨by decide, by decide, by decide, by decide⟩, by decide⟩

theorem C109_fails : ¬ C109_full := by
  intro h
  have h1 := h sub [base] [10, 20] [] _ _ rfl rfl (by
    show List.Pairwise _ [(0, none), (1, none)]
    simp) C109_inherited_fails.1 C109_inherited_fails.2 1 (.arg 10) (by simp)
  rcases h1 with h1 | ⟨h1, _⟩
  · simp at h1
  · simp at h1

/-- The body consists of annotated fields with different names, and of accesses to fields that were
declared before (`seen`).  A field without value does not have the name of a class attribute of a
superclass. -/
def Tidy (cs : List (Cls E)) : List Name → List (Member E) → Prop
  | _, [] => True
  | seen, .ann n d :: ms =>
    n ∉ seen ∧ (d = none → classAttr n cs = none) ∧ Tidy cs (seen ++ [n]) ms
  | seen, .access n :: ms => n ∈ seen ∧ Tidy cs seen ms
  | _, _ => False

theorem tidy_ownAttr {cs : List (Cls E)} {n : Name} : ∀ {body : List (Member E)} {seen : List Name},
    Tidy cs seen body → n ∈ seen → ownAttr n body = none := by
  intro body
  induction body with
  | nil => intro seen _ _; rfl
  | cons m body ih =>
    intro seen h hn
    cases m with
    | ann k d =>
      obtain ⟨h1, _, h3⟩ := h
      have hi := ih h3 (List.mem_append_left _ hn)
      have hk : k ≠ n := fun he => h1 (he ▸ hn)
      rcases d with _ | _ | _
      · exact hi
      · show (if k = n then _ else _) = _
        rw [if_neg hk]; exact hi
      · exact hi
    | access k => exact ih h.2 hn
    | _ => exact h.elim

theorem tidy_fields (c : Cls E) (cs : List (Cls E)) : ∀ (body : List (Member E))
    (fs : List (Name × Option (Dflt E))),
    (∀ n, n ∉ fs.map (·.1) → ownAttr n c.body = ownAttr n body) →
    Tidy cs (fs.map (·.1)) body →
    body.foldl (visitMember c.frozen) (fs.map toFld) =
      (body.foldl (pyStep (c :: cs)) fs).map toFld := by
  intro body
  induction body with
  | nil => intro fs _ _; rfl
  | cons m body ih =>
    intro fs hown h
    rw [List.foldl_cons, List.foldl_cons]
    cases m with
    | ann n d =>
      obtain ⟨h1, h2, h3⟩ := h
      have hd : fieldDefault (c :: cs) n d = d := by
        cases d with
        | some d => rfl
        | none =>
          have hb : ownAttr n body = none := tidy_ownAttr h3 (by simp)
          have : classAttr n (c :: cs) = none := by
            show (List.findSome? _ (c :: cs)) = none
            rw [List.findSome?_cons, hown n h1]
            show (match ownAttr n body with | some b => some b | none => _) = none
            rw [hb]
            exact h2 rfl
          simp [fieldDefault, this]
      have hins : pyStep (c :: cs) fs (.ann n d) = fs ++ [(n, d)] := by
        show insertField fs n (fieldDefault (c :: cs) n d) = _
        rw [hd, insertField, if_neg h1]
      rw [hins]
      show body.foldl _ (declare c.frozen (fs.map toFld) n d) = _
      rw [declare_new _ _ _ _ h1]
      refine ih _ ?_ (by simpa using h3)
      intro k hk
      simp only [List.map_append, List.mem_append, not_or] at hk
      rw [hown k hk.1]
      have hkn : n ≠ k := fun he => hk.2 (by simp [he])
      rcases d with _ | _ | _
      · rfl
      · show (if n = k then _ else _) = _
        rw [if_neg hkn]
      · rfl
    | access n =>
      have hin : n ∈ (fs.map toFld).map (·.name) := by rw [map_toFld_name]; exact h.1
      have : visitMember c.frozen (fs.map toFld) (.access n) = fs.map toFld := by
        show addField _ _ = _
        rw [addField, if_pos hin]
      rw [this]
      exact ih fs hown h.2
    | _ => exact h.elim

/-- **C109** for classes that declare all of their fields themselves and have a tidy body: the call
is translated, and the verifier assumes exactly the values that the fields have in Python.  Missing
are inherited fields (`C109_inherited_fails`), other members of the class (`C109_plain_fails`,
`C109_class_var_fails`, `C109_property_fails`) and fields accessed before their declaration
(`C109_order_fails`), for which the code is wrong. -/
theorem C109_partial (c : Cls E) (cs : List (Cls E)) (ps : List E) (ks : List (Name × E))
    (r : List (Name × Val E)) (hdc : c.dataclass = true) (hi : pyFields cs = [])
    (ht : Tidy cs [] c.body) (hc : Creatable (pyFields (c :: cs)))
    (h : Constructs (pyFields (c :: cs)) ps ks r) : initCall c ps ks = some r := by
  refine initCall_aligned c (pyFields (c :: cs)) ps ks r ?_ hc h
  rw [pyFields_cons, hdc, if_pos rfl, hi]
  exact tidy_fields c cs c.body [] (fun _ _ => rfl) ht

/-- `@dataclass class P: x: int; y: int; z: List[int] = field(default_factory=list)` with a method
that reads `self.y`; the call `P(10, y=20)`. -/
example : initCall (⟨true, false,
    [.ann 0 none, .ann 1 none, .ann 2 (some .factory), .access 1], false, false⟩ : Cls Nat)
    [10] [(1, 20)] = some [(0, .arg 10), (1, .arg 20), (2, .fresh)] := by
  refine C109_partial _ [] _ _ _ rfl rfl ?_ ?_ ?_
  · simp [Tidy, classAttr]
  · show List.Pairwise _ [(0, none), (1, none), (2, some Dflt.factory)]
    simp
  · exact ⟨by decide, by decide, by decide, by decide⟩

/-- **C109** for calls that pass all parameters of the generated method as keywords: whatever the
class and its superclasses are, every assumption is true. -/
theorem C109_keywords_partial (c : Cls E) (cs : List (Cls E)) (ks : List (Name × E))
    (r q : List (Name × Val E)) (h : Constructs (pyFields (c :: cs)) [] ks r)
    (hall : ∀ f ∈ fields c, f.name ∈ ks.map (·.1)) (hq : initCall c [] ks = some q) :
    ∀ n v, (n, v) ∈ q → (n, v) ∈ r := by
  intro n v hm
  rw [initCall_eq, bindKw_eq _ (fields_nodup c) _ _ (by simp [start_length]) h.nodup] at hq
  obtain ⟨_, e, he, rfl⟩ := fillIn_all ks (fields c) _ (paramDefaults_length _) hall q hq n v hm
  have hv := h.values
  rw [valuesFrom_eq] at hv
  refine valuesL_kw ks _ r hv n e ?_ he
  have hin : n ∈ ks.map (·.1) := Decidable.byContradiction fun hn => by
    rw [lookup_none hn] at he; cases he
  obtain ⟨k, hk1, hk2⟩ := List.mem_map.1 hin
  have := h.known k hk1
  rw [hk2] at this
  simpa using this

/-- The call `B(x=10, y=20)` of the class with an inherited field. -/
example : ∀ n v, (n, v) ∈ [(1, Val.arg 20), (0, .arg 10)] →
    (n, v) ∈ [(0, Val.arg 10), (1, .arg 20)] :=
  C109_keywords_partial sub [base] [(0, 10), (1, 20)] _ _
    ⟨by decide, by decide, by decide, by decide⟩ (by decide) (by decide)

/-- The disagreement for inherited fields is systematic: if the first parameter the analyzer finds
is not the first inherited field, then every call with a first positional argument that occurs only
once makes the verifier assume something false. -/
theorem C109_inherited_wrong (c : Cls E) (cs : List (Cls E)) (e : E) (ps : List E)
    (ks : List (Name × E)) (r q : List (Name × Val E)) (b : Name)
    (hb : ((pyFields cs).map (·.1)).head? = some b) (f : Fld E) (hf : (fields c).head? = some f)
    (hne : f.name ≠ b) (hk : f.name ∉ ks.map (·.1)) (h1 : e ∉ ps) (h2 : e ∉ ks.map (·.2))
    (h : Constructs (pyFields (c :: cs)) (e :: ps) ks r) (hq : initCall c (e :: ps) ks = some q) :
    ¬ ∀ n v, (n, v) ∈ q → Attr (c :: cs) r n v := by
  intro hall
  have hfn := fields_nodup c
  rw [initCall_eq] at hq
  obtain ⟨fs, hfs⟩ : ∃ fs, fields c = f :: fs := by
    cases hc : fields c with
    | nil => rw [hc] at hf; cases hf
    | cons g fs => rw [hc] at hf; cases hf; exact ⟨fs, rfl⟩
  have hl := paramDefaults_length (fields c)
  rw [bindKw_eq _ hfn _ _ (by simp [start_length]) h.nodup, hfs] at hq
  rw [hfs] at hl
  cases hd : paramDefaults (f :: fs) with
  | nil => rw [hd] at hl; simp at hl
  | cons d ds =>
    rw [hd] at hq
    simp only [List.map_cons, List.length_cons, start_cons, List.zipWith_cons_cons,
      override_none hk, fillIn, Option.map_eq_some_iff] at hq
    obtain ⟨q', _, rfl⟩ := hq
    have hv := h.values
    rw [valuesFrom_eq, List.drop_zero] at hv
    have hph := pyFields_head c cs hb
    cases hp : pyFields (c :: cs) with
    | nil => rw [hp] at hph; cases hph
    | cons g gs =>
      obtain ⟨m, dm⟩ := g
      rw [hp] at hph hv
      simp only [List.map_cons, List.head?_cons, Option.some.injEq] at hph
      subst hph
      simp only [valuesL, Option.map_eq_some_iff] at hv
      obtain ⟨r', hr', rfl⟩ := hv
      rcases hall f.name (.arg e) (by simp) with ha | ⟨_, e', _, he'⟩
      · rw [List.mem_cons] at ha
        rcases ha with ha | ha
        · simp only [Prod.mk.injEq] at ha
          exact hne ha.1
        · rcases valuesL_src ks gs ps r' hr' _ _ ha with h3 | h3
          · exact h1 h3
          · exact h2 h3
      · cases he'

/-- `B(10, 20)` where `B` does not mention the inherited field at all. -/
example : ¬ ∀ n v, (n, v) ∈ [(1, Val.arg 10)] →
    Attr [⟨true, false, [.ann 1 none], false, false⟩, base] [(0, .arg 10), (1, .arg 20)] n v :=
  C109_inherited_wrong _ _ 10 [20] [] _ _ 0 rfl ⟨1, none, false⟩ (by decide) (by decide) (by simp)
    (by decide) (by simp) ⟨by decide, by decide, by decide, by decide⟩ (by decide)

/-! ### C110 -/

/-- **C110**, full statement: a constructor call runs the same `__post_init__` as in Python. -/
def C110_full : Prop := ∀ chain : List (Cls Nat), postCall chain = postRuns chain

/-- `@dataclass class A` with `__post_init__`, and `class B(A)` without decorator: `B()` does not
run the method. -/
theorem C110_fails : ¬ C110_full := by
  intro h
  have := h [⟨false, false, [], false, false⟩, ⟨true, false, [.ann 0 none], false, true⟩]
  revert this
  decide

/-- **C110** for classes that are data classes or define `__init__`.  Missing are other subclasses
of data classes, for which the code is wrong (`C110_lost`). -/
theorem C110_partial (c : Cls E) (cs : List (Cls E)) (h : c.dataclass = true ∨ c.hasInit = true) :
    postCall (c :: cs) = postRuns (c :: cs) := by
  have h0 : initOf (c :: cs) = some 0 := by
    unfold initOf
    rw [List.findIdx?_cons]
    rcases h with h | h <;> simp [h]
  unfold postRuns
  rw [h0]
  simp only [List.drop_zero, postCall, generates]
  by_cases hi : c.hasInit = true
  · simp [hi]
  · have hd : c.dataclass = true := h.resolve_right hi
    rw [Bool.not_eq_true] at hi
    simp only [hd, hi, Bool.not_false, Bool.and_self, if_true, Bool.false_eq_true, if_false]
    split
    · rfl
    · rename_i ha
      rw [List.findIdx?_eq_none_iff]
      intro x hx
      cases hp : x.hasPost
      · rfl
      · exact absurd (List.any_eq_true.2 ⟨x, hx, hp⟩) ha

/-- A data class that inherits `__post_init__` from a class that is none. -/
example : postCall [(⟨true, false, [.ann 0 none], false, false⟩ : Cls Nat),
      ⟨false, false, [], false, true⟩] = some 1 ∧
    postRuns [(⟨true, false, [.ann 0 none], false, false⟩ : Cls Nat),
      ⟨false, false, [], false, true⟩] = some 1 :=
  ⟨by decide, by rw [← C110_partial _ _ (Or.inl rfl)]; decide⟩

/-- For the remaining classes no `__post_init__` is run, although Python runs one whenever it does
so for the superclass. -/
theorem C110_lost (c : Cls E) (cs : List (Cls E)) (hd : c.dataclass = false)
    (hi : c.hasInit = false) :
    postCall (c :: cs) = none ∧ ((postRuns (c :: cs)).isSome ↔ (postRuns cs).isSome) := by
  refine ⟨by simp [postCall, hd], ?_⟩
  have h0 : initOf (c :: cs) = (initOf cs).map (· + 1) := by
    unfold initOf
    rw [List.findIdx?_cons]
    simp [hd, hi]
  unfold postRuns
  rw [h0]
  cases hc : initOf cs with
  | none => simp
  | some i =>
    simp only [Option.map_some, List.drop_succ_cons]
    cases hdr : cs.drop i with
    | nil => simp
    | cons a as =>
      simp only
      split
      · simp
      · split
        · rename_i ha
          obtain ⟨x, hx, hp⟩ := List.any_eq_true.1 ha
          have hx' : x ∈ cs := List.mem_of_mem_drop (hdr ▸ hx)
          simp only [List.findIdx?_isSome, List.any_cons, Bool.or_eq_true_iff]
          constructor
          · intro _; exact List.any_eq_true.2 ⟨x, hx', hp⟩
          · intro h; exact Or.inr h
        · simp

example : postCall [(⟨false, false, [], false, false⟩ : Cls Nat), ⟨true, false, [], false, true⟩] =
    none ∧ postRuns [(⟨false, false, [], false, false⟩ : Cls Nat), ⟨true, false, [], false, true⟩] =
    some 1 := ⟨(C110_lost _ _ rfl rfl).1, by decide⟩

end Nagini.Dataclasses
