import Verif.Lemmas.TypeDomain

/-!
C24, C25: the type axioms.
-/
namespace Nagini.TypeDomain

open Relation

/-! ### C24 -/

/-- **C24, full claim**: for every program the emitted axioms have a model. -/
def AxiomsConsistent : Prop :=
  ∀ tbl, WfTable tbl → ∃ I : Interp, I.defaultAxioms ∧ I.axUnionBasics ∧ I.classAxioms tbl ∧ I.tupleAxioms

/-- The union of a non-generic class with (at most three) of its subtypes, such as
`Union[bool, int]`, contradicts the emitted axioms: it is equal to the class by
`issubtype_exclusion_2`, but has a different `get_basic`. -/
theorem C24_union_contradiction (tbl : Table) (I : Interp) (hd : I.defaultAxioms) (hu : I.axUnionBasics)
    (hc : I.classAxioms tbl) (c : Nat) (he : Interp.emits tbl c) (hv : (tbl c).nvars = 0) (as : List I.T)
    (hl : I.unionLen as) (hm : I.cls c [] ∈ as) (hs : ∀ a ∈ as, I.sub a (I.cls c [])) : False := by
  obtain ⟨hT, hR, _, _, _, _, _, hX2, _, hUS, hSU⟩ := hd
  have hb := (hc.1 c he [] (by simp [hv])).2
  have hne : I.getBasic (I.cls c []) ≠ I.unionBasic := by rw [hb]; exact hc.2.2.2 c
  have h1 : I.sub (I.union as) (I.cls c []) := (hSU as _ hl).2 hs
  have h2 : I.sub (I.cls c []) (I.union as) := (hUS as _ hl hne).2 ⟨_, hm, hR _⟩
  by_cases h : I.union as = I.cls c []
  · exact hne (by rw [← h]; exact hu as hl)
  · exact hX2 _ _ h1 h h2

/-- C24 is violated for every program (all contain `NoneType`, a non-generic class with a
subtype axiom), independently of the tuple axioms. -/
theorem C24_union_fails (tbl : Table) (hw : WfTable tbl) :
    ¬ ∃ I : Interp, I.defaultAxioms ∧ I.axUnionBasics ∧ I.classAxioms tbl := by
  rintro ⟨I, hd, hu, hc⟩
  exact C24_union_contradiction tbl I hd hu hc 1 (by simp [Interp.emits, hw.noneSup]) hw.noneVars [I.cls 1 []]
    ⟨Nat.le_refl 1, show 1 ≤ 4 by decide⟩ (by simp) (by simpa using hd.2.1 _)

/-- C24 is violated a second time by the tuple axioms alone (with reflexivity and
transitivity): by `tuple_args_subtype_2` the type `Tuple[X, ...]` is a subtype of some
fixed-length tuple type, but has the empty tuple and a 1-tuple as subtypes. -/
theorem C24_tuple_fails (I : Interp) (hR : I.axRefl) (hT : I.axTrans) (ht : I.tupleAxioms) : False := by
  obtain ⟨hlen, hvt, _, _, _, h2⟩ := ht
  let x := I.object
  have hz := h2 (I.tupleVar x) x (by
    exact hR _)
  have e0 : I.sub (I.tuple []) (I.tupleVar x) := (hvt x []).2 (by simp)
  have e1 : I.sub (I.tuple [x]) (I.tupleVar x) := (hvt x [x]).2 (by simpa using hR x)
  have l0 := hlen _ _ (hT _ _ _ e0 hz)
  have l1 := hlen _ _ (hT _ _ _ e1 hz)
  have l0' := hlen _ _ (hR (I.tuple []))
  have l1' := hlen _ _ (hR (I.tuple [x]))
  simp only [List.length_nil, List.length_cons] at l0' l1'
  omega

/-- A small program: `object`, `NoneType`, `int`, `bool`, `list[T]`, and
`class B(list[list[T]])`. -/
def demo : Table := fun c => match c with
  | 0 => ⟨true, none, 0⟩
  | 1 => ⟨true, some (0, []), 0⟩
  | 2 => ⟨true, some (0, []), 0⟩
  | 3 => ⟨true, some (2, []), 0⟩
  | 4 => ⟨true, some (0, []), 1⟩
  | 5 => ⟨false, some (4, [.app 4 [.var 0]]), 1⟩
  | _ => ⟨false, some (0, []), 0⟩

theorem demo_wf : WfTable demo := by
  refine ⟨rfl, rfl, rfl, rfl, rfl, ⟨fun c => c, ?_⟩, ?_⟩
  · intro c d es h
    match c, h with
    | 0, h => cases h
    | 1, h => cases h; decide
    | 2, h => cases h; decide
    | 3, h => cases h; decide
    | 4, h => cases h; decide
    | 5, h => cases h; decide
    | (n + 6), h => cases h; show 0 < n + 6; omega
  · intro c d es h
    match c, h with
    | 0, h => cases h
    | 1, h => cases h; exact .app _ _ rfl (by simp)
    | 2, h => cases h; exact .app _ _ rfl (by simp)
    | 3, h => cases h; exact .app _ _ rfl (by simp)
    | 4, h => cases h; exact .app _ _ rfl (by simp)
    | 5, h =>
      cases h
      refine .app _ _ rfl ?_
      intro a ha
      simp at ha
      subst ha
      refine .app _ _ rfl ?_
      intro a ha
      simp at ha
      subst ha
      exact .var 0 (by decide)
    | (n + 6), h => cases h; exact .app _ _ rfl (by simp)

/-- The full claim is false. -/
theorem C24_consistent_fails : ¬ AxiomsConsistent := by
  intro h
  obtain ⟨I, h1, h2, h3, _⟩ := h demo demo_wf
  exact C24_union_fails demo demo_wf ⟨I, h1, h2, h3⟩

/-- **C24, proved part**: without the axioms `union_basic_n` (and without the tuple
domain), the axioms of every program (any number of classes, generic classes with
arbitrary superclass arguments) have a model, in which moreover every closed type that is
not a subtype of NoneType is the exact type of some object.  Missing: tuples, unions as
superclass arguments. -/
theorem C24_consistent_partial (tbl : Table) (hw : WfTable tbl) :
    ∃ I : Interp, I.defaultAxioms ∧ I.classAxioms tbl ∧
      ∀ t, Closed tbl t → ¬ I.sub (I.eval [] t) I.noneType → ∃ r, I.typeof r = I.eval [] t := by
  refine ⟨Mdl.interp tbl, Mdl.interp_default hw, Mdl.interp_class hw, ?_⟩
  intro t ht hn
  cases ht with
  | app c as hl ha =>
    have e := eval_app' (Mdl.interp tbl) [] c as
    rw [e] at hn ⊢
    have hle : ¬ Mdl.Le tbl (.inl (c, (as.map ((Mdl.interp tbl).eval [])).map (Mdl.code tbl))) (.inl (1, [])) := by
      intro h
      exact hn ((Mdl.down_sub (Mdl.down tbl (.inl (1, []))) _).2 h)
    exact ⟨some ⟨_, hle⟩, rfl⟩

/-- Non-vacuity: the union axioms are satisfied in the model, with unions that are not
class types. -/
example : ∃ I : Interp, I.defaultAxioms ∧ I.classAxioms demo := by
  obtain ⟨I, h1, h2, _⟩ := C24_consistent_partial demo demo_wf
  exact ⟨I, h1, h2⟩

/-! ### C25 -/

/-- **C25, subtyping** (for the axioms without `union_basic_n`; with them everything is
provable, C24): in every model, the subtype relation between closed class types is
exactly nominal subtyping. -/
theorem C25_nominal_partial (tbl : Table) (hw : WfTable tbl) (he : ∀ c, c ≠ 0 → Interp.emits tbl c) (I : Interp)
    (hd : I.defaultAxioms) (hc : I.classAxioms tbl) (t u : TExp) (ht : Closed tbl t) (hu : Closed tbl u) :
    I.sub (I.eval [] t) (I.eval [] u) ↔ Nominal tbl t u := by
  refine ⟨fun hs => ?_, nominal_sub hw he hd hc ht⟩
  by_contra h1
  by_cases h2 : Nominal tbl u t
  · refine hd.2.2.2.2.2.2.2.1 _ _ (nominal_sub hw he hd hc hu h2) ?_ hs
    intro e
    have := eval_inj hw he hd hc hu t ht e
    subst this
    exact h1 .refl
  · obtain ⟨t', u', a1, a2, a3⟩ := unrelated_nsub hw he hd hc ht hu h1 h2
    exact hd.2.2.2.2.2.2.2.2.1 _ _ _ a1 a3 (hd.1 _ _ _ hs a2)

/-- **C25, values**: for a value known to be an instance of `t`, instance checks against
ancestors are provable, and against unrelated types refutable. -/
theorem C25_isinstance_partial (tbl : Table) (hw : WfTable tbl) (he : ∀ c, c ≠ 0 → Interp.emits tbl c) (I : Interp)
    (hd : I.defaultAxioms) (hc : I.classAxioms tbl) (t u : TExp) (ht : Closed tbl t) (hu : Closed tbl u) (r : I.R)
    (hr : I.sub (I.typeof r) (I.eval [] t)) :
    (Nominal tbl t u → I.sub (I.typeof r) (I.eval [] u)) ∧
    (¬ Nominal tbl t u → ¬ Nominal tbl u t → ¬ I.sub (I.typeof r) (I.eval [] u)) := by
  refine ⟨fun h => hd.1 _ _ _ hr (nominal_sub hw he hd hc ht h), fun h1 h2 hs => ?_⟩
  obtain ⟨t', u', a1, a2, a3⟩ := unrelated_nsub hw he hd hc ht hu h1 h2
  exact hd.2.2.2.2.2.2.2.2.1 _ _ _ (hd.1 _ _ _ hr a1) a3 (hd.1 _ _ _ hs a2)

/-- **C25, nothing more is provable**: if `u` is not an ancestor of `t`, there is a model
with an instance of `t` that is no instance of `u`. -/
theorem C25_not_provable (tbl : Table) (hw : WfTable tbl) (he : ∀ c, c ≠ 0 → Interp.emits tbl c) (t u : TExp)
    (ht : Closed tbl t) (hu : Closed tbl u) (htu : ¬ Nominal tbl t u) (hn : ¬ Nominal tbl t (.app 1 [])) :
    ∃ I : Interp, I.defaultAxioms ∧ I.classAxioms tbl ∧
      ∃ r, I.sub (I.typeof r) (I.eval [] t) ∧ ¬ I.sub (I.typeof r) (I.eval [] u) := by
  obtain ⟨I, hd, hc, hobj⟩ := C24_consistent_partial tbl hw
  have h1 : Closed tbl (.app 1 []) := .app _ _ (by simp [hw.noneVars]) (by simp)
  obtain ⟨r, hr⟩ := hobj t ht (fun h => hn ((C25_nominal_partial tbl hw he I hd hc t (.app 1 []) ht h1).1
    (by rw [eval_app]; exact h)))
  refine ⟨I, hd, hc, r, by rw [hr]; exact hd.2.1 _, ?_⟩
  rw [hr]
  exact fun h => htu ((C25_nominal_partial tbl hw he I hd hc t u ht hu).1 h)

/-- Non-vacuity: `B[int]` is a subtype of `list[list[int]]` and not of `list[int]`. -/
example : ∃ I : Interp, I.sub (I.eval [] (.app 5 [.app 2 []])) (I.eval [] (.app 4 [.app 4 [.app 2 []]])) ∧
    ¬ I.sub (I.eval [] (.app 5 [.app 2 []])) (I.eval [] (.app 4 [.app 2 []])) := by
  obtain ⟨I, hd, hc, _⟩ := C24_consistent_partial demo demo_wf
  have he : ∀ c, c ≠ 0 → Interp.emits demo c := by
    intro c h0
    match c with
    | 0 => exact absurd rfl h0
    | 1 | 2 | 3 | 4 | 5 => simp [Interp.emits, demo]
    | (n + 6) => simp [Interp.emits, demo]
  have cint : Closed demo (.app 2 []) := .app _ _ rfl (by simp)
  have clist : Closed demo (.app 4 [.app 2 []]) := .app _ _ rfl (by simpa using cint)
  have cB : Closed demo (.app 5 [.app 2 []]) := .app _ _ rfl (by simpa using cint)
  have cll : Closed demo (.app 4 [.app 4 [.app 2 []]]) := .app _ _ rfl (by simpa using clist)
  have hst : DirectSub demo (.app 5 [.app 2 []]) (.app 4 [.app 4 [.app 2 []]]) :=
    .declared 5 [.app 2 []] 4 [.app 4 [.var 0]] rfl
  refine ⟨I, (C25_nominal_partial demo demo_wf he I hd hc _ _ cB cll).2 (.single hst), ?_⟩
  intro h
  have h := (C25_nominal_partial demo demo_wf he I hd hc _ _ cB clist).1 h
  have hback : Nominal demo (.app 4 [.app 2 []]) (.app 4 [.app 4 [.app 2 []]]) := by
    rcases ReflTransGen.cases_head h with e | ⟨x, h1, h2⟩
    · cases e
    · rw [directSub_unique h1 hst] at h2
      rcases ReflTransGen.cases_head h2 with e | ⟨y, h3, h4⟩
      · cases e
      · have hy := directSub_unique h3 (.declared 4 [.app 4 [.app 2 []]] 0 [] rfl)
        subst hy
        rcases ReflTransGen.cases_head h4 with e | ⟨z, h5, _⟩
        · cases e
        · generalize hq : (TExp.app 0 []).subst [.app 4 [.app 2 []]] = q at h5
          cases h5 with
          | declared c as d es hs => cases hq; cases hs
          | default c as h0 _ => cases hq; exact absurd rfl h0
  rcases ReflTransGen.cases_head hback with e | ⟨x, h1, h2⟩
  · cases e
  · have hx := directSub_unique h1 (.declared 4 [.app 2 []] 0 [] rfl)
    subst hx
    rcases ReflTransGen.cases_head h2 with e | ⟨z, h5, _⟩
    · cases e
    · generalize hq : (TExp.app 0 []).subst [.app 2 []] = q at h5
      cases h5 with
      | declared c as d es hs => cases hq; cases hs
      | default c as h0 _ => cases hq; exact absurd rfl h0

/-- **C25, builtins, full claim**: the class table used for builtins agrees with Python. -/
def BuiltinsFaithful : Prop :=
  ∀ c d, Ancestor Builtin.extends c d ↔ Ancestor Builtin.pyBase c d

theorem anc_iff (base : Builtin → Option Builtin) (c d : Builtin) :
    Ancestor base c d ↔ c = d ∨ ∃ e, base c = some e ∧ Ancestor base e d := by
  unfold Ancestor
  rw [ReflTransGen.cases_head_iff]

/-- C25 is violated: `isinstance(1, float)` is true for the verifier, false in Python. -/
theorem C25_builtins_fails : ¬ BuiltinsFaithful := by
  intro h
  have := (h .int .float).1 (.single rfl)
  rw [anc_iff] at this
  simp [Builtin.pyBase] at this
  rw [anc_iff] at this
  simp [Builtin.pyBase] at this

/-- **C25, builtins, exact proved part**: the table agrees with Python for all pairs except
int, bool and IntEnum against float. -/
theorem C25_builtins_iff_partial (c d : Builtin) :
    (Ancestor Builtin.extends c d ↔ Ancestor Builtin.pyBase c d) ↔
      ¬ (d = .float ∧ (c = .int ∨ c = .bool ∨ c = .intEnum)) := by
  have e : ∀ x, Ancestor Builtin.extends .object x ↔ .object = x := fun x => by rw [anc_iff]; simp [Builtin.extends]
  have p : ∀ x, Ancestor Builtin.pyBase .object x ↔ .object = x := fun x => by rw [anc_iff]; simp [Builtin.pyBase]
  have ef : ∀ x, Ancestor Builtin.extends .float x ↔ .float = x ∨ .object = x := fun x => by
    rw [anc_iff]; simp [Builtin.extends, e]
  have ei : ∀ x, Ancestor Builtin.extends .int x ↔ .int = x ∨ .float = x ∨ .object = x := fun x => by
    rw [anc_iff]; simp [Builtin.extends, ef]
  have pi : ∀ x, Ancestor Builtin.pyBase .int x ↔ .int = x ∨ .object = x := fun x => by
    rw [anc_iff]; simp [Builtin.pyBase, p]
  have ee : ∀ x, Ancestor Builtin.extends .exception x ↔ .exception = x ∨ .object = x := fun x => by
    rw [anc_iff]; simp [Builtin.extends, e]
  have pe : ∀ x, Ancestor Builtin.pyBase .exception x ↔ .exception = x ∨ .object = x := fun x => by
    rw [anc_iff]; simp [Builtin.pyBase, p]
  cases c <;> rw [anc_iff, anc_iff Builtin.pyBase] <;> simp [Builtin.extends, Builtin.pyBase, e, p, ef, ei, pi, ee, pe] <;>
    cases d <;> simp

end Nagini.TypeDomain
