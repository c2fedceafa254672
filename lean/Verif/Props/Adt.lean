import Verif.Lemmas.AdtNames
set_option linter.unusedVariables false
set_option linter.unusedSimpArgs false
/-!
Algebraic data types: the axioms are consistent (C63), operations agree with Python (C64), and the generated
declarations are well formed (C65).
-/
namespace Nagini.Adt

/-! ### Programs for the examples

`object` is 0, `NoneType` is 1. -/

/-- `class Leaf(Tree, NamedTuple('Leaf', []))` -/
def leaf : Cls := .mk 3 "Leaf" [] []
/-- `class End(Tree, NamedTuple('End', []))` -/
def end' : Cls := .mk 4 "End" [] []
/-- `class Node(Tree, NamedTuple('Node', [('val', int), ('left', Tree), ('data', object)]))` -/
def node : Cls := .mk 5 "Node" [("val", .int), ("left", .cls 2 "Tree"), ("data", .cls 0 "object")] []
/-- `class Tree(ADT)` -/
def tree : Cls := .mk 2 "Tree" [] [leaf, end', node]
/-- The subclasses for `tree`. -/
def treeLe (d e : Nat) : Prop := d = e ∨ e = 0 ∨ (e = 2 ∧ (d = 3 ∨ d = 4 ∨ d = 5))

theorem tree_hier : Hier [tree] treeLe 1 where
  cons := by simp [tree, leaf, Cls.cons, Cls.all, alls]
  ids := by decide
  names := by simp [tree, leaf, end', node, Cls.cons, Cls.all, alls, Cls.name]
  fields := by simp [tree, leaf, end', node, Cls.cons, Cls.all, alls, Cls.fields]
  same := by
    simp only [List.mem_singleton, forall_eq, tree, leaf, end', node, Cls.cons, Cls.all, alls, Cls.fields,
      List.tail_cons, List.cons_append, List.nil_append, List.append_nil, List.mem_cons, List.not_mem_nil, or_false]
    rintro c (rfl | rfl | rfl) f hf <;> simp only [List.mem_cons, List.not_mem_nil, or_false] at hf
    rcases hf with rfl | rfl | rfl <;> simp [sameName, isAdt, Cls.name, Cls.id]
  none_out := by decide
  none_min := by intro d; unfold treeLe; omega
  none_top := by unfold treeLe; intro d h; rcases h with h | h | h <;> [left; right; omega]; omega; intro c; omega
  trans := by unfold treeLe; intros; omega
  chain := by unfold treeLe; intros; omega
  below := by
    simp only [tree, leaf, end', node, Cls.all, alls, List.mem_cons, List.mem_singleton, List.not_mem_nil, or_false,
      List.append_nil, List.nil_append, List.cons_append, forall_eq]
    rintro c (rfl | rfl | rfl | rfl) d <;> simp [treeLe, Cls.id, Cls.all, alls]

theorem tree_unrestricted : ¬ Restricted [tree] treeLe := by
  rintro ⟨A, hA, c, hc, f, hf, i, n, e, ha, d, hd⟩
  simp only [List.mem_singleton] at hA
  subst hA
  simp only [tree, leaf, end', node, Cls.cons, Cls.all, alls, List.tail_cons, List.cons_append, List.nil_append,
    List.append_nil, List.mem_cons, List.not_mem_nil, or_false] at hc
  rcases hc with rfl | rfl | rfl
  · simp [Cls.fields] at hf
  · simp [Cls.fields] at hf
  · simp only [Cls.fields, List.mem_cons, List.not_mem_nil, or_false] at hf
    rcases hf with rfl | rfl | rfl <;> simp [isAdt, tree, Cls.id] at e ha
    obtain ⟨rfl, rfl⟩ := e
    exact hd (.inr (.inl rfl))

/-- `class Item(Basket, NamedTuple('Item', [('fruit', Fruit)]))` -/
def item : Cls := .mk 3 "Item" [("fruit", .cls 6 "Fruit")] []
/-- `class Basket(ADT)` -/
def basket : Cls := .mk 2 "Basket" [] [item]
def basketLe (d e : Nat) : Prop := d = e ∨ e = 0 ∨ (e = 2 ∧ d = 3)

theorem basket_hier : Hier [basket] basketLe 1 where
  cons := by simp [basket, item, Cls.cons, Cls.all, alls]
  ids := by decide
  names := by simp [basket, item, Cls.cons, Cls.all, alls, Cls.name]
  fields := by simp [basket, item, Cls.cons, Cls.all, alls, Cls.fields]
  same := by simp [basket, item, Cls.cons, Cls.all, alls, Cls.fields, sameName, isAdt, Cls.name, Cls.id]
  none_out := by decide
  none_min := by intro d; unfold basketLe; omega
  none_top := by unfold basketLe; intro d h; rcases h with h | h | h <;> [left; right; omega]; omega; intro c; omega
  trans := by unfold basketLe; intros; omega
  chain := by unfold basketLe; intros; omega
  below := by
    simp only [basket, item, Cls.all, alls, List.mem_cons, List.mem_singleton, List.not_mem_nil, or_false,
      List.append_nil, List.nil_append, List.cons_append, forall_eq]
    rintro c (rfl | rfl) d <;> simp [basketLe, Cls.id, Cls.all, alls]

/-! ### C63 -/

/-- C63: whatever ADTs a program declares, there is an interpretation of the Viper program's functions that
satisfies the generated axioms and contracts. -/
def AdtAxiomsConsistent : Prop := ∀ As le none, Hier As le none → ∃ I : Interp, I.Models As le none

/-- A field whose type is a class other than the ADT and other than `object` makes the axioms contradictory: a
constructor can be applied to any reference and the deconstructor returns it, but another axiom says that the
deconstructor always returns an instance of the class. -/
theorem C63_class_field_contradiction {As le none} (hh : Hier As le none) (hr : Restricted As le) :
    ¬ ∃ I : Interp, I.Models As le none :=
  fun ⟨_, hm⟩ => models_unrestricted hh hm hr

example : Restricted [basket] basketLe :=
  ⟨basket, by simp, item, by simp [basket, Cls.cons, Cls.all, alls, item], ("fruit", .cls 6 "Fruit"),
    by simp [item, Cls.fields], 6, "Fruit", rfl, by decide, 1, by unfold basketLe; omega⟩

theorem C63_consistent_fails : ¬ AdtAxiomsConsistent := fun h =>
  C63_class_field_contradiction basket_hier
    ⟨basket, by simp, item, by simp [basket, Cls.cons, Cls.all, alls, item], ("fruit", .cls 6 "Fruit"),
      by simp [item, Cls.fields], 6, "Fruit", rfl, by decide, 1, by unfold basketLe; omega⟩
    (h [basket] basketLe 1 basket_hier)

/-- The axioms are consistent exactly if no field has such a type.  Missing: ADTs with such fields. -/
theorem C63_consistent_partial {As le none} (hh : Hier As le none) :
    (∃ I : Interp, I.Models As le none) ↔ ¬ Restricted As le :=
  ⟨fun ⟨_, hm⟩ => models_unrestricted hh hm, fun hr => ⟨_, term_models hh hr⟩⟩

example : ∃ I : Interp, I.Models [tree] treeLe 1 := (C63_consistent_partial tree_hier).2 tree_unrestricted

/-! ### C64 -/

/-- C64, equality: `a == b` is true in Viper exactly if it is in Python. -/
def AdtEqFaithful : Prop := ∀ As le none (I : Interp) Γ env ρ, Hier As le none → I.Models As le none →
  Agree I As le Γ env ρ → ∀ a b i n j m, ETy As le Γ a (.cls i n) → ETy As le Γ b (.cls j m) →
  ∃ va vb, eval env a = some va ∧ eval env b = some vb ∧ (I.holds ρ (transEq a b) ↔ pyEq va vb)

/-- C64, identity: two constructor calls never give the same object. -/
def AdtIsFaithful : Prop := ∀ As le none (I : Interp) Γ env ρ, Hier As le none → I.Models As le none →
  Agree I As le Γ env ρ → ∀ A c es A' c' es' i n j m, ETy As le Γ (.new A c es) (.cls i n) →
  ETy As le Γ (.new A' c' es') (.cls j m) → ¬ I.holds ρ (transIs (.new A c es) (.new A' c' es'))

/-- C64, case analysis: an instance of a constructor is equal to the constructor applied to its fields. -/
def AdtEtaFaithful : Prop := ∀ As le none (I : Interp) ρ, Hier As le none → I.Models As le none →
  ∀ A ∈ As, ∀ c ∈ A.cons, c.all = [c] → ∀ x, I.dom .ref (ρ x) → I.holds ρ (transIsinstance (.var x) c) →
  I.holds ρ (transEq (.var x) (.new A c (c.fields.map fun f => .field A c (.var x) f.1)))

/-- Expressions have the value in Viper that they have in Python: constructor calls, field accesses and variables
are represented by the element that stands for the Python value. -/
theorem C64_expressions {As le none} {I : Interp} {Γ env ρ} (hh : Hier As le none) (hm : I.Models As le none)
    (hg : Agree I As le Γ env ρ) {e t} (he : ETy As le Γ e t) :
    ∃ v, eval env e = some v ∧ HasTy As le t v ∧ I.tm ρ (trans e) = I.rep v :=
  eval_ok hh hm hg he

/-- Field access: `C(e1, ..., en).fi` is `ei`. -/
theorem C64_field_of_constructor {As le none} {I : Interp} {Γ env ρ} (hh : Hier As le none) (hm : I.Models As le none)
    (hg : Agree I As le Γ env ρ) {A c es f t} (hA : A ∈ As) (hc : c ∈ A.cons) (hl : c.all = [c])
    (hes : ETys As le Γ c.fields es) (hf : c.fields.lookup f = some t) :
    ∃ vs v, evals env es = some vs ∧ ((c.fields.map (·.1)).zip vs).lookup f = some v ∧
      I.tm ρ (trans (.field A c (.new A c es) f)) = I.rep v := by
  obtain ⟨v, h1, _, h3⟩ := eval_ok hh hm hg (ETy.field (n := "") hA hc hl (.new hA hc hes) hf)
  obtain ⟨vs, h4, _⟩ := evals_ok hh hm hg A hA hes
  exact ⟨vs, v, h4, by simpa [eval, h4] using h1, h3⟩

/-- Equality of ADTs is equality of the named tuples in Python together with equality of all classes. -/
theorem C64_eq_partial {As le none} {I : Interp} {Γ env ρ} (hh : Hier As le none) (hm : I.Models As le none)
    (hg : Agree I As le Γ env ρ) {a b i n j m} (ha : ETy As le Γ a (.cls i n)) (hb : ETy As le Γ b (.cls j m)) :
    ∃ va vb, eval env a = some va ∧ eval env b = some vb ∧
      (I.holds ρ (transEq a b) ↔ pyEq va vb ∧ sameCls va vb) := by
  obtain ⟨va, h1, h2, h3⟩ := eval_ok hh hm hg ha
  obtain ⟨vb, h4, h5, h6⟩ := eval_ok hh hm hg hb
  refine ⟨va, vb, h1, h4, ?_⟩
  simp only [transEq, Interp.holds, h3, h6]
  exact rep_eq hh hm _ _ va vb h2 h5 rfl

/-- Identity of ADTs is the same as equality. -/
theorem C64_is_partial {As le none} {I : Interp} {Γ env ρ} (hh : Hier As le none) (hm : I.Models As le none)
    (hg : Agree I As le Γ env ρ) {a b i n j m} (ha : ETy As le Γ a (.cls i n)) (hb : ETy As le Γ b (.cls j m)) :
    ∃ va vb, eval env a = some va ∧ eval env b = some vb ∧
      (I.holds ρ (transIs a b) ↔ pyEq va vb ∧ sameCls va vb) :=
  C64_eq_partial hh hm hg ha hb

/-- `isinstance` tests the class of the value. -/
theorem C64_isinstance {As le none} {I : Interp} {Γ env ρ} (hh : Hier As le none) (hm : I.Models As le none)
    (hg : Agree I As le Γ env ρ) {e i n} (he : ETy As le Γ e (.cls i n)) (d : Cls) :
    ∃ A c vs, eval env e = some (.obj A c vs) ∧ (I.holds ρ (transIsinstance e d) ↔ le c.id d.id) := by
  obtain ⟨v, h1, h2, h3⟩ := eval_ok hh hm hg he
  obtain ⟨_, A, c, vs, rfl, ht, _⟩ := rep_ok hh hm _ _ h2
  refine ⟨A, c, vs, h1, ?_⟩
  simp only [transIsinstance, Interp.holds, tms_map, List.map_cons, List.map_nil, tm_app, h3, ht]
  exact hm.1.subtype _ _

/-- Case analysis is complete: an instance of the ADT is an instance of one of the constructors. -/
theorem C64_exhaustive {As le none} {I : Interp} {ρ : V → I.U} (hh : Hier As le none) (hm : I.Models As le none)
    {A : Cls} (hA : A ∈ As) (x : V) (hx : I.dom .ref (ρ x)) (hi : I.holds ρ (transIsinstance (.var x) A)) :
    ∃ c ∈ A.cons, I.holds ρ (transIsinstance (.var x) c) ∧
      ∀ d ∈ A.cons, I.holds ρ (transIsinstance (.var x) d) → le c.id d.id := by
  simp only [transIsinstance, Interp.holds, tms_map, List.map_cons, List.map_nil, tm_app, trans, tm_var] at hi ⊢
  obtain ⟨c, hc, e⟩ := (models_facts hh hm hA).subs _ hx hi
  rw [e]
  exact ⟨c, hc, (hm.1.subtype _ _).2 ((hh.below A hA c (cons_all hc) _).2 (List.mem_map.2 ⟨c, mem_all c, rfl⟩)),
    fun d _ h => (hm.1.subtype _ _).1 h⟩

theorem isinstance_typeof {As le none} {I : Interp} {ρ : V → I.U} (hh : Hier As le none) (hm : I.Models As le none)
    {A c : Cls} (hA : A ∈ As) (hc : c ∈ A.cons) (hl : c.all = [c]) (x : V) (hx : I.dom .ref (ρ x))
    (hi : I.holds ρ (transIsinstance (.var x) c)) : I.fn .typeof [ρ x] = I.fn (.pytype c.id) [] ∧
      I.fn (.box A.id) [I.fn (.unbox A.id) [ρ x]] = ρ x ∧ I.dom (.adt A.id) (I.fn (.unbox A.id) [ρ x]) ∧
      I.pred (.isCons A.id c.name) [I.fn (.unbox A.id) [ρ x]] := by
  simp only [transIsinstance, Interp.holds, tms_map, List.map_cons, List.map_nil, tm_app, trans, tm_var] at hi
  have hf := models_facts hh hm hA
  have hcA : le c.id A.id := (hh.below A hA A (mem_all A) _).2 (List.mem_map.2 ⟨c, cons_all hc, rfl⟩)
  have hA' := hm.1.trans _ _ _ (hm.1.typeof_dom _ hx) hi hcA
  obtain ⟨d, hd, e⟩ := hf.subs _ hx hA'
  rw [e] at hi
  have := (hh.below A hA c (cons_all hc) _).1 ((hm.1.subtype _ _).1 hi)
  rw [hl] at this
  simp only [List.map_cons, List.map_nil, List.mem_singleton] at this
  have hdc := (sameCls_of_id hh hA hA (cons_all hd) (cons_all hc) this).2
  subst hdc
  have hb := hf.boxUnbox _ hx hA'
  have hu := (hm.2 A hA).1.unbox _ hx
  exact ⟨e, hb, hu, (hf.boxIs _ hu d hc).2 (by rw [hb]; exact e)⟩

theorem lookup_mem : ∀ (fs : List (String × FTy)), (fs.map (·.1)).Nodup → ∀ f ∈ fs, fs.lookup f.1 = some f.2
  | [], _, f, h => by simp at h
  | g :: fs, hn, f, h => by
    simp only [List.map_cons, List.nodup_cons] at hn
    rw [List.lookup_cons]
    rcases List.mem_cons.1 h with rfl | h
    · simp
    · have : f.1 ≠ g.1 := fun e => hn.1 (e ▸ List.mem_map.2 ⟨f, h, rfl⟩)
      rw [show (f.1 == g.1) = false by simpa using this]
      exact lookup_mem fs hn.2 f h

/-- An instance of a constructor with fields is equal to the constructor applied to its fields.  Missing:
constructors without fields. -/
theorem C64_eta_partial {As le none} {I : Interp} {ρ : V → I.U} (hh : Hier As le none) (hm : I.Models As le none)
    {A c : Cls} (hA : A ∈ As) (hc : c ∈ A.cons) (hl : c.all = [c]) (hne : c.fields ≠ []) (x : V)
    (hx : I.dom .ref (ρ x)) (hi : I.holds ρ (transIsinstance (.var x) c)) :
    I.holds ρ (transEq (.var x) (.new A c (c.fields.map fun f => .field A c (.var x) f.1))) := by
  obtain ⟨ht, hb, hd, hic⟩ := isinstance_typeof hh hm hA hc hl x hx hi
  have hf := models_facts hh hm hA
  have key : ∀ fs : List (String × FTy), (∀ f ∈ fs, f ∈ c.fields) →
      (transArgs A fs (fs.map fun f => .field A c (.var x) f.1)).map (I.tm ρ) =
        fs.map fun f => I.fn (.decons A.id c.name f.1) [I.fn (.unbox A.id) [ρ x]] := by
    intro fs
    induction fs with
    | nil => intro _; simp [transArgs]
    | cons f fs ih =>
      intro h
      have hfm := h f (by simp)
      obtain ⟨n, t⟩ := f
      simp only [List.map_cons, transArgs, ih fun g hg => h g (by simp [hg]), List.cons.injEq, and_true]
      have hlk := lookup_mem c.fields (hh.fields A hA c hc) (n, t) hfm
      simp only at hlk
      simp only [trans, hlk]
      by_cases ha : isAdt A t = true
      · simp only [ha, if_true, tm_app, List.map_cons, List.map_nil, tm_var]
        refine hf.unboxBox _ ?_
        have hfs := fieldSort_eq (f := (n, t)) (hh.same A hA c hc (n, t) hfm)
        simp only [ha, if_true] at hfs
        have hsig : (Sym.decons A.id c.name n, [Srt.adt A.id], fieldSort A t, false) ∈ functions A := by
          simp only [functions, List.mem_append]
          exact .inl (.inl (.inr (List.mem_flatMap.2 ⟨c, hc, List.mem_map.2 ⟨(n, t), hfm, rfl⟩⟩)))
        rw [hfs] at hsig
        exact (hm.2 A hA).1.result _ _ _ _ hsig (by simp) [_] ⟨hd, trivial⟩
      · rw [if_neg ha, if_neg ha]
        simp
  simp only [transEq, Interp.holds, trans, tm_app, tm_var, List.map_cons, List.map_nil, consApp,
    key c.fields fun f h => h]
  rw [← hf.cod c hc hne _ hd hic, hb]

/-- For a constructor without fields, nothing says that its instances are equal to a call of the constructor: there
are interpretations in which they are not. -/
theorem C64_nullary_incomplete {As le none} (hh : Hier As le none) (hr : ¬ Restricted As le) {A c : Cls} (hA : A ∈ As)
    (hc : c ∈ A.cons) (hne : c.fields = []) (x : V) : ∃ (I : Interp) (ρ : V → I.U), I.Models As le none ∧
      I.dom .ref (ρ x) ∧ I.holds ρ (transIsinstance (.var x) c) ∧ ¬ I.holds ρ (transEq (.var x) (.new A c [])) := by
  refine ⟨term As le none, fun _ => Val.box A.id (.adt A.id c.name [.bool true]), term_models hh hr,
    Dom.box hA (.dup hA hc hne), ?_, ?_⟩
  · simp only [transIsinstance, Interp.holds, tms_map, List.map_cons, List.map_nil, tm_app, trans, tm_var]
    show le (classOf As none (.box A.id (.adt A.id c.name [.bool true]))) c.id
    rw [classOf_box hh hA hc rfl]
    exact (hh.below A hA c (cons_all hc) _).2 (List.mem_map.2 ⟨c, mem_all c, rfl⟩)
  · simp only [transEq, Interp.holds, trans, tm_app, tm_var, List.map_cons, List.map_nil, consApp, transArgs, hne]
    intro h
    have h : Val.box A.id (.adt A.id c.name [.bool true]) = Val.box A.id (mkV As none A.id c.name []) := h
    simp only [Val.box.injEq, true_and] at h
    unfold mkV at h
    split at h
    · cases h
    · simp at h

theorem leaf_mem : leaf ∈ tree.cons := by simp [tree, Cls.cons, Cls.all, alls, leaf]
theorem end_mem : end' ∈ tree.cons := by simp [tree, Cls.cons, Cls.all, alls, leaf, end']
theorem node_mem : node ∈ tree.cons := by simp [tree, Cls.cons, Cls.all, alls, leaf, end', node]

theorem C64_eta_fails : ¬ AdtEtaFaithful := by
  intro h
  obtain ⟨I, ρ, hm, hx, hi, hn⟩ := C64_nullary_incomplete tree_hier tree_unrestricted (A := tree) (c := leaf)
    (by simp) leaf_mem rfl .obj
  exact hn (h _ _ _ I ρ tree_hier hm tree (by simp) leaf leaf_mem (by simp [leaf, Cls.all, alls]) .obj hx hi)

/-- Without variables. -/
theorem agree_empty (I : Interp) (As : List Cls) (le) (ρ) : Agree I As le (fun _ => none) (fun _ => none) ρ :=
  fun x t h => by cases h

/-- `Leaf() == End()` is true in Python and false in Viper. -/
theorem C64_eq_fails : ¬ AdtEqFaithful := by
  intro h
  have hm := term_models tree_hier tree_unrestricted
  have h1 : ETy [tree] treeLe (fun _ => none) (.new tree leaf []) (.cls leaf.id "") := .new (by simp) leaf_mem .nil
  have h2 : ETy [tree] treeLe (fun _ => none) (.new tree end' []) (.cls end'.id "") := .new (by simp) end_mem .nil
  obtain ⟨va, vb, e1, e2, hiff⟩ := h _ _ _ _ _ _ (fun _ => Val.null) tree_hier hm (agree_empty _ _ _ _) _ _ _ _ _ _ h1 h2
  obtain ⟨va', vb', e1', e2', hiff'⟩ := C64_eq_partial tree_hier hm (agree_empty _ _ _ (fun _ => Val.null)) h1 h2
  simp only [eval, evals, Option.map_some, Option.some.injEq] at e1 e2 e1' e2'
  subst e1; subst e2; subst e1'; subst e2'
  have := (hiff'.1 (hiff.2 (by simp [pyEq, pyEqs]))).2
  simp [sameCls, leaf, end', Cls.id] at this

/-- `Leaf() is Leaf()` is false in Python and true in Viper. -/
theorem C64_is_fails : ¬ AdtIsFaithful := by
  intro h
  have hm := term_models tree_hier tree_unrestricted
  have h1 : ETy [tree] treeLe (fun _ => none) (.new tree leaf []) (.cls leaf.id "") := .new (by simp) leaf_mem .nil
  exact h _ _ _ _ _ _ (fun _ => Val.null) tree_hier hm (agree_empty _ _ _ _) _ _ _ _ _ _ _ _ _ _ h1 h1 rfl

/-- `Node(7, Leaf(), End()).left == Leaf()` is well typed. -/
example : ETy [tree] treeLe (fun _ => none)
    (.field tree node (.new tree node [.int 7, .new tree leaf [], .new tree end' []]) "left") (.cls 2 "Tree") := by
  refine .field (n := "Node") (by simp) node_mem (by simp [node, Cls.all, alls]) (.new (by simp) node_mem ?_) (by decide)
  refine .cons (.int 7) (.cons (.sub (i := 3) (n := "Leaf") (.new (by simp) leaf_mem .nil) ?_)
    (.cons (.sub (i := 4) (n := "End") (.new (by simp) end_mem .nil) ?_) .nil))
  · intro d h; exact tree_hier.trans d 3 2 h (by simp [treeLe])
  · intro d h; exact tree_hier.trans d 4 0 h (by simp [treeLe])

/-! ### C65 -/

/-- C65: the generated functions have different names, and the axioms and contracts are well typed. -/
def AdtDeclsWellFormed : Prop := ∀ (As : List Cls), (∀ A ∈ As, (A.cons.map Cls.name).Nodup ∧
  ∀ c ∈ A.cons, (c.fields.map (·.1)).Nodup) → ∀ A ∈ As, NamesDistinct A ∧ DeclsOk As A

/-- `class Token(Lex, NamedTuple('Token', [('type', int)]))` -/
def token : Cls := .mk 3 "Token" [("type", .int)] []
/-- `class Lex(ADT)` -/
def lex : Cls := .mk 2 "Lex" [] [token]

/-- A field called `type` gets the name of the constant for the constructor. -/
theorem C65_type_field_fails : ¬ NamesDistinct lex := by
  unfold NamesDistinct
  decide +kernel

/-- The deconstructors of a constructor `Add` with a field `One` and the constructor `Add_One`. -/
theorem C65_underscore_fails : ¬ NamesDistinct
    (.mk 2 "Exp" [] [.mk 3 "Add" [("One", .int)] [], .mk 4 "Add_One" [] []]) := by
  unfold NamesDistinct
  decide +kernel

/-- A constructor called `cons`. -/
theorem C65_cons_fails : ¬ NamesDistinct (.mk 2 "List" [] [.mk 3 "nil" [] [], .mk 4 "cons" [("head", .int)] []]) := by
  unfold NamesDistinct
  decide +kernel

/-- `class Cell(Tree, NamedTuple('Cell', [('other', forest.Tree)]))`: the field has a class called `Tree` from
another module. -/
def cell : Cls := .mk 3 "Cell" [("other", .cls 9 "Tree")] []
/-- `class Tree(ADT)` -/
def forestTree : Cls := .mk 2 "Tree" [] [cell]

/-- The deconstructor then returns an element of the domain, but its result is used as a reference. -/
theorem C65_same_name_fails : ¬ DeclsOk [forestTree] forestTree := by
  intro h
  have := h.axioms (.all .adt (.adt 2) (typeCheck (.app (.decons 2 "Cell" "other") [.var .adt]) (.cls 9 "Tree"))) (by
    simp [axioms, deconsTypes, forestTree, cell, Cls.cons, Cls.all, alls, Cls.fields, checked, isAdt, Cls.id, Cls.name,
      conjoin])
  obtain ⟨ss, hs, ht⟩ := this
  cases hs with
  | fn hA hm =>
    simp [functions, forestTree, cell, Cls.cons, Cls.all, alls, Cls.fields] at hA
    subst hA
    simp [functions, forestTree, cell, Cls.cons, Cls.all, alls, Cls.fields] at hm
  | issubtype =>
    cases ht with
    | cons h1 _ =>
      cases h1 with
      | app hs ht =>
        cases hs with
        | fn hA hm =>
          simp only [List.mem_singleton] at hA
          subst hA
          simp [functions, forestTree, cell, Cls.cons, Cls.all, alls, Cls.fields] at hm
        | typeof =>
          cases ht with
          | cons h1 _ =>
            cases h1 with
            | app hs ht =>
              cases hs with
              | fn hA hm =>
                simp only [List.mem_singleton] at hA
                subst hA
                simp [functions, forestTree, cell, Cls.cons, Cls.all, alls, Cls.fields, fieldSort, sameName,
                  Cls.name] at hm

theorem C65_wellformed_fails : ¬ AdtDeclsWellFormed := by
  intro h
  refine C65_type_field_fails (h [lex] ?_ lex (by simp)).1
  simp [lex, token, Cls.cons, Cls.all, alls, Cls.name, Cls.fields]

/-- The names are different if constructors contain no underscore and are not called `cons` (`is` is a keyword),
and if no field is called `type`. -/
theorem C65_names_partial (A : Cls) (hn : (A.cons.map Cls.name).Nodup) (hf : ∀ c ∈ A.cons, (c.fields.map (·.1)).Nodup)
    (hu : ∀ c ∈ A.cons, '_' ∉ c.name.toList) (hc : ∀ c ∈ A.cons, c.name ≠ "cons" ∧ c.name ≠ "is")
    (ht : ∀ c ∈ A.cons, ∀ f ∈ c.fields, f.1 ≠ "type") : NamesDistinct A :=
  names_distinct A hn hf hu hc ht

/-- The axioms and contracts are well typed if only the ADT itself has the name of the ADT. -/
theorem C65_typed_partial {As : List Cls} {A : Cls} (hA : A ∈ As)
    (hs : ∀ c ∈ A.cons, ∀ f ∈ c.fields, sameName A f.2 = isAdt A f.2) : DeclsOk As A :=
  decls_ok hA hs

/-- Translated expressions are well typed under the same condition. -/
theorem C65_expressions_partial {As : List Cls} {le : Nat → Nat → Prop}
    (hs : ∀ A ∈ As, ∀ c ∈ A.cons, ∀ f ∈ c.fields, sameName A f.2 = isAdt A f.2) {Γ : V → Option FTy} {e t}
    (he : ETy As le Γ e t) : TmOk As (fun x => (Γ x).map translateType) (trans e) (translateType t) :=
  trans_ok hs he

example : NamesDistinct tree ∧ DeclsOk [tree] tree :=
  ⟨by unfold NamesDistinct; decide +kernel, C65_typed_partial (by simp) (tree_hier.same tree (by simp))⟩

end Nagini.Adt
