/-
C119: the type that is used for a field is the declared one.
-/
import Verif.Lemmas.FieldTypes

namespace Nagini.FieldTypes

/-- The full claim: in every well-typed program, in whatever order its fields are used, the type that
`Acc(x.a)` checks and assumes has exactly the values that the declared type allows. -/
def C119 : Prop :=
  ∀ (D : Decls) (files order : List Stmt), WellTyped D files → order.Perm files →
    ∀ r a t, accType D.param files order r a = some t →
      ∀ (Val : Type) (I : Interp Val) θ (v : Val), Den I θ t v ↔ Stored D I θ r a v

/-- The claim for fields whose first accesses have the declared type: `FirstDeclared` for the order in which
types are recorded, `FirstPlain` for the order in which fields are created.  All receivers are allowed
afterwards, also those of generic types. -/
theorem C119_declared_partial (D : Decls) (files order : List Stmt) (r : Ty) (c a : Nat) (t : Ty)
    (hr : r = .cls c ∨ ∃ u, r = .gen c u) (h1 : FirstDeclared D c a files) (h2 : FirstPlain c a order)
    (ht : accType D.param files order r a = some t) (Val : Type) (I : Interp Val) (θ : Nat → Val → Prop)
    (v : Val) : Den I θ t v ↔ Stored D I θ r a v := by
  obtain ⟨fs, c', ty, hf, hc, hl, rfl⟩ := accType_some ht
  have hcc : c' = c := by
    rcases hr with rfl | ⟨u, rfl⟩ <;> cases hc <;> rfl
  subst hcc
  obtain ⟨x, hx, hp⟩ := h2
  have hf' : (order.flatMap Stmt.accesses).foldlM (visitAttribute D.param (allTypes files)) [] = some fs := by
    rw [← hf, fields]; congr 2; funext s; exact (astStmt_eq s).symm
  obtain ⟨ty', h3, h4⟩ := foldlM_first hf' hx rfl
  rw [hl] at h4
  cases h4
  rw [typeof_plain hp, allTypes_first h1] at h3
  cases h3
  exact den_stored D I θ r c' a v hc

/-- For a class without type parameter whose field is never accessed through a union of several classes,
the type in use is never too wide: it has only values that the declared type allows. -/
theorem C119_narrow_partial (D : Decls) (files order : List Stmt) (c a : Nat) (t : Ty)
    (hw : WellTyped D files) (ho : ∀ f ∈ order, f ∈ files)
    (hp : ∀ f ∈ files, ∀ x ∈ f.accesses, x.To c a → Plain c x.recv)
    (ht : accType D.param files order (.cls c) a = some t) (Val : Type) (I : Interp Val)
    (θ : Nat → Val → Prop) (v : Val) (hv : Den I θ t v) : Stored D I θ (.cls c) a v := by
  obtain ⟨fs, c', ty, hf, hc, hl, rfl⟩ := accType_some ht
  cases hc
  rw [show binding D.param (.cls c) = none from rfl, substitute_none] at hv
  have hf' : (order.flatMap Stmt.accesses).foldlM (visitAttribute D.param (allTypes files)) [] = some fs := by
    rw [← hf, fields]; congr 2; funext s; exact (astStmt_eq s).symm
  rcases foldlM_mem hf' hl with h | ⟨x, hx, hto, hty⟩
  · cases h
  · obtain ⟨f, hfo, hxf⟩ := List.mem_flatMap.1 hx
    rw [typeof_plain (hp f (ho f hfo) x hxf hto)] at hty
    obtain ⟨g, hg, y, hy, hyto, rfl⟩ := allTypes_mem hty
    have hyp := hp g hg y hy hyto
    obtain ⟨r, hra, hrs⟩ := hw g hg y hy Val I θ v hv
    rw [hyto.1] at hrs
    rcases hyp with h | h | h <;> rw [h] at hra
    · cases hra; exact hrs
    · cases hra with
      | left h => cases h
      | right h => cases h; exact hrs
    · cases hra with
      | left h => cases h; exact hrs
      | right h => cases h

/-- If the first accesses have the declared type in two versions of a program, e.g. after moving methods,
then the same values are allowed. -/
theorem C119_order_partial (D : Decls) (files order files' order' : List Stmt) (r : Ty) (c a : Nat) (t t' : Ty)
    (hr : r = .cls c ∨ ∃ u, r = .gen c u) (h1 : FirstDeclared D c a files) (h2 : FirstPlain c a order)
    (h1' : FirstDeclared D c a files') (h2' : FirstPlain c a order')
    (ht : accType D.param files order r a = some t) (ht' : accType D.param files' order' r a = some t')
    (Val : Type) (I : Interp Val) (θ : Nat → Val → Prop) (v : Val) : Den I θ t v ↔ Den I θ t' v :=
  (C119_declared_partial D files order r c a t hr h1 h2 ht Val I θ v).trans
    (C119_declared_partial D files' order' r c a t' hr h1' h2' ht' Val I θ v).symm

/-! ### Concrete programs

Class 0 has the field 0 `next : Optional[Node]`; class 1 is generic in 7 and has the field 0 of type `T`;
classes 2 and 3 have fields 0 of types `int` (4) and `str` (5). -/

/-- The declarations of the examples. -/
abbrev exDecls : Decls where
  param c := if c = 1 then some 7 else none
  field c _ :=
    if c = 0 then .union .none (.cls 0) else if c = 1 then .tvar 7 else if c = 2 then .cls 4 else .cls 5

/-- `self.next`, with the declared type. -/
abbrev next : Access := ⟨.cls 0, 0, .union .none (.cls 0)⟩
/-- `self.next` after a check that it is not `None`. -/
abbrev narrowed : Access := ⟨.cls 0, 0, .cls 0⟩

/-- `def __init__(self): self.next = None  # type: Optional[Node]` -/
abbrev initStmt : Stmt := .assign (.attr next) .lit
/-- `def size(self): return Unfolding(self.inv(), self.next.size() + 1 if self.next is not None else 1)`,
where types are those of the accesses. -/
abbrev sizeStmt : Stmt := .expr (.cond (.isCmp (.attr next) .lit) (.op (.attr narrowed) .lit) .lit)

theorem next_ok : next.Ok exDecls := fun _ _ _ _ h => ⟨.cls 0, .cls 0, h⟩
theorem narrowed_ok : narrowed.Ok exDecls := fun _ _ _ _ h => ⟨.cls 0, .cls 0, .inr h⟩

theorem init_typed : ∀ x ∈ initStmt.accesses, x.Ok exDecls := by
  intro x hx
  simp only [Stmt.accesses, Expr.accesses, List.append_nil, List.mem_singleton] at hx
  exact hx ▸ next_ok

theorem size_typed : ∀ x ∈ sizeStmt.accesses, x.Ok exDecls := by
  intro x hx
  simp only [Stmt.accesses, Expr.accesses, List.append_nil, List.mem_append, List.mem_singleton] at hx
  rcases hx with rfl | rfl
  · exact next_ok
  · exact narrowed_ok

/-- With `__init__` first, all is well. -/
example : accType exDecls.param [.seq initStmt sizeStmt] [.seq initStmt sizeStmt] (.cls 0) 0 =
    some (.union .none (.cls 0)) := rfl

theorem init_firstDeclared : FirstDeclared exDecls 0 0 [.seq initStmt sizeStmt] :=
  ⟨[], .seq initStmt sizeStmt, [], next, rfl, by simp, ⟨[], [narrowed], rfl, ⟨rfl, .inl (.cls 0)⟩, by simp⟩, rfl⟩

theorem init_firstPlain : FirstPlain 0 0 [.seq initStmt sizeStmt] :=
  ⟨next, ⟨[], [next, narrowed], rfl, ⟨rfl, .inl (.cls 0)⟩, by simp⟩, .inl rfl⟩

/-- Non-vacuity of `C119_declared_partial`. -/
example (Val : Type) (I : Interp Val) (θ : Nat → Val → Prop) (v : Val) :
    Den I θ (.union .none (.cls 0)) v ↔ Stored exDecls I θ (.cls 0) 0 v :=
  C119_declared_partial exDecls _ _ (.cls 0) 0 0 _ (.inl rfl) init_firstDeclared init_firstPlain rfl Val I θ v

/-- An interpretation in which `false` is `None` and nothing else is an instance of anything. -/
abbrev noneInterp : Interp Bool := ⟨fun v => v = false, fun _ _ => False, fun _ _ _ => False⟩

/-- With `size` before `__init__`, the type is `Node`, which does not include `None`: the condition
`Acc(self.next)` fails for the last node. -/
theorem C119_narrowed_fails :
    WellTyped exDecls [.seq sizeStmt initStmt] ∧
    accType exDecls.param [.seq sizeStmt initStmt] [.seq sizeStmt initStmt] (.cls 0) 0 = some (.cls 0) ∧
    Stored exDecls noneInterp (fun _ _ => False) (.cls 0) 0 false ∧
    ¬ Den noneInterp (fun _ _ => False) (.cls 0) false := by
  refine ⟨?_, rfl, .inl rfl, fun h => h⟩
  intro f hf x hx
  cases List.mem_singleton.1 hf
  exact (List.mem_append.1 (show x ∈ sizeStmt.accesses ++ initStmt.accesses from hx)).elim
    (size_typed x) (init_typed x)

/-- Non-vacuity of `C119_narrow_partial`. -/
example (Val : Type) (I : Interp Val) (θ : Nat → Val → Prop) (v : Val) (hv : Den I θ (.cls 0) v) :
    Stored exDecls I θ (.cls 0) 0 v := by
  refine C119_narrow_partial exDecls [.seq sizeStmt initStmt] [.seq sizeStmt initStmt] 0 0 _
    C119_narrowed_fails.1 (fun _ h => h) ?_ rfl Val I θ v hv
  intro f hf x hx _
  cases List.mem_singleton.1 hf
  simp only [Stmt.accesses, Expr.accesses, List.append_nil, List.mem_append, List.mem_singleton] at hx
  rcases hx with (rfl | rfl) | rfl <;> exact .inl rfl

/-- The type recorded for one file is replaced by that of a file read later, although the file with the
class has the declared type. -/
theorem C119_files_fails :
    WellTyped exDecls [initStmt, sizeStmt] ∧
    accType exDecls.param [initStmt, sizeStmt] [initStmt, sizeStmt] (.cls 0) 0 = some (.cls 0) ∧
    accType exDecls.param [sizeStmt, initStmt] [initStmt, sizeStmt] (.cls 0) 0 =
      some (.union .none (.cls 0)) := by
  refine ⟨?_, rfl, rfl⟩
  intro f hf x hx
  simp only [List.mem_cons, List.not_mem_nil, or_false] at hf
  rcases hf with rfl | rfl
  · exact init_typed x hx
  · exact size_typed x hx

/-- A use of `c.f` with `c : C[int]` before the class itself makes the field an `int` for all
instances. -/
theorem C119_generic_fails :
    WellTyped exDecls [.expr (.op (.attr ⟨.gen 1 (.cls 4), 0, .cls 4⟩) (.attr ⟨.cls 1, 0, .tvar 7⟩))] ∧
    accType exDecls.param [.expr (.op (.attr ⟨.gen 1 (.cls 4), 0, .cls 4⟩) (.attr ⟨.cls 1, 0, .tvar 7⟩))]
      [.expr (.op (.attr ⟨.gen 1 (.cls 4), 0, .cls 4⟩) (.attr ⟨.cls 1, 0, .tvar 7⟩))]
      (.gen 1 (.cls 5)) 0 = some (.cls 4) := by
  refine ⟨?_, rfl⟩
  intro f hf x hx
  cases List.mem_singleton.1 hf
  simp only [Stmt.accesses, Expr.accesses, List.mem_append, List.mem_singleton] at hx
  rcases hx with rfl | rfl
  · intro Val I θ v h
    exact ⟨_, .gen 1 (.cls 4), by simpa [Stored, Den] using h⟩
  · intro Val I θ v h
    exact ⟨_, .cls 1, h⟩

/-- A use of `x.f` with `x : Union[A, B]` before the others gives the field of `A` the values of that of
`B`. -/
theorem C119_union_fails :
    WellTyped exDecls [.expr (.attr ⟨.union (.cls 2) (.cls 3), 0, .union (.cls 4) (.cls 5)⟩)] ∧
    ∃ t, accType exDecls.param [.expr (.attr ⟨.union (.cls 2) (.cls 3), 0, .union (.cls 4) (.cls 5)⟩)]
      [.expr (.attr ⟨.union (.cls 2) (.cls 3), 0, .union (.cls 4) (.cls 5)⟩)] (.cls 2) 0 = some t ∧
      ∀ (Val : Type) (I : Interp Val) (θ : Nat → Val → Prop) (v : Val), I.cls 5 v → Den I θ t v := by
  refine ⟨?_, _, rfl, fun _ _ _ _ h => .inl (.inr h)⟩
  intro f hf x hx
  cases List.mem_singleton.1 hf
  simp only [Stmt.accesses, Expr.accesses, List.mem_singleton] at hx
  subst hx
  intro Val I θ v h
  rcases h with h | h
  · exact ⟨_, .left (.cls 2), h⟩
  · exact ⟨_, .right (.cls 3), h⟩

theorem C119_fails : ¬ C119 := fun h =>
  C119_narrowed_fails.2.2.2 ((h exDecls _ _ C119_narrowed_fails.1 (List.Perm.refl _) (.cls 0) 0 _
    C119_narrowed_fails.2.1 Bool noneInterp (fun _ _ => False) false).2 C119_narrowed_fails.2.2.1)

end Nagini.FieldTypes
