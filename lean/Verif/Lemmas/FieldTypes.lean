/-
Lemmas for C119.
-/
import Verif.Model.FieldTypes

namespace Nagini.FieldTypes

theorem visitExpr_eq (e : Expr) : visitExpr e = e.outside := by
  induction e <;> simp_all [visitExpr, Expr.outside]

theorem visitStmt_eq (s : Stmt) : visitStmt s = s.outside := by
  induction s <;> simp_all [visitStmt, Stmt.outside, visitExpr_eq]

theorem astExpr_eq (e : Expr) : astExpr e = e.accesses := by
  induction e <;> simp_all [astExpr, Expr.accesses]

theorem astStmt_eq (s : Stmt) : astStmt s = s.accesses := by
  induction s <;> simp_all [astStmt, Stmt.accesses, astExpr_eq]

theorem outside_sub_expr (e : Expr) : ∀ x ∈ e.outside, x ∈ e.accesses := by
  induction e with
  | lit => simp [Expr.outside]
  | attr a => simp [Expr.outside, Expr.accesses]
  | op l r hl hr =>
    simp only [Expr.outside, Expr.accesses, List.mem_append]
    intro x hx; exact hx.imp (hl x) (hr x)
  | isCmp l r => simp [Expr.outside]
  | cond c a b hc ha hb =>
    simp only [Expr.outside, Expr.accesses, List.mem_append]
    intro x hx; exact hx.imp (hc x) (Or.imp (ha x) (hb x))

theorem outside_sub (s : Stmt) : ∀ x ∈ s.outside, x ∈ s.accesses := by
  induction s with
  | skip => simp [Stmt.outside]
  | expr e => exact outside_sub_expr e
  | assign t v =>
    simp only [Stmt.outside, Stmt.accesses, List.mem_append]
    intro x hx; exact (hx.imp (outside_sub_expr v x) (outside_sub_expr t x)).symm
  | del t => simp [Stmt.outside]
  | ite c a b ha hb =>
    simp only [Stmt.outside, Stmt.accesses, List.mem_append]
    intro x hx; exact hx.imp (outside_sub_expr c x) (Or.imp (ha x) (hb x))
  | seq a b ha hb =>
    simp only [Stmt.outside, Stmt.accesses, List.mem_append]
    intro x hx; exact hx.imp (ha x) (hb x)

theorem mem_heads {r t : Ty} : (∃ c, classOf r = some c) → (r ∈ heads t ↔ Alt r t) := by
  intro hc
  induction t with
  | none => simp only [heads, List.not_mem_nil, false_iff]; intro h; cases h
  | cls c =>
    simp only [heads, List.mem_singleton]
    exact ⟨fun h => h ▸ .cls c, fun h => by cases h; rfl⟩
  | gen c a =>
    simp only [heads, List.mem_singleton]
    exact ⟨fun h => h ▸ .gen c a, fun h => by cases h; rfl⟩
  | tvar n =>
    simp only [heads, List.mem_singleton]
    constructor
    · rintro rfl; obtain ⟨c, hc⟩ := hc; cases hc
    · intro h; cases h
  | union a b ha hb =>
    simp only [heads, List.mem_append, ha, hb]
    exact ⟨fun h => h.elim .left .right, fun h => by cases h with | left h => exact .inl h | right h => exact .inr h⟩

theorem mem_classes {c : Nat} {t : Ty} :
    c ∈ classes t ↔ Alt (.cls c) t ∨ ∃ u, Alt (.gen c u) t := by
  simp only [classes, List.mem_filterMap]
  constructor
  · rintro ⟨r, hr, hc⟩
    have := (mem_heads ⟨c, hc⟩).1 hr
    cases r <;> simp only [classOf, reduceCtorEq, Option.some.injEq] at hc
    · subst hc; exact .inl this
    · subst hc; exact .inr ⟨_, this⟩
  · rintro (h | ⟨u, h⟩)
    · exact ⟨_, (mem_heads ⟨c, rfl⟩).2 h, rfl⟩
    · exact ⟨_, (mem_heads ⟨c, rfl⟩).2 h, rfl⟩

theorem to_iff (x : Access) (c a : Nat) : x.To c a ↔ x.attr = a ∧ c ∈ classes x.recv := by
  simp only [Access.To, mem_classes]

/-! ### Tables -/

theorem lookup_setType (t : Table) (k k' : Nat × Nat) (ty : Ty) :
    (setType t k ty).lookup k' = (t.lookup k').orElse fun _ => if k' = k then some ty else none := by
  unfold setType
  cases h : t.lookup k with
  | some u =>
    by_cases hk : k' = k
    · subst hk; simp [h]
    · simp [hk]
  | none =>
    by_cases hk : k' = k
    · subst hk; simp [h]
    · have hb : (k' == k) = false := by simpa using hk
      simp [List.lookup_cons, hb, hk]

theorem lookup_addField (t : Table) (k k' : Nat × Nat) (ty : Ty) :
    (addField t k ty).lookup k' = (t.lookup k').orElse fun _ => if k' = k then some ty else none :=
  lookup_setType t k k' ty

theorem lookup_foldSet (cs : List Nat) (a : Nat) (ty : Ty) (k : Nat × Nat) (t : Table) :
    (cs.foldl (fun t c => setType t (c, a) ty) t).lookup k =
      (t.lookup k).orElse fun _ => if k.2 = a ∧ k.1 ∈ cs then some ty else none := by
  induction cs generalizing t with
  | nil => simp
  | cons c cs ih =>
    rw [List.foldl_cons, ih, lookup_setType]
    obtain ⟨k1, k2⟩ := k
    cases t.lookup (k1, k2) with
    | some u => simp
    | none =>
      by_cases h1 : k1 = c <;> by_cases h2 : k2 = a <;> simp [h1, h2]

theorem lookup_record (t : Table) (x : Access) (c a : Nat) :
    (record t x).lookup (c, a) =
      (t.lookup (c, a)).orElse fun _ => if a = x.attr ∧ c ∈ classes x.recv then some x.ty else none :=
  lookup_foldSet _ _ _ _ _

theorem lookup_keep {l : List Access} {t : Table} {c a : Nat} {ty : Ty} (h : t.lookup (c, a) = some ty) :
    (l.foldl record t).lookup (c, a) = some ty := by
  induction l generalizing t with
  | nil => exact h
  | cons x l ih => exact ih (by rw [lookup_record, h]; rfl)

theorem lookup_skip {l : List Access} {t : Table} {c a : Nat} (h : ∀ y ∈ l, ¬ y.To c a) :
    (l.foldl record t).lookup (c, a) = t.lookup (c, a) := by
  induction l generalizing t with
  | nil => rfl
  | cons x l ih =>
    rw [List.foldl_cons, ih (fun y hy => h y (by simp [hy])), lookup_record]
    have hx : ¬ (a = x.attr ∧ c ∈ classes x.recv) := fun hh =>
      h x (by simp) ((to_iff x c a).2 ⟨hh.1.symm, hh.2⟩)
    rw [if_neg hx]
    cases t.lookup (c, a) <;> rfl

theorem lookup_first {l : List Access} {c a : Nat} {x : Access} (h : First c a l x) :
    (l.foldl record []).lookup (c, a) = some x.ty := by
  obtain ⟨l1, l2, rfl, hx, h1⟩ := h
  rw [List.foldl_append, List.foldl_cons]
  apply lookup_keep
  rw [lookup_record, lookup_skip h1]
  have := (to_iff x c a).1 hx
  simp [this.1, this.2]

/-- Each recorded type is that of some access. -/
theorem lookup_collect_mem {l : List Access} {t : Table} {c a : Nat} {ty : Ty}
    (h : (l.foldl record t).lookup (c, a) = some ty) :
    t.lookup (c, a) = some ty ∨ ∃ x ∈ l, x.To c a ∧ x.ty = ty := by
  induction l generalizing t with
  | nil => exact .inl h
  | cons x l ih =>
    rcases ih h with h | ⟨y, hy, h⟩
    · rw [lookup_record] at h
      cases ht : t.lookup (c, a) with
      | some u => rw [ht] at h; exact .inl h
      | none =>
        rw [ht] at h
        by_cases hx : a = x.attr ∧ c ∈ classes x.recv
        · simp [hx] at h
          exact .inr ⟨x, by simp, (to_iff x c a).2 ⟨hx.1.symm, hx.2⟩, h⟩
        · simp [hx] at h
    · exact .inr ⟨y, by simp [hy], h⟩

theorem lookup_append (t u : Table) (k : Nat × Nat) :
    (t ++ u).lookup k = (t.lookup k).orElse fun _ => u.lookup k := by
  induction t with
  | nil => simp
  | cons e t ih =>
    obtain ⟨k', ty⟩ := e
    rw [List.cons_append, List.lookup_cons, List.lookup_cons]
    cases k == k' <;> simp [ih]

theorem allTypes_first {D : Decls} {c a : Nat} {files : List Stmt} (h : FirstDeclared D c a files) :
    (allTypes files).lookup (c, a) = some (D.field c a) := by
  obtain ⟨pre, f, post, x, rfl, hpost, hx, hty⟩ := h
  unfold allTypes
  rw [List.foldl_append, List.foldl_cons]
  generalize pre.foldl (fun t f => update t (collect f)) [] = t0
  have h0 : (update t0 (collect f)).lookup (c, a) = some (D.field c a) := by
    unfold update
    rw [lookup_append]
    unfold collect
    rw [visitStmt_eq, lookup_first hx, hty]; rfl
  generalize update t0 (collect f) = t1 at h0
  induction post generalizing t1 with
  | nil => exact h0
  | cons g post ih =>
    refine ih (fun g' hg' => hpost g' (by simp [hg'])) _ ?_
    unfold update
    rw [lookup_append]
    unfold collect
    rw [visitStmt_eq, lookup_skip (hpost g (by simp))]
    simpa using h0

theorem allTypes_mem {c a : Nat} {files : List Stmt} {ty : Ty}
    (h : (allTypes files).lookup (c, a) = some ty) :
    ∃ f ∈ files, ∃ x ∈ f.accesses, x.To c a ∧ x.ty = ty := by
  unfold allTypes at h
  have key : ∀ (fs : List Stmt) (t : Table),
      (fs.foldl (fun t f => update t (collect f)) t).lookup (c, a) = some ty →
      t.lookup (c, a) = some ty ∨ ∃ f ∈ fs, ∃ x ∈ f.accesses, x.To c a ∧ x.ty = ty := by
    intro fs
    induction fs with
    | nil => exact fun _ h => .inl h
    | cons f fs ih =>
      intro t h
      rcases ih _ h with h | ⟨g, hg, h⟩
      · unfold update at h
        rw [lookup_append] at h
        cases hc : (collect f).lookup (c, a) with
        | none => rw [hc] at h; exact .inl h
        | some u =>
          rw [hc] at h
          cases h
          unfold collect at hc
          rcases lookup_collect_mem hc with h | ⟨x, hx, h⟩
          · cases h
          · exact .inr ⟨f, by simp, x, outside_sub f x (by rwa [visitStmt_eq] at hx), h⟩
      · exact .inr ⟨g, by simp [hg], h⟩
  rcases key files [] h with h | h
  · cases h
  · exact h

/-! ### Fields -/

theorem visitAttribute_some {param : Nat → Option Nat} {tbl fs fs' : Table} {x : Access}
    (h : visitAttribute param tbl fs x = some fs') :
    ∃ ty, typeofAttr param tbl x.recv x.attr = some ty ∧ ∀ c a, fs'.lookup (c, a) =
      (fs.lookup (c, a)).orElse fun _ => if a = x.attr ∧ c ∈ classes x.recv then some ty else none := by
  unfold visitAttribute at h
  cases ht : typeofAttr param tbl x.recv x.attr with
  | none => simp [ht] at h
  | some ty =>
    simp only [ht, Option.map_some, Option.some.injEq] at h
    subst h
    exact ⟨ty, rfl, fun c a => lookup_foldSet _ _ _ _ _⟩

theorem foldlM_keep {param : Nat → Option Nat} {tbl fs fs' : Table} {l : List Access} {c a : Nat} {ty : Ty}
    (h : l.foldlM (visitAttribute param tbl) fs = some fs') (hl : fs.lookup (c, a) = some ty) :
    fs'.lookup (c, a) = some ty := by
  induction l generalizing fs with
  | nil => simp at h; exact h ▸ hl
  | cons x l ih =>
    rw [List.foldlM_cons] at h
    cases hx : visitAttribute param tbl fs x with
    | none => simp [hx] at h
    | some fs1 =>
      simp only [hx, Option.bind_eq_bind, Option.bind_some] at h
      obtain ⟨u, _, hu⟩ := visitAttribute_some hx
      exact ih h (by rw [hu, hl]; rfl)

theorem foldlM_first {param : Nat → Option Nat} {tbl fs fs' : Table} {l : List Access} {c a : Nat}
    {x : Access} (h : l.foldlM (visitAttribute param tbl) fs = some fs') (hf : First c a l x)
    (hn : fs.lookup (c, a) = none) :
    ∃ ty, typeofAttr param tbl x.recv a = some ty ∧ fs'.lookup (c, a) = some ty := by
  obtain ⟨l1, l2, rfl, hx, h1⟩ := hf
  induction l1 generalizing fs with
  | nil =>
    rw [List.nil_append, List.foldlM_cons] at h
    cases hv : visitAttribute param tbl fs x with
    | none => simp [hv] at h
    | some fs1 =>
      simp only [hv, Option.bind_eq_bind, Option.bind_some] at h
      obtain ⟨u, hu1, hu⟩ := visitAttribute_some hv
      have hx' := (to_iff x c a).1 hx
      refine ⟨u, hx'.1 ▸ hu1, foldlM_keep h ?_⟩
      rw [hu, hn]; simp [hx'.1, hx'.2]
  | cons y l1 ih =>
    rw [List.cons_append, List.foldlM_cons] at h
    cases hv : visitAttribute param tbl fs y with
    | none => simp [hv] at h
    | some fs1 =>
      simp only [hv, Option.bind_eq_bind, Option.bind_some] at h
      obtain ⟨u, _, hu⟩ := visitAttribute_some hv
      refine ih ?_ h (fun z hz => h1 z (by simp [hz]))
      have hy : ¬ (a = y.attr ∧ c ∈ classes y.recv) := fun hh =>
        h1 y (by simp) ((to_iff y c a).2 ⟨hh.1.symm, hh.2⟩)
      rw [hu, hn, if_neg hy]; rfl

/-- Each field gets its type from some access. -/
theorem foldlM_mem {param : Nat → Option Nat} {tbl fs fs' : Table} {l : List Access} {c a : Nat} {ty : Ty}
    (h : l.foldlM (visitAttribute param tbl) fs = some fs') (hl : fs'.lookup (c, a) = some ty) :
    fs.lookup (c, a) = some ty ∨ ∃ x ∈ l, x.To c a ∧ typeofAttr param tbl x.recv a = some ty := by
  induction l generalizing fs with
  | nil => simp at h; exact .inl (h ▸ hl)
  | cons x l ih =>
    rw [List.foldlM_cons] at h
    cases hx : visitAttribute param tbl fs x with
    | none => simp [hx] at h
    | some fs1 =>
      simp only [hx, Option.bind_eq_bind, Option.bind_some] at h
      rcases ih h with h | ⟨y, hy, h⟩
      · obtain ⟨u, hu1, hu⟩ := visitAttribute_some hx
        rw [hu] at h
        cases ht : fs.lookup (c, a) with
        | some u => rw [ht] at h; exact .inl h
        | none =>
          rw [ht] at h
          by_cases hc : a = x.attr ∧ c ∈ classes x.recv
          · simp [hc] at h
            exact .inr ⟨x, by simp, (to_iff x c a).2 ⟨hc.1.symm, hc.2⟩, by rw [hc.1, hu1, h]⟩
          · simp [hc] at h
      · exact .inr ⟨y, by simp [hy], h⟩

/-! ### Types -/

theorem conv_none (t : Ty) : conv none t = t := by
  induction t with
  | union a b ha hb => simp [conv, ha, hb]
  | _ => rfl

theorem substitute_none (t : Ty) : substitute none t = t := by
  induction t with
  | union a b ha hb => simp [substitute, ha, hb]
  | gen c a ha => simp [substitute, ha]
  | _ => rfl

theorem den_substitute {Val : Type} (I : Interp Val) (θ : Nat → Val → Prop) (m : Nat) (u t : Ty) :
    Den I θ (substitute (some (m, u)) t) =
      Den I (fun n => if some m = some n then Den I θ u else θ n) t := by
  induction t with
  | none => rfl
  | cls c => rfl
  | gen c a ha => simp only [substitute, Den, ha]
  | tvar n =>
    by_cases h : n = m
    · subst h; simp [substitute, Den]
    · have h' : ¬ m = n := fun e => h e.symm
      simp [substitute, Den, h, h']
  | union a b ha hb => funext v; simp only [substitute, Den, ha, hb]

/-- Substituting the argument of the receiver is what a field of such an object may have. -/
theorem den_stored {Val : Type} (D : Decls) (I : Interp Val) (θ : Nat → Val → Prop) (r : Ty) (c a : Nat)
    (v : Val) (hc : classOf r = some c) :
    Den I θ (substitute (binding D.param r) (D.field c a)) v ↔ Stored D I θ r a v := by
  cases r with
  | cls d => cases hc; simp [binding, substitute_none, Stored]
  | gen d t =>
    cases hc
    cases hp : D.param c with
    | none => simp [binding, hp, substitute_none, Stored]
    | some m =>
      simp only [binding, hp, Option.map_some, Stored]
      rw [den_substitute]
  | _ => cases hc

theorem typeof_plain {D : Decls} {tbl : Table} {r : Ty} {c a : Nat} (hp : Plain c r) :
    typeofAttr D.param tbl r a = tbl.lookup (c, a) := by
  rcases hp with rfl | rfl | rfl <;>
    cases h : tbl.lookup (c, a) <;> simp [typeofAttr, heads, classOf, binding, h, conv_none]

theorem accType_some {param : Nat → Option Nat} {files order : List Stmt} {r t : Ty} {a : Nat}
    (h : accType param files order r a = some t) :
    ∃ fs c ty, fields param files order = some fs ∧ classOf r = some c ∧ fs.lookup (c, a) = some ty ∧
      t = substitute (binding param r) ty := by
  unfold accType at h
  cases hf : fields param files order with
  | none => simp [hf] at h
  | some fs =>
    cases hc : classOf r with
    | none => simp [hf, hc] at h
    | some c =>
      cases hl : fs.lookup (c, a) with
      | none => simp [hf, hc, hl] at h
      | some ty =>
        simp [hf, hc, hl] at h
        exact ⟨fs, c, ty, rfl, rfl, hl, h.symm⟩

end Nagini.FieldTypes
