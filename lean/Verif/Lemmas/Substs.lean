/-
Lemmas for C120.
-/
import Verif.Model.Substs

namespace Nagini.Substs

theorem substs_eq_map (σ : Nat → Nat → Ty) (ts : List Ty) : substs σ ts = ts.map (subst σ) := by
  induction ts with
  | nil => rfl
  | cons t ts ih => simp [substs, ih]

theorem substituteAll_eq_map (env : Env) (ts : List Ty) : substituteAll env ts = ts.map (substitute env) := by
  induction ts with
  | nil => rfl
  | cons t ts ih => simp [substituteAll, ih]

theorem containsVars_iff (ts : List Ty) : containsVars ts = true ↔ ∃ t ∈ ts, containsVar t = true := by
  induction ts with
  | nil => simp [containsVars]
  | cons t ts ih => simp [containsVars, ih]

/-- Induction over types. -/
theorem Ty.ind {P : Ty → Prop} (hc : ∀ c, P (.cls c)) (hg : ∀ c as, (∀ t ∈ as, P t) → P (.gen c as))
    (ht : ∀ ts, (∀ t ∈ ts, P t) → P (.tuple ts)) (hv : ∀ t, P t → P (.vtuple t)) (hx : ∀ c i, P (.var c i))
    (ho : ∀ t, P t → P (.opt t)) (hu : ∀ ts, (∀ t ∈ ts, P t) → P (.union ts)) (hn : P .none) (t : Ty) : P t := by
  refine Ty.rec (motive_1 := P) (motive_2 := fun ts => ∀ t ∈ ts, P t) hc hg ht hv hx ho hu hn ?_ ?_ t
  · simp
  · intro t ts h1 h2 u hu
    rcases List.mem_cons.1 hu with rfl | h
    · exact h1
    · exact h2 u h

theorem containsVar_iff (t : Ty) : containsVar t = true ↔ ∃ k i, Occurs (.var k i) t := by
  induction t using Ty.ind with
  | hc c => simp only [containsVar, Bool.false_eq_true, false_iff]; rintro ⟨k, i, h⟩; cases h
  | hn => simp only [containsVar, Bool.false_eq_true, false_iff]; rintro ⟨k, i, h⟩; cases h
  | hx c i => simp only [containsVar, true_iff]; exact ⟨c, i, .refl _⟩
  | hg c as ih =>
    simp only [containsVar, containsVars_iff]
    constructor
    · rintro ⟨t, ht, h⟩
      obtain ⟨k, i, h⟩ := (ih t ht).1 h
      exact ⟨k, i, .gen h ht⟩
    · rintro ⟨k, i, h⟩
      cases h with
      | gen h ht => exact ⟨_, ht, (ih _ ht).2 ⟨k, i, h⟩⟩
  | ht ts ih =>
    simp only [containsVar, containsVars_iff]
    constructor
    · rintro ⟨t, ht, h⟩
      obtain ⟨k, i, h⟩ := (ih t ht).1 h
      exact ⟨k, i, .tuple h ht⟩
    · rintro ⟨k, i, h⟩
      cases h with
      | tuple h ht => exact ⟨_, ht, (ih _ ht).2 ⟨k, i, h⟩⟩
  | hu ts ih =>
    simp only [containsVar, containsVars_iff]
    constructor
    · rintro ⟨t, ht, h⟩
      obtain ⟨k, i, h⟩ := (ih t ht).1 h
      exact ⟨k, i, .union h ht⟩
    · rintro ⟨k, i, h⟩
      cases h with
      | union h ht => exact ⟨_, ht, (ih _ ht).2 ⟨k, i, h⟩⟩
  | hv t ih =>
    simp only [containsVar, ih]
    exact ⟨fun ⟨k, i, h⟩ => ⟨k, i, .vtuple h⟩, fun ⟨k, i, h⟩ => by cases h with | vtuple h => exact ⟨k, i, h⟩⟩
  | ho t ih =>
    simp only [containsVar, ih]
    exact ⟨fun ⟨k, i, h⟩ => ⟨k, i, .opt h⟩, fun ⟨k, i, h⟩ => by cases h with | opt h => exact ⟨k, i, h⟩⟩

theorem map_congr_mem {α β : Type} {f g : α → β} {l : List α} (h : ∀ x ∈ l, f x = g x) : l.map f = l.map g :=
  List.map_congr_left h

/-- What is substituted depends on the occurring variables only. -/
theorem subst_congr {σ τ : Nat → Nat → Ty} (t : Ty) (h : ∀ k i, Occurs (.var k i) t → σ k i = τ k i) :
    subst σ t = subst τ t := by
  induction t using Ty.ind with
  | hc c => rfl
  | hn => rfl
  | hx c i => exact h c i (.refl _)
  | hg c as ih =>
    simp only [subst, substs_eq_map]
    rw [map_congr_mem fun t ht => ih t ht fun k i hk => h k i (.gen hk ht)]
  | ht ts ih =>
    simp only [subst, substs_eq_map]
    rw [map_congr_mem fun t ht => ih t ht fun k i hk => h k i (.tuple hk ht)]
  | hu ts ih =>
    simp only [subst, substs_eq_map]
    rw [map_congr_mem fun t ht => ih t ht fun k i hk => h k i (.union hk ht)]
  | hv t ih => simp only [subst, ih fun k i hk => h k i (.vtuple hk)]
  | ho t ih => simp only [subst, ih fun k i hk => h k i (.opt hk)]

theorem subst_var (t : Ty) : subst .var t = t := by
  induction t using Ty.ind with
  | hc c => rfl
  | hn => rfl
  | hx c i => rfl
  | hg c as ih => simp only [subst, substs_eq_map]; rw [map_congr_mem ih]; simp
  | ht ts ih => simp only [subst, substs_eq_map]; rw [map_congr_mem ih]; simp
  | hu ts ih => simp only [subst, substs_eq_map]; rw [map_congr_mem ih]; simp
  | hv t ih => simp only [subst, ih]
  | ho t ih => simp only [subst, ih]

theorem subst_ground {σ : Nat → Nat → Ty} {t : Ty} (h : Ground t) : subst σ t = t :=
  (subst_congr t fun k i hk => absurd hk (h k i)).trans (subst_var t)

/-- The substitution that a dictionary stands for. -/
def ofEnv (env : Env) : Nat → Nat → Ty := fun c i => (env.lookup (c, i)).getD (.var c i)

theorem substitute_eq (env : Env) (t : Ty) (h : NoVTuple t) : substitute env t = subst (ofEnv env) t := by
  induction t using Ty.ind with
  | hc c => rfl
  | hn => rfl
  | hx c i => rfl
  | hg c as ih =>
    simp only [subst, substs_eq_map, substitute, substituteAll_eq_map]
    rw [map_congr_mem fun t ht => ih t ht fun u hu => h u (.gen hu ht)]
  | ht ts ih =>
    simp only [subst, substs_eq_map, substitute, substituteAll_eq_map]
    rw [map_congr_mem fun t ht => ih t ht fun u hu => h u (.tuple hu ht)]
  | hu ts ih =>
    simp only [subst, substs_eq_map, substitute, substituteAll_eq_map]
    rw [map_congr_mem fun t ht => ih t ht fun u hu => h u (.union hu ht)]
  | hv t ih => exact absurd (.refl _) (h t)
  | ho t ih => simp only [subst, substitute, ih fun u hu => h u (.opt hu)]

/-! ### The dictionary -/

theorem lookup_zipVars (c k : Nat) (i n j : Nat) (ts : List Ty) (hl : ts.length = n) :
    (zipVars c i n ts).lookup (k, j) = if k = c ∧ i ≤ j then ts[j - i]? else none := by
  induction n generalizing i ts with
  | zero =>
    cases ts with
    | nil => simp [zipVars]
    | cons t ts => simp at hl
  | succ n ih =>
    cases ts with
    | nil => simp at hl
    | cons t ts =>
      have hl' : ts.length = n := by simpa using hl
      rw [zipVars, List.lookup_cons]
      by_cases hk : k = c
      · subst hk
        by_cases hj : j = i
        · subst hj; simp
        · have hb : ((k, j) == (k, i)) = false := by simp [hj]
          rw [hb, ih (i + 1) ts hl']
          by_cases hle : i ≤ j
          · have h1 : i + 1 ≤ j := by omega
            simp only [h1, hle, and_self, if_true]
            rw [show j - i = (j - (i + 1)) + 1 by omega, List.getElem?_cons_succ]
          · have h1 : ¬ i + 1 ≤ j := by omega
            simp [h1, hle]
      · have hb : ((k, j) == (c, i)) = false := by simp [hk]
        rw [hb, ih (i + 1) ts hl']
        simp [hk]

theorem lookup_append (t u : Env) (k : Nat × Nat) :
    (t ++ u).lookup k = (t.lookup k).orElse fun _ => u.lookup k := by
  induction t with
  | nil => simp
  | cons e t ih =>
    obtain ⟨k', ty⟩ := e
    rw [List.cons_append, List.lookup_cons, List.lookup_cons]
    cases k == k' <;> simp [ih]

theorem superOf_cases (tbl : Table) (hw : Wf tbl) (c : Nat) (as : List Ty) :
    (tbl.sup c = none ∧ superOf tbl c as = none) ∨
    (∃ e, tbl.sup c = some (.cls e) ∧ superOf tbl c as = some (.cls e) ∧ e < c ∧ tbl.nvars e = 0) ∨
    (∃ e es, tbl.sup c = some (.gen e es) ∧ superOf tbl c as = some (.gen e (es.map (instArg as))) ∧ e < c ∧
      es.length = tbl.nvars e ∧ ∀ t ∈ es, Of tbl c t) := by
  unfold superOf
  cases h : tbl.sup c with
  | none => exact .inl ⟨rfl, rfl⟩
  | some s =>
    rcases hw c s h with ⟨e, rfl, he⟩ | ⟨e, es, rfl, he⟩
    · exact .inr (.inl ⟨e, rfl, rfl, he⟩)
    · exact .inr (.inr ⟨e, es, rfl, rfl, he⟩)

/-- The receivers that are considered: a class, or a class with the right number of arguments. -/
def Recv (tbl : Table) (c : Nat) (r : Ty) : Prop :=
  r = .cls c ∨ ∃ as, r = .gen c as ∧ as.length = tbl.nvars c

/-- The dictionary exists, and has no variables of classes defined later. -/
theorem bound_some (tbl : Table) (hw : Wf tbl) (n : Nat) : ∀ (c : Nat) (r : Ty), c < n → Recv tbl c r →
    ∃ env, bound tbl n r = some env ∧ ∀ k i, c < k → env.lookup (k, i) = none := by
  induction n with
  | zero => intro c r h; omega
  | succ n ih =>
    intro c r hc hr
    rcases hr with rfl | ⟨as, rfl, hl⟩
    · rw [bound]
      cases hs : tbl.sup c with
      | none => exact ⟨[], rfl, by simp⟩
      | some s =>
        rcases hw c s hs with ⟨e, rfl, he, _⟩ | ⟨e, es, rfl, he, hel, _⟩
        · obtain ⟨env, h1, h2⟩ := ih e (.cls e) (by omega) (.inl rfl)
          exact ⟨env, h1, fun k i hk => h2 k i (by omega)⟩
        · obtain ⟨env, h1, h2⟩ := ih e (.gen e es) (by omega) (.inr ⟨es, rfl, hel⟩)
          exact ⟨env, h1, fun k i hk => h2 k i (by omega)⟩
    · rw [bound]
      have own : ∀ k i, c < k → (zipVars c 0 (tbl.nvars c) as).lookup (k, i) = none := by
        intro k i hk
        rw [lookup_zipVars _ _ _ _ _ _ hl, if_neg (by omega)]
      rcases superOf_cases tbl hw c as with ⟨_, h⟩ | ⟨e, _, h, he, _⟩ | ⟨e, es, _, h, he, hel, _⟩
      · rw [h]; exact ⟨_, rfl, fun k i hk => by simpa using own k i hk⟩
      · obtain ⟨env, h1, h2⟩ := ih e (.cls e) (by omega) (.inl rfl)
        rw [h]
        refine ⟨env ++ zipVars c 0 (tbl.nvars c) as, by simp only [h1]; rfl, fun k i hk => ?_⟩
        rw [lookup_append, h2 k i (by omega), own k i hk]; rfl
      · obtain ⟨env, h1, h2⟩ := ih e (.gen e (es.map (instArg as))) (by omega) (.inr ⟨_, rfl, by simpa using hel⟩)
        rw [h]
        refine ⟨env ++ zipVars c 0 (tbl.nvars c) as, by simp only [h1]; rfl, fun k i hk => ?_⟩
        rw [lookup_append, h2 k i (by omega), own k i hk]; rfl

/-- The dictionary of a generic receiver has its own arguments. -/
theorem bound_own (tbl : Table) (hw : Wf tbl) (n c : Nat) (as : List Ty) (hc : c < n) (hl : as.length = tbl.nvars c)
    (env : Env) (h : bound tbl n (.gen c as) = some env) (i : Nat) : env.lookup (c, i) = as[i]? := by
  cases n with
  | zero => omega
  | succ n =>
    rw [bound] at h
    have own : (zipVars c 0 (tbl.nvars c) as).lookup (c, i) = as[i]? := by
      rw [lookup_zipVars _ _ _ _ _ _ hl]; simp
    rcases superOf_cases tbl hw c as with ⟨_, hs⟩ | ⟨e, _, hs, he, _⟩ | ⟨e, es, _, hs, he, hel, _⟩
    · rw [hs] at h
      simp only [Option.map_some, List.nil_append, Option.some.injEq] at h
      rw [← h]; exact own
    · obtain ⟨env', h1, h2⟩ := bound_some tbl hw n e (.cls e) (by omega) (.inl rfl)
      rw [hs] at h
      simp only [h1, Option.map_some, Option.some.injEq] at h
      rw [← h, lookup_append, h2 c i he]; exact own
    · obtain ⟨env', h1, h2⟩ := bound_some tbl hw n e (.gen e (es.map (instArg as))) (by omega)
        (.inr ⟨_, rfl, by simpa using hel⟩)
      rw [hs] at h
      simp only [h1, Option.map_some, Option.some.injEq] at h
      rw [← h, lookup_append, h2 c i he]; exact own

theorem instArg_flat {c : Nat} {as : List Ty} {t : Ty} (h : (∃ i, t = .var c i) ∨ Ground t) :
    instArg as t = subst (inst c as) t := by
  rcases h with ⟨i, rfl⟩ | h
  · simp [instArg, subst, inst]
  · rw [subst_ground h]
    cases t with
    | var k i => exact absurd (.refl _) (h k i)
    | _ => rfl

theorem base_le (tbl : Table) (hw : Wf tbl) {c d : Nat} {as bs : List Ty} (h : Base tbl c as d bs) : d ≤ c := by
  induction h with
  | refl => exact Nat.le_refl _
  | cls hs _ ih =>
    rcases hw _ _ hs with ⟨e, he, hlt, _⟩ | ⟨e, es, he, _⟩
    · cases he; omega
    · cases he
  | gen hs _ ih =>
    rcases hw _ _ hs with ⟨e, he, _⟩ | ⟨e, es, he, hlt, _⟩
    · cases he
    · cases he; omega

/-- The dictionary of a receiver has the arguments of each generic base class. -/
theorem bound_base (tbl : Table) (hw : Wf tbl) (hf : Flat tbl) {c d : Nat} {as bs : List Ty}
    (hb : Base tbl c as d bs) : ∀ (n : Nat), c < n → as.length = tbl.nvars c → ∀ (r : Ty),
    (r = .gen c as ∨ (r = .cls c ∧ tbl.nvars c = 0)) → ∀ env, bound tbl n r = some env →
    ∀ i, i < tbl.nvars d → env.lookup (d, i) = bs[i]? := by
  induction hb with
  | refl c as =>
    intro n hc hl r hr env h i hi
    rcases hr with rfl | ⟨rfl, h0⟩
    · exact bound_own tbl hw n c as hc hl env h i
    · omega
  | @cls c as e d bs hs hb ih =>
    intro n hc hl r hr env h i hi
    rcases hw _ _ hs with ⟨e', he', hlt, h0⟩ | ⟨_, _, he', _⟩
    · cases he'
      have hde := base_le tbl hw hb
      cases n with
      | zero => omega
      | succ n =>
        rcases hr with rfl | ⟨rfl, hc0⟩
        · rw [bound] at h
          have hso : superOf tbl c as = some (.cls e) := by unfold superOf; rw [hs]
          obtain ⟨env', h1, _⟩ := bound_some tbl hw n e (.cls e) (by omega) (.inl rfl)
          rw [hso] at h
          simp only [h1, Option.map_some, Option.some.injEq] at h
          have := ih n (by omega) (by rw [h0]; rfl) (.cls e) (.inr ⟨rfl, h0⟩) env' h1 i hi
          rw [← h, lookup_append, this, lookup_zipVars _ _ _ _ _ _ hl, if_neg (by omega)]
          cases bs[i]? <;> rfl
        · rw [bound, hs] at h
          exact ih n (by omega) (by rw [h0]; rfl) (.cls e) (.inr ⟨rfl, h0⟩) env h i hi
    · cases he'
  | @gen c as e es d bs hs hb ih =>
    intro n hc hl r hr env h i hi
    rcases hw _ _ hs with ⟨_, he', _⟩ | ⟨e', es', he', hlt, hel, hof⟩
    · cases he'
    · cases he'
      have hde := base_le tbl hw hb
      have hmap : es.map (instArg as) = substs (inst c as) es := by
        rw [substs_eq_map]
        exact map_congr_mem fun t ht => instArg_flat (hf c e es hs t ht)
      have hlen : (substs (inst c as) es).length = tbl.nvars e := by rw [substs_eq_map]; simpa using hel
      cases n with
      | zero => omega
      | succ n =>
        rcases hr with rfl | ⟨rfl, hc0⟩
        · rw [bound] at h
          have hso : superOf tbl c as = some (.gen e (substs (inst c as) es)) := by
            unfold superOf; rw [hs]; simp only [hmap]
          obtain ⟨env', h1, _⟩ := bound_some tbl hw n e (.gen e (substs (inst c as) es)) (by omega)
            (.inr ⟨_, rfl, hlen⟩)
          rw [hso] at h
          simp only [h1, Option.map_some, Option.some.injEq] at h
          have := ih n (by omega) hlen _ (.inl rfl) env' h1 i hi
          rw [← h, lookup_append, this, lookup_zipVars _ _ _ _ _ _ hl, if_neg (by omega)]
          cases bs[i]? <;> rfl
        · rw [bound, hs] at h
          have hes : substs (inst c as) es = es := by
            rw [substs_eq_map]
            have : ∀ t ∈ es, subst (inst c as) t = t := fun t ht =>
              subst_ground fun k i hk => by
                have := (hof t ht k i hk).2
                omega
            rw [map_congr_mem this]; simp
          rw [hes] at ih hlen
          exact ih n (by omega) hlen _ (.inl rfl) env h i hi

theorem inst_ident (tbl : Table) (c : Nat) : inst c (ident tbl c) = .var := by
  funext k i
  unfold inst ident
  by_cases hk : k = c
  · subst hk
    by_cases hi : i < tbl.nvars k
    · simp [hi]
    · simp [hi]
  · simp [hk]

/-- The same for a receiver like `self`, whose type has no arguments. -/
theorem bound_self (tbl : Table) (hw : Wf tbl) (hf : Flat tbl) {c d : Nat} {bs : List Ty}
    (hb : Base tbl c (ident tbl c) d bs) (env : Env) (h : bound tbl (c + 1) (.cls c) = some env) (i : Nat)
    (hi : i < tbl.nvars d) : (env.lookup (d, i)).getD (.var d i) = bs[i]?.getD (.var d i) := by
  have hrefl : ∀ {as}, Base tbl c as d bs → as = ident tbl c → (d = c ∧ bs = ident tbl c) ∨
      (∃ e, tbl.sup c = some (.cls e) ∧ Base tbl e [] d bs) ∨
      (∃ e es, tbl.sup c = some (.gen e es) ∧ Base tbl e es d bs) := by
    intro as hb
    cases hb with
    | refl => exact fun h => .inl ⟨rfl, h⟩
    | cls hs hb => exact fun _ => .inr (.inl ⟨_, hs, hb⟩)
    | @gen _ _ e es _ _ hs hb =>
      rintro rfl
      refine .inr (.inr ⟨e, es, hs, ?_⟩)
      rwa [inst_ident, substs_eq_map, map_congr_mem (fun t _ => subst_var t), List.map_id'] at hb
  rcases hrefl hb rfl with ⟨rfl, rfl⟩ | ⟨e, hs, hb'⟩ | ⟨e, es, hs, hb'⟩
  · have hnone : env.lookup (d, i) = none := by
      rw [bound] at h
      cases hs : tbl.sup d with
      | none => rw [hs] at h; cases h; rfl
      | some s =>
        rw [hs] at h
        rcases hw d s hs with ⟨e, rfl, he, _⟩ | ⟨e, es, rfl, he, hel, _⟩
        · obtain ⟨env', h1, h2⟩ := bound_some tbl hw d e (.cls e) he (.inl rfl)
          cases h1.symm.trans h; exact h2 d i he
        · obtain ⟨env', h1, h2⟩ := bound_some tbl hw d e (.gen e es) he (.inr ⟨es, rfl, hel⟩)
          cases h1.symm.trans h; exact h2 d i he
    rw [hnone]
    simp [ident, hi]
  · rw [bound, hs] at h
    rcases hw _ _ hs with ⟨e', he', hlt, h0⟩ | ⟨_, _, he', _⟩
    · cases he'
      rw [bound_base tbl hw hf hb' c hlt (by rw [h0]; rfl) (.cls e) (.inr ⟨rfl, h0⟩) env h i hi]
    · cases he'
  · rw [bound, hs] at h
    rcases hw _ _ hs with ⟨_, he', _⟩ | ⟨e', es', he', hlt, hel, _⟩
    · cases he'
    · cases he'
      rw [bound_base tbl hw hf hb' c hlt hel (.gen e es) (.inl rfl) env h i hi]

theorem memberType_of {tbl : Table} {r ty : Ty} {d : Nat} {bs : List Ty} {env : Env}
    (hb : bound tbl (depth r) r = some env) (ho : Of tbl d ty)
    (hl : ∀ i, i < tbl.nvars d → ofEnv env d i = bs[i]?.getD (.var d i)) (hv : NoVTuple ty ∨ Ground ty) :
    memberType tbl r ty = some (subst (inst d bs) ty) := by
  unfold memberType
  by_cases hc : containsVar ty = true
  · have hn : NoVTuple ty := by
      rcases hv with h | h
      · exact h
      · obtain ⟨k, i, hk⟩ := (containsVar_iff ty).1 hc
        exact absurd hk (h k i)
    rw [if_pos hc, hb, Option.map_some, substitute_eq env ty hn]
    congr 1
    apply subst_congr
    intro k i hk
    obtain ⟨rfl, hi⟩ := ho k i hk
    rw [hl i hi]
    simp [inst]
  · rw [if_neg hc, subst_ground fun k i hk => hc ((containsVar_iff ty).2 ⟨k, i, hk⟩)]

end Nagini.Substs
