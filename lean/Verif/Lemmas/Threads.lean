import Verif.Spec.Threads
import Mathlib.Tactic.Linarith
import Mathlib.Tactic.Ring
import Mathlib.Tactic.NormNum
import Mathlib.Algebra.Order.BigOperators.Group.Finset
set_option linter.unusedVariables false
set_option linter.unusedSimpArgs false
/-!
Lemmas about threads.
-/
namespace Nagini.Threads

/-! ### Guards -/

/-- No `Old`, no `Result()` and no variable of `bs`. -/
def plain (bs : List String) : Term → Bool
  | .var x => decide (x ∉ bs)
  | .res => false
  | .lit _ => true
  | .field t _ => plain bs t
  | .plus a b => plain bs a && plain bs b
  | .old _ => false
  | .arg _ => true

/-- Everything under `Old` is plain. -/
def oldOkT (bs : List String) : Term → Bool
  | .field t _ => oldOkT bs t
  | .plus a b => oldOkT bs a && oldOkT bs b
  | .old t => plain bs t
  | _ => true

/-- `oldOkT` for conditions. -/
def oldOkC : List String → Cond → Bool
  | bs, .eq a b => oldOkT bs a && oldOkT bs b
  | bs, .lt a b => oldOkT bs a && oldOkT bs b
  | bs, .neg k => oldOkC bs k
  | bs, .conj k l => oldOkC bs k && oldOkC bs l
  | bs, .all x k => oldOkC (x :: bs) k

/-- `oldOkT` for assertions. -/
def oldOkA : Asn → Bool
  | .pure k => oldOkC [] k
  | .field t _ _ => oldOkT [] t
  | .builtin _ t _ => oldOkT [] t
  | .pred _ ts _ => ts.all (oldOkT [])
  | .glob _ _ => true
  | .start t _ => oldOkT [] t
  | .post t _ => oldOkT [] t
  | .maySet t _ => oldOkT [] t
  | .mayCreate t _ => oldOkT [] t
  | .and a b => oldOkA a && oldOkA b
  | .imp k a => oldOkC [] k && oldOkA a

/-- Only fields and predicates, with amounts that are not negative. -/
def scalable : Asn → Bool
  | .pure _ => true
  | .field _ _ p => decide (0 ≤ p)
  | .builtin _ _ p => decide (0 ≤ p)
  | .pred _ _ p => decide (0 ≤ p)
  | .and a b => scalable a && scalable b
  | .imp _ a => scalable a
  | _ => false

/-- No `MaySet`. -/
def noMaySet : Asn → Bool
  | .maySet _ _ => false
  | .and a b => noMaySet a && noMaySet b
  | .imp _ a => noMaySet a
  | _ => true

/-! ### Names -/

theorem lookup_zip {ps : List String} {vs : List Int} {x : String} {i : Nat} (hl : vs.length = ps.length)
    (h : ps.idxOf? x = some i) : ∃ v, vs[i]? = some v ∧ (ps.zip vs).lookup x = some v := by
  induction ps generalizing vs i with
  | nil => simp [List.idxOf?] at h
  | cons p ps ih =>
    cases vs with
    | nil => simp at hl
    | cons v vs =>
      simp only [List.length_cons, Nat.add_right_cancel_iff] at hl
      rw [List.idxOf?_cons] at h
      by_cases hp : p = x
      · subst hp
        simp at h
        subst h
        exact ⟨v, by simp, by simp [List.lookup]⟩
      · have hb : (p == x) = false := by simp [hp]
        have hb' : (x == p) = false := by simp [Ne.symm hp]
        rw [hb] at h
        simp only [Bool.false_eq_true, if_false, Option.map_eq_some_iff] at h
        obtain ⟨j, hj, rfl⟩ := h
        obtain ⟨w, h1, h2⟩ := ih hl hj
        exact ⟨w, by simpa using h1, by simpa [List.lookup, hb'] using h2⟩

theorem lookup_zip_none {ps : List String} {vs : List Int} {x : String} (h : ps.idxOf? x = none) :
    (ps.zip vs).lookup x = none := by
  induction ps generalizing vs with
  | nil => rfl
  | cons p ps ih =>
    cases vs with
    | nil => rfl
    | cons v vs =>
      rw [List.idxOf?_cons] at h
      by_cases hp : p = x
      · subst hp
        simp at h
      · have hb : (p == x) = false := by simp [hp]
        have hb' : (x == p) = false := by simp [Ne.symm hp]
        rw [hb] at h
        simp only [Bool.false_eq_true, if_false, Option.map_eq_none_iff] at h
        simpa [List.lookup, hb'] using ih h

theorem lookup_bound {bs : List (String × Int)} {x : String} (h : x ∈ bs.map Prod.fst) :
    ∃ v, bs.lookup x = some v := by
  induction bs with
  | nil => simp at h
  | cons b bs ih =>
    obtain ⟨y, v⟩ := b
    by_cases hy : x = y
    · exact ⟨v, by simp [List.lookup, hy]⟩
    · have : (x == y) = false := by simp [hy]
      simp only [List.map_cons, List.mem_cons, hy, false_or] at h
      simpa [List.lookup, this] using ih h

theorem lookup_free {bs : List (String × Int)} {x : String} (h : x ∉ bs.map Prod.fst) : bs.lookup x = none := by
  induction bs with
  | nil => rfl
  | cons b bs ih =>
    obtain ⟨y, v⟩ := b
    simp only [List.map_cons, List.mem_cons, not_or] at h
    have : (x == y) = false := by simp [h.1]
    simpa [List.lookup, this] using ih h.2

theorem resolve_eval {c : Ctx} {E : VEnv} {vs : List Int} {bs : List (String × Int)} {x : String} {v : VT}
    {r : Int} {ho co h : Heap} (hl : vs.length = c.params.length) (hp : ∀ i v, vs[i]? = some v → E.param i = v)
    (hr : resolve c (bs.map Prod.fst) x = some v) :
    evalV E bs co h v = evalT (c.params.zip vs) bs r ho h (.var x) := by
  simp only [resolve] at hr
  by_cases hb : x ∈ bs.map Prod.fst
  · rw [if_pos hb] at hr
    obtain ⟨w, hw⟩ := lookup_bound hb
    cases hr
    simp [evalV, evalT, hw]
  · rw [if_neg hb] at hr
    have hf := lookup_free hb
    cases hi : c.params.idxOf? x with
    | some i =>
      rw [hi] at hr
      cases hr
      obtain ⟨w, h1, h2⟩ := lookup_zip hl hi
      simp [evalV, evalT, hf, h2, hp i w h1]
    | none =>
      rw [hi] at hr
      by_cases hg : x ∈ c.globals
      · simp only [if_pos hg] at hr
        cases hr
        simp [evalV, evalT, hf, lookup_zip_none hi]
      · simp [if_neg hg] at hr

/-! ### Remembered values -/

theorem plain_eval {b : Bool} {m : Method} {E : VEnv} {vs : List Int} {bs : List (String × Int)} {r : Int}
    {co h ho : Heap} (hl : vs.length = m.params.length) (hp : ∀ i v, vs[i]? = some v → E.param i = v) :
    ∀ {t : Term} {v : VT}, transT (forkCtx b m) [] t = some v → plain (bs.map Prod.fst) t = true →
      evalV E [] co h v = evalT (m.params.zip vs) bs r ho h t := by
  intro t
  induction t with
  | var x =>
    intro v ht hpl
    have := resolve_eval (c := forkCtx b m) (bs := []) (r := r) (ho := ho) (co := co) (h := h) hl hp ht
    rw [this]
    simp only [plain, decide_eq_true_eq] at hpl
    simp [evalT, lookup_free hpl, forkCtx]
  | res => intro v ht hpl; cases hpl
  | lit n => intro v ht hpl; cases ht; rfl
  | field t f ih =>
    intro v ht hpl
    simp only [transT, Option.map_eq_some_iff] at ht
    obtain ⟨w, hw, rfl⟩ := ht
    simp only [evalV, evalT, ih hw hpl]
  | plus a c iha ihc =>
    intro v ht hpl
    simp only [transT, Option.map_eq_some_iff, Option.bind_eq_some_iff] at ht
    obtain ⟨w, hw, u, hu, rfl⟩ := ht
    simp only [plain, Bool.and_eq_true] at hpl
    simp only [evalV, evalT, iha hw hpl.1, ihc hu hpl.2]
  | old t ih => intro v ht hpl; cases hpl
  | arg i => intro v ht hpl; cases ht

theorem rememberAll_mem {c : Ctx} : ∀ {es : List Term} {eqs : List (Term × VT)}, rememberAll c es = some eqs →
    ∀ {e}, e ∈ es → ∃ v, transT c [] e = some v ∧ (norm c.params e, v) ∈ eqs := by
  intro es
  induction es with
  | nil => intro eqs h e he; cases he
  | cons d es ih =>
    intro eqs h e he
    simp only [rememberAll, Option.map_eq_some_iff, Option.bind_eq_some_iff] at h
    obtain ⟨w, hw, u, hu, rfl⟩ := h
    rcases List.mem_cons.1 he with rfl | he
    · exact ⟨w, hw, List.mem_cons_self⟩
    · obtain ⟨v, h1, h2⟩ := ih hu he
      exact ⟨v, h1, List.mem_cons_of_mem _ h2⟩

theorem rememberAll_of_mem {c : Ctx} : ∀ {es : List Term} {eqs : List (Term × VT)}, rememberAll c es = some eqs →
    ∀ {k v}, (k, v) ∈ eqs → ∃ e ∈ es, k = norm c.params e ∧ transT c [] e = some v := by
  intro es
  induction es with
  | nil => intro eqs h k v he; simp only [rememberAll, Option.some.injEq] at h; subst h; cases he
  | cons d es ih =>
    intro eqs h k v he
    simp only [rememberAll, Option.map_eq_some_iff, Option.bind_eq_some_iff] at h
    obtain ⟨w, hw, u, hu, rfl⟩ := h
    rcases List.mem_cons.1 he with he | he
    · cases he
      exact ⟨d, List.mem_cons_self, rfl, hw⟩
    · obtain ⟨e, h1, h2⟩ := ih hu he
      exact ⟨e, List.mem_cons_of_mem _ h1, h2⟩

theorem idxOf_inj {ps : List String} {x y : String} {i : Nat} (h : ps.idxOf? x = some i)
    (h' : ps.idxOf? y = some i) : x = y := by
  induction ps generalizing i with
  | nil => simp [List.idxOf?] at h
  | cons p ps ih =>
    rw [List.idxOf?_cons] at h h'
    by_cases hx : p == x <;> by_cases hy : p == y <;> simp [hx, hy] at h h' <;> try simp at hx hy
    · rw [← hx, ← hy]
    · subst h; obtain ⟨j, _, hj⟩ := h'; omega
    · subst h'; obtain ⟨j, _, hj⟩ := h; omega
    · obtain ⟨j, hj, rfl⟩ := h
      obtain ⟨k, hk, hkj⟩ := h'
      have : k = j := by omega
      subst this
      exact ih hj hk

/-- Expressions that can be translated and have the same text are the same. -/
theorem norm_inj {c c' : Ctx} {bs bs'} (ps : List String) : ∀ {t u : Term} {v w : VT}, transT c bs t = some v →
    transT c' bs' u = some w → c.olds = [] → c'.olds = [] → norm ps t = norm ps u → t = u := by
  intro t
  induction t with
  | var x =>
    intro u v w h h' ho ho' he
    cases u with
    | var y =>
      simp only [norm] at he
      cases hx : ps.idxOf? x <;> cases hy : ps.idxOf? y <;> rw [hx, hy] at he <;> simp at he
      · rw [he]
      · subst he
        rw [idxOf_inj hx hy]
    | arg i => cases h'
    | _ => simp only [norm] at he; split at he <;> cases he
  | arg i => intro u v w h; cases h
  | res =>
    intro u v w h h' ho ho' he
    cases u with
    | var y => simp only [norm] at he; split at he <;> cases he
    | res => rfl
    | _ => cases he
  | lit n =>
    intro u v w h h' ho ho' he
    cases u with
    | var y => simp only [norm] at he; split at he <;> cases he
    | lit k => simp only [norm] at he; exact he
    | _ => cases he
  | field t f ih =>
    intro u v w h h' ho ho' he
    cases u with
    | var y => simp only [norm] at he; split at he <;> cases he
    | field t' f' =>
      simp only [norm, Term.field.injEq] at he
      simp only [transT, Option.map_eq_some_iff] at h h'
      obtain ⟨_, h, _⟩ := h
      obtain ⟨_, h', _⟩ := h'
      rw [ih h h' ho ho' he.1, he.2]
    | _ => cases he
  | plus a b iha ihb =>
    intro u v w h h' ho ho' he
    cases u with
    | var y => simp only [norm] at he; split at he <;> cases he
    | plus a' b' =>
      simp only [norm, Term.plus.injEq] at he
      simp only [transT, Option.map_eq_some_iff, Option.bind_eq_some_iff] at h h'
      obtain ⟨_, h1, _, h2, _⟩ := h
      obtain ⟨_, h1', _, h2', _⟩ := h'
      rw [iha h1 h1' ho ho' he.1, ihb h2 h2' ho ho' he.2]
    | _ => cases he
  | old t ih =>
    intro u v w h h' ho ho' he
    cases u with
    | var y => simp only [norm] at he; split at he <;> cases he
    | old t' =>
      simp only [norm, Term.old.injEq] at he
      simp only [transT, ho, ho', List.not_mem_nil, if_false, Option.map_eq_some_iff] at h h'
      obtain ⟨_, h, _⟩ := h
      obtain ⟨_, h', _⟩ := h'
      rw [ih h h' ho ho' he]
    | _ => cases he

/-! ### The assertion at a join -/

section Join
variable {b : Bool} {m : Method} {L : Life} {E : VEnv} {eqs : List (Term × VT)}

theorem joinT (ha : Agrees m L E eqs) (hq : remember b m = some eqs) (ho : Heap) :
    ∀ {t : Term} {bs : List (String × Int)} {v : VT}, transT (joinCtx m) (bs.map Prod.fst) t = some v →
      oldOkT (bs.map Prod.fst) t = true → (∀ e ∈ collectT t, e ∈ collect m) →
      evalV E bs ho L.fin v = evalT (m.params.zip L.args) bs L.res L.start L.fin t := by
  intro t
  induction t with
  | var x => intro bs v ht hk hc; exact resolve_eval (c := joinCtx m) ha.args ha.param ht
  | res => intro bs v ht hk hc; cases ht; exact ha.res
  | lit n => intro bs v ht hk hc; cases ht; rfl
  | arg i => intro bs v ht; cases ht
  | field t f ih =>
    intro bs v ht hk hc
    simp only [transT, Option.map_eq_some_iff] at ht
    obtain ⟨w, hw, rfl⟩ := ht
    simp only [evalV, evalT, ih hw hk hc]
  | plus a c iha ihc =>
    intro bs v ht hk hc
    simp only [transT, Option.map_eq_some_iff, Option.bind_eq_some_iff] at ht
    obtain ⟨w, hw, u, hu, rfl⟩ := ht
    simp only [oldOkT, Bool.and_eq_true] at hk
    simp only [collectT, List.mem_append] at hc
    simp only [evalV, evalT, iha hw hk.1 fun e h => hc e (.inl h), ihc hu hk.2 fun e h => hc e (.inr h)]
  | old t ih =>
    intro bs v ht hk hc
    have hm : t ∈ collect m := hc t (by simp [collectT])
    have hin : norm (joinCtx m).params t ∈ (joinCtx m).olds := List.mem_map_of_mem hm
    rw [transT, if_pos hin] at ht
    cases ht
    obtain ⟨v, h1, h2⟩ := rememberAll_mem hq hm
    have := ha.eqs _ h2
    simp only [evalV, evalT]
    have e : E.old (norm (joinCtx m).params t) = evalV E [] L.callerOld L.start v := this
    rw [e]
    exact plain_eval ha.args ha.param h1 hk

theorem joinC (ha : Agrees m L E eqs) (hq : remember b m = some eqs) (ho : Heap) (W : World) :
    ∀ {k : Cond} {bs : List (String × Int)} {v : VC}, transC (joinCtx m) (bs.map Prod.fst) k = some v →
      oldOkC (bs.map Prod.fst) k = true → (∀ e ∈ collectC k, e ∈ collect m) →
      (truthV W E ho L.fin bs v ↔ holdsC (m.params.zip L.args) L.res L.start L.fin bs k) := by
  intro k
  induction k with
  | eq a c =>
    intro bs v ht hk hc
    simp only [transC, Option.map_eq_some_iff, Option.bind_eq_some_iff] at ht
    obtain ⟨w, hw, u, hu, rfl⟩ := ht
    simp only [oldOkC, Bool.and_eq_true] at hk
    simp only [collectC, List.mem_append] at hc
    simp only [truthV, holdsC, joinT ha hq ho hw hk.1 fun e h => hc e (.inl h),
      joinT ha hq ho hu hk.2 fun e h => hc e (.inr h)]
  | lt a c =>
    intro bs v ht hk hc
    simp only [transC, Option.map_eq_some_iff, Option.bind_eq_some_iff] at ht
    obtain ⟨w, hw, u, hu, rfl⟩ := ht
    simp only [oldOkC, Bool.and_eq_true] at hk
    simp only [collectC, List.mem_append] at hc
    simp only [truthV, holdsC, joinT ha hq ho hw hk.1 fun e h => hc e (.inl h),
      joinT ha hq ho hu hk.2 fun e h => hc e (.inr h)]
  | neg k ih =>
    intro bs v ht hk hc
    simp only [transC, Option.map_eq_some_iff] at ht
    obtain ⟨w, hw, rfl⟩ := ht
    simp only [truthV, holdsC, ih hw hk hc]
  | conj k l ihk ihl =>
    intro bs v ht hk hc
    simp only [transC, Option.map_eq_some_iff, Option.bind_eq_some_iff] at ht
    obtain ⟨w, hw, u, hu, rfl⟩ := ht
    simp only [oldOkC, Bool.and_eq_true] at hk
    simp only [collectC, List.mem_append] at hc
    simp only [truthV, holdsC, ihk hw hk.1 fun e h => hc e (.inl h), ihl hu hk.2 fun e h => hc e (.inr h)]
  | all x k ih =>
    intro bs v ht hk hc
    simp only [transC, Option.map_eq_some_iff] at ht
    obtain ⟨w, hw, rfl⟩ := ht
    simp only [truthV, holdsC]
    exact forall_congr' fun z => ih (bs := (x, z) :: bs) hw hk hc

theorem joinTs (ha : Agrees m L E eqs) (hq : remember b m = some eqs) (ho : Heap) :
    ∀ {ts : List Term} {vs : List VT}, transTs (joinCtx m) ts = some vs → ts.all (oldOkT []) = true →
      (∀ e ∈ ts.flatMap collectT, e ∈ collect m) →
      vs.map (evalV E [] ho L.fin) = ts.map (evalT (m.params.zip L.args) [] L.res L.start L.fin) := by
  intro ts
  induction ts with
  | nil => intro vs h _ _; cases h; rfl
  | cons t ts ih =>
    intro vs ht hk hc
    simp only [transTs, Option.map_eq_some_iff, Option.bind_eq_some_iff] at ht
    obtain ⟨w, hw, u, hu, rfl⟩ := ht
    simp only [List.all_cons, Bool.and_eq_true] at hk
    simp only [List.flatMap_cons, List.mem_append] at hc
    rw [List.map_cons, List.map_cons, ih hu hk.2 fun e h => hc e (.inr h),
      joinT ha hq ho (bs := []) hw hk.1 fun e h => hc e (.inl h)]

theorem joinA_facts (ha : Agrees m L E eqs) (hq : remember b m = some eqs) (ho : Heap) (W : World) :
    ∀ {a : Asn} {v : VA}, transA (joinCtx m) a = some v → oldOkA a = true → (∀ e ∈ collectA a, e ∈ collect m) →
      (factsV W E ho L.fin v ↔ holdsA W (m.params.zip L.args) L.res L.start L.fin a) := by
  intro a
  induction a with
  | pure k =>
    intro v ht hk hc
    simp only [transA, Option.map_eq_some_iff] at ht
    obtain ⟨w, hw, rfl⟩ := ht
    exact joinC ha hq ho W (bs := []) hw hk hc
  | field t f p =>
    intro v ht hk hc
    simp only [transA, Option.map_eq_some_iff] at ht
    obtain ⟨w, hw, rfl⟩ := ht
    simp [factsV, holdsA]
  | builtin f t p =>
    intro v ht hk hc
    simp only [transA, Option.map_eq_some_iff] at ht
    obtain ⟨w, hw, rfl⟩ := ht
    simp [factsV, holdsA]
  | pred n ts p =>
    intro v ht hk hc
    simp only [transA, Option.map_eq_some_iff] at ht
    obtain ⟨w, hw, rfl⟩ := ht
    simp [factsV, holdsA]
  | glob g p => intro v ht hk hc; cases ht; simp [factsV, holdsA]
  | start t p =>
    intro v ht hk hc
    simp only [transA, Option.map_eq_some_iff] at ht
    obtain ⟨w, hw, rfl⟩ := ht
    simp [factsV, holdsA]
  | post t p =>
    intro v ht hk hc
    simp only [transA, Option.map_eq_some_iff] at ht
    obtain ⟨w, hw, rfl⟩ := ht
    simp [factsV, holdsA, truthV, joinT ha hq ho (bs := []) hw hk hc]
  | maySet t f =>
    intro v ht hk hc
    simp only [transA, Option.map_eq_some_iff] at ht
    obtain ⟨w, hw, rfl⟩ := ht
    simp [factsV, holdsA]
  | mayCreate t f =>
    intro v ht hk hc
    simp only [transA, Option.map_eq_some_iff] at ht
    obtain ⟨w, hw, rfl⟩ := ht
    simp [factsV, holdsA]
  | and a c iha ihc =>
    intro v ht hk hc
    simp only [transA, Option.map_eq_some_iff, Option.bind_eq_some_iff] at ht
    obtain ⟨w, hw, u, hu, rfl⟩ := ht
    simp only [oldOkA, Bool.and_eq_true] at hk
    simp only [collectA, List.mem_append] at hc
    simp only [factsV, holdsA, iha hw hk.1 fun e h => hc e (.inl h), ihc hu hk.2 fun e h => hc e (.inr h)]
  | imp k a ih =>
    intro v ht hk hc
    simp only [transA, Option.map_eq_some_iff, Option.bind_eq_some_iff] at ht
    obtain ⟨w, hw, u, hu, rfl⟩ := ht
    simp only [oldOkA, Bool.and_eq_true] at hk
    simp only [collectA, List.mem_append] at hc
    simp only [factsV, holdsA, joinC ha hq ho W (bs := []) hw hk.1 fun e h => hc e (.inl h),
      ih hu hk.2 fun e h => hc e (.inr h)]

theorem joinA_gain (ha : Agrees m L E eqs) (hq : remember b m = some eqs) (ho : Heap) (W : World) (p : ℚ)
    (l : Loc) : ∀ {a : Asn} {v : VA}, transA (joinCtx m) a = some v → oldOkA a = true →
      (∀ e ∈ collectA a, e ∈ collect m) → (p = 1 ∧ noMaySet a = true) ∨ scalable a = true →
      gainV W E ho L.fin p v l = p * permA W (m.params.zip L.args) L.res L.start L.fin a l := by
  intro a
  induction a with
  | pure k =>
    intro v ht hk hc hg
    simp only [transA, Option.map_eq_some_iff] at ht
    obtain ⟨w, hw, rfl⟩ := ht
    simp [gainV, permA]
  | field t f q =>
    intro v ht hk hc hg
    simp only [transA, Option.map_eq_some_iff] at ht
    obtain ⟨w, hw, rfl⟩ := ht
    simp [gainV, permA, evalL, joinT ha hq ho (bs := []) hw hk hc, scale, joinCtx, evalP, mul_comm]
  | builtin f t q =>
    intro v ht hk hc hg
    simp only [transA, Option.map_eq_some_iff] at ht
    obtain ⟨w, hw, rfl⟩ := ht
    simp [gainV, permA, evalL, joinT ha hq ho (bs := []) hw hk hc, scale, joinCtx, evalP, mul_comm]
  | pred n ts q =>
    intro v ht hk hc hg
    simp only [transA, Option.map_eq_some_iff] at ht
    obtain ⟨w, hw, rfl⟩ := ht
    simp [gainV, permA, evalL, joinTs ha hq ho hw hk hc, scale, joinCtx, evalP, mul_comm]
  | glob g q =>
    intro v ht hk hc hg
    rcases hg with ⟨rfl, _⟩ | hg
    · cases ht
      by_cases h : l = Loc.glob g <;> simp [gainV, permA, evalL, evalP, h]
    · cases hg
  | start t q =>
    intro v ht hk hc hg
    simp only [transA, Option.map_eq_some_iff] at ht
    obtain ⟨w, hw, rfl⟩ := ht
    rcases hg with ⟨rfl, _⟩ | hg
    · simp [gainV, permA, evalL, evalP, joinT ha hq ho (bs := []) hw hk hc]
    · cases hg
  | post t q =>
    intro v ht hk hc hg
    simp only [transA, Option.map_eq_some_iff] at ht
    obtain ⟨w, hw, rfl⟩ := ht
    rcases hg with ⟨rfl, _⟩ | hg
    · simp [gainV, permA, evalL, evalP, joinT ha hq ho (bs := []) hw hk hc]
    · cases hg
  | maySet t f => intro v ht hk hc hg; rcases hg with ⟨_, hg⟩ | hg <;> cases hg
  | mayCreate t f =>
    intro v ht hk hc hg
    simp only [transA, Option.map_eq_some_iff] at ht
    obtain ⟨w, hw, rfl⟩ := ht
    rcases hg with ⟨rfl, _⟩ | hg
    · simp [gainV, permA, evalL, evalP, joinT ha hq ho (bs := []) hw hk hc]
    · cases hg
  | and a c iha ihc =>
    intro v ht hk hc hg
    simp only [transA, Option.map_eq_some_iff, Option.bind_eq_some_iff] at ht
    obtain ⟨w, hw, u, hu, rfl⟩ := ht
    simp only [oldOkA, Bool.and_eq_true] at hk
    simp only [collectA, List.mem_append] at hc
    simp only [noMaySet, scalable, Bool.and_eq_true] at hg
    simp only [gainV, permA, iha hw hk.1 (fun e h => hc e (.inl h)) (hg.imp (fun h => ⟨h.1, h.2.1⟩) (·.1)),
      ihc hu hk.2 (fun e h => hc e (.inr h)) (hg.imp (fun h => ⟨h.1, h.2.2⟩) (·.2)), mul_add]
  | imp k a ih =>
    intro v ht hk hc hg
    simp only [transA, Option.map_eq_some_iff, Option.bind_eq_some_iff] at ht
    obtain ⟨w, hw, u, hu, rfl⟩ := ht
    simp only [oldOkA, Bool.and_eq_true] at hk
    simp only [collectA, List.mem_append] at hc
    have hw' := joinC ha hq ho W (bs := []) hw hk.1 fun e h => hc e (.inl h)
    have hu' := ih hu hk.2 (fun e h => hc e (.inr h)) hg
    by_cases h : holdsC (m.params.zip L.args) L.res L.start L.fin [] k <;> simp [gainV, permA, hw', h, hu']

theorem transPosts_spec {c : Ctx} {W : World} {E : VEnv} {ho h : Heap} {p : ℚ} :
    ∀ {as : List Asn} {acc v : VA}, transPosts c as acc = some v → ∃ vs : List VA,
      as.map (transA c) = vs.map some ∧ (factsV W E ho h v ↔ factsV W E ho h acc ∧ ∀ w ∈ vs, factsV W E ho h w) ∧
      ∀ l, gainV W E ho h p v l = gainV W E ho h p acc l + (vs.map fun w => gainV W E ho h p w l).sum := by
  intro as
  induction as with
  | nil => intro acc v h; cases h; exact ⟨[], rfl, by simp, by simp⟩
  | cons a as ih =>
    intro acc v h
    simp only [transPosts, Option.bind_eq_some_iff] at h
    obtain ⟨w, hw, h⟩ := h
    obtain ⟨vs, h1, h2, h3⟩ := ih h
    refine ⟨w :: vs, by simp [hw, h1], by rw [h2]; simp [factsV, and_assoc], fun l => ?_⟩
    rw [h3 l]
    simp [gainV, add_assoc]

theorem join_facts (ha : Agrees m L E eqs) (hq : remember b m = some eqs) (ho : Heap) (W : World) {v : VA}
    (hv : joinAssertion m = some v) (hk : ∀ a ∈ m.posts, oldOkA a = true) :
    factsV W E ho L.fin v ↔ holdsPosts W (m.params.zip L.args) L.res L.start L.fin m.posts := by
  obtain ⟨vs, h1, h2, _⟩ := transPosts_spec (W := W) (E := E) (ho := ho) (h := L.fin) (p := 1) hv
  rw [h2]
  have hc : ∀ a ∈ m.posts, ∀ e ∈ collectA a, e ∈ collect m := fun a h e he => List.mem_flatMap.2 ⟨a, h, he⟩
  have key : ∀ (as : List Asn) (vs : List VA), (∀ a ∈ as, a ∈ m.posts) →
      as.map (transA (joinCtx m)) = vs.map some → ((∀ w ∈ vs, factsV W E ho L.fin w) ↔
        holdsPosts W (m.params.zip L.args) L.res L.start L.fin as) := by
    intro as
    induction as with
    | nil => intro vs _ h; cases vs <;> simp_all [holdsPosts]
    | cons a as ih =>
      intro vs hs h
      cases vs with
      | nil => simp at h
      | cons w vs =>
        simp only [List.map_cons, List.cons.injEq] at h
        have := ih vs (fun a h => hs a (List.mem_cons_of_mem _ h)) h.2
        have hw := joinA_facts ha hq ho W h.1 (hk a (hs a List.mem_cons_self)) (hc a (hs a List.mem_cons_self))
        simp only [holdsPosts, List.forall_mem_cons] at this ⊢
        rw [this, hw]
  rw [key m.posts vs (fun _ h => h) h1]
  simp [factsV, truthV]

theorem join_gain (ha : Agrees m L E eqs) (hq : remember b m = some eqs) (ho : Heap) (W : World) {v : VA}
    (hv : joinAssertion m = some v) (hk : ∀ a ∈ m.posts, oldOkA a = true) (p : ℚ)
    (hg : ∀ a ∈ m.posts, (p = 1 ∧ noMaySet a = true) ∨ scalable a = true) (l : Loc) :
    gainV W E ho L.fin p v l = p * permPosts W (m.params.zip L.args) L.res L.start L.fin m.posts l := by
  obtain ⟨vs, h1, _, h2⟩ := transPosts_spec (W := W) (E := E) (ho := ho) (h := L.fin) (p := p) hv
  rw [h2]
  have hc : ∀ a ∈ m.posts, ∀ e ∈ collectA a, e ∈ collect m := fun a h e he => List.mem_flatMap.2 ⟨a, h, he⟩
  have key : ∀ (as : List Asn) (vs : List VA), (∀ a ∈ as, a ∈ m.posts) →
      as.map (transA (joinCtx m)) = vs.map some → (vs.map fun w => gainV W E ho L.fin p w l).sum =
        p * permPosts W (m.params.zip L.args) L.res L.start L.fin as l := by
    intro as
    induction as with
    | nil => intro vs _ h; cases vs <;> simp_all [permPosts]
    | cons a as ih =>
      intro vs hs h
      cases vs with
      | nil => simp at h
      | cons w vs =>
        simp only [List.map_cons, List.cons.injEq] at h
        have := ih vs (fun a h => hs a (List.mem_cons_of_mem _ h)) h.2
        have hw := joinA_gain ha hq ho W p l h.1 (hk a (hs a List.mem_cons_self)) (hc a (hs a List.mem_cons_self))
          (hg a (hs a List.mem_cons_self))
        simp only [permPosts, List.map_cons, List.sum_cons] at this ⊢
        rw [this, hw, mul_add]
  rw [key m.posts vs (fun _ h => h) h1]
  simp [gainV]

theorem permA_nonneg {W : World} {args : List (String × Int)} {r : Int} {ho h : Heap} {l : Loc} :
    ∀ {a : Asn}, scalable a = true → 0 ≤ permA W args r ho h a l := by
  intro a
  induction a with
  | pure k => intro _; simp [permA]
  | field t f q => intro hs; simp only [scalable, decide_eq_true_eq] at hs; simp only [permA]; split <;> simp [hs]
  | builtin t f q => intro hs; simp only [scalable, decide_eq_true_eq] at hs; simp only [permA]; split <;> simp [hs]
  | pred t f q => intro hs; simp only [scalable, decide_eq_true_eq] at hs; simp only [permA]; split <;> simp [hs]
  | and a b iha ihb =>
    intro hs
    simp only [scalable, Bool.and_eq_true] at hs
    exact add_nonneg (iha hs.1) (ihb hs.2)
  | imp k a ih => intro hs; simp only [permA]; split; exacts [ih hs, le_refl _]
  | _ => intro hs; cases hs

theorem permPosts_nonneg {W : World} {args : List (String × Int)} {r : Int} {ho h : Heap} {l : Loc}
    {as : List Asn} (hs : ∀ a ∈ as, scalable a = true) : 0 ≤ permPosts W args r ho h as l := by
  apply List.sum_nonneg
  intro x hx
  obtain ⟨a, h1, rfl⟩ := List.mem_map.1 hx
  exact permA_nonneg (hs a h1)

end Join

/-! ### Threads -/

theorem sum_upd (n a : Nat) (ha : a < n) (g : Nat → ℚ) (x : ℚ) :
    ∑ i ∈ Finset.range n, (if i = a then x else g i) = ∑ i ∈ Finset.range n, g i + (x - g a) := by
  induction n with
  | zero => omega
  | succ n ih =>
    rw [Finset.sum_range_succ, Finset.sum_range_succ]
    by_cases h : a = n
    · subst h
      have : ∀ i ∈ Finset.range a, (if i = a then x else g i) = g i := by
        intro i hi
        rw [if_neg (by have := Finset.mem_range.1 hi; omega)]
      rw [Finset.sum_congr rfl this, if_pos rfl]
      ring
    · rw [ih (by omega), if_neg (fun e => h e.symm)]
      ring

theorem total_set {s : St} {i : Nat} (hi : i < s.n) (f : Loc → ℚ) (l : Loc) :
    (s.set i f).total l = s.total l + (f l - s.hold i l) := by
  simp only [St.total, St.set]
  rw [← sum_upd s.n i hi (fun j => s.hold j l) (f l)]
  apply Finset.sum_congr rfl
  intro j _
  split <;> rfl

/-- Permissions given up by threads that have ended, and not yet taken by joins. -/
structure Inv (T : Nat → Thr) (s : St) (pool : Nat → Loc → ℚ) : Prop where
  nonneg : ∀ i l, 0 ≤ s.hold i l
  pos : ∀ t l, 0 ≤ pool t l
  le : ∀ l, s.total l + ∑ t ∈ Finset.range s.n, pool t l ≤ 1
  fresh : ∀ k : Nat, s.n ≤ k → s.total (.post k) + ∑ t ∈ Finset.range s.n, pool t (.post k) = 0
  covered : ∀ t, s.done t → ∀ l,
    (s.total (.post t) + ∑ u ∈ Finset.range s.n, pool u (.post t)) * (T t).give l ≤ pool t l
  lt : ∀ t, s.done t → t < s.n
  empty : ∀ t, s.n ≤ t → ∀ l, pool t l = 0
  out : ∀ i, s.n ≤ i → ∀ l, s.hold i l = 0

theorem inv_init (T : Nat → Thr) : Inv T init (fun _ _ => 0) where
  nonneg i l := by
    simp only [init]
    split
    · cases l <;> simp
    · simp
  pos t l := le_refl _
  le l := by cases l <;> simp [init, St.total]
  fresh k hk := by simp [init, St.total]
  covered t ht := ht.elim
  lt t ht := ht.elim
  empty t _ l := rfl
  out i hi l := by simp only [init] at hi ⊢; rw [if_neg (by omega)]

theorem inv_step {T : Nat → Thr} (hg : ∀ t l, 0 ≤ (T t).give l) (he : ∀ t, (T t).exc = false)
    (hi : ∀ t p l, 0 ≤ p → (T t).inh p l = p * (T t).give l) {s s' : St} {pool} (I : Inv T s pool)
    (h : Step T s s') : ∃ pool', Inv T s' pool' := by
  cases h with
  | move i j f h1 h2 hij hf =>
    refine ⟨pool, ?_⟩
    have ht : ∀ l, ((s.set i fun l => s.hold i l - f l).set j fun l => s.hold j l + f l).total l = s.total l := by
      intro l
      rw [total_set (s := s.set i _) h2, total_set h1]
      have : (s.set i fun l => s.hold i l - f l).hold j l = s.hold j l := by
        simp only [St.set]; rw [if_neg (Ne.symm hij)]
      rw [this]
      ring
    refine ⟨?_, I.pos, ?_, ?_, ?_, I.lt, I.empty, ?_⟩
    · intro k l
      simp only [St.set]
      by_cases hk : k = j
      · subst hk; rw [if_pos rfl]; exact add_nonneg (I.nonneg k l) (hf l).1
      · rw [if_neg hk]
        by_cases hk' : k = i
        · subst hk'; rw [if_pos rfl]; have := (hf l).2; linarith
        · rw [if_neg hk']; exact I.nonneg k l
    · intro l; rw [ht]; exact I.le l
    · intro k hk; rw [ht]; exact I.fresh k hk
    · intro t hd l; rw [ht]; exact I.covered t hd l
    · intro k hk l
      simp only [St.set] at hk ⊢
      rw [if_neg (by omega), if_neg (by omega)]
      exact I.out k hk l
  | start i h1 =>
    refine ⟨pool, ?_⟩
    have ht : ∀ l, St.total { (s.set i fun l => s.hold i l + if l = .post s.n then 1 else 0).set s.n fun _ => 0
        with n := s.n + 1 } l = s.total l + if l = .post s.n then 1 else 0 := by
      intro l
      have h0 := total_set (s := s) h1 (fun l => s.hold i l + if l = .post s.n then 1 else 0) l
      simp only [St.total, St.set] at h0 ⊢
      rw [Finset.sum_range_succ]
      simp only [if_true, add_zero]
      rw [Finset.sum_congr rfl (g := fun j => (if j = i then fun l => s.hold i l + if l = .post s.n then 1 else 0
        else s.hold j) l), h0]
      · ring
      · intro j hj
        rw [if_neg (by have := Finset.mem_range.1 hj; omega)]
    have hp : ∀ l, ∑ t ∈ Finset.range (s.n + 1), pool t l = ∑ t ∈ Finset.range s.n, pool t l := by
      intro l; rw [Finset.sum_range_succ, I.empty _ (le_refl _), add_zero]
    refine ⟨?_, I.pos, ?_, ?_, ?_, ?_, ?_, ?_⟩
    · intro k l
      simp only [St.set]
      split
      · exact le_refl _
      · split
        · apply add_nonneg (I.nonneg i l); split <;> simp
        · exact I.nonneg k l
    · intro l
      rw [ht]
      show _ + ∑ t ∈ Finset.range (s.n + 1), pool t l ≤ 1
      rw [hp]
      split
      · next e => subst e; have := I.fresh s.n (le_refl _); linarith
      · have := I.le l; linarith
    · intro k hk
      simp only at hk
      rw [ht]
      show _ + ∑ t ∈ Finset.range (s.n + 1), pool t _ = 0
      rw [hp, if_neg (by simp; omega)]
      have := I.fresh k (by omega)
      linarith
    · intro t hd l
      have hlt := I.lt t hd
      rw [ht]
      show (_ + ∑ u ∈ Finset.range (s.n + 1), pool u (.post t)) * _ ≤ _
      rw [hp, if_neg (by simp; omega), add_zero]
      exact I.covered t hd l
    · intro t hd; have := I.lt t hd; simp only; omega
    · intro t hk l; simp only at hk; exact I.empty t (by omega) l
    · intro k hk l
      simp only [St.set] at hk ⊢
      rw [if_neg (by omega), if_neg (by omega)]
      exact I.out k (by omega) l
  | finish t h1 h2 h3 =>
    have hp : ∀ l, ∑ u ∈ Finset.range s.n, (if u = t then pool t l + (T t).give l else pool u l) =
        ∑ u ∈ Finset.range s.n, pool u l + (T t).give l := by
      intro l
      rw [sum_upd s.n t h1 (fun u => pool u l)]
      ring
    have ht : ∀ l, St.total { s.set t fun l => s.hold t l - (T t).give l with done := fun u => u = t ∨ s.done u } l =
        s.total l - (T t).give l := by
      intro l
      have h0 := total_set (s := s) h1 (fun l => s.hold t l - (T t).give l) l
      have : St.total { s.set t fun l => s.hold t l - (T t).give l with done := fun u => u = t ∨ s.done u } l =
        (s.set t fun l => s.hold t l - (T t).give l).total l := rfl
      rw [this, h0]
      ring
    have hs : ∀ l, St.total { s.set t fun l => s.hold t l - (T t).give l with done := fun u => u = t ∨ s.done u } l +
        ∑ u ∈ Finset.range s.n, (if u = t then pool t l + (T t).give l else pool u l) =
        s.total l + ∑ u ∈ Finset.range s.n, pool u l := by
      intro l; rw [ht, hp]; ring
    refine ⟨fun u l => if u = t then pool t l + (T t).give l else pool u l, ?_, ?_, ?_, ?_, ?_, ?_, ?_, ?_⟩
    · intro k l
      simp only [St.set]
      split
      · have := h3 l; linarith
      · exact I.nonneg k l
    · intro u l
      split
      · exact add_nonneg (I.pos t l) (hg t l)
      · exact I.pos u l
    · intro l; exact le_of_eq_of_le (hs l) (I.le l)
    · intro k hk; exact (hs _).trans (I.fresh k hk)
    · intro u hd l
      refine le_of_eq_of_le (congrArg (· * _) (hs _)) ?_
      by_cases hu : u = t
      · subst hu
        rw [if_pos rfl]
        have a := mul_le_mul_of_nonneg_right (I.le (.post u)) (hg u l)
        have := I.pos u l
        linarith
      · rw [if_neg hu]
        exact I.covered u (hd.resolve_left hu) l
    · intro u hd
      rcases hd with rfl | hd
      · exact h1
      · exact I.lt u hd
    · intro u hu l
      have hu' : s.n ≤ u := hu
      rw [if_neg (by omega)]
      exact I.empty u hu l
    · intro k hk l
      have hk' : s.n ≤ k := hk
      simp only [St.set]
      rw [if_neg (by omega)]
      exact I.out k hk l
  | raise t h1 h2 h3 => rw [he t] at h3; cases h3
  | join i t h1 h2 h3 h4 =>
    generalize hq : s.hold i (.post t) = q at h4 ⊢
    have hi' : ∀ l, (T t).inh q l = q * (T t).give l := fun l => hi t q l (le_of_lt h4)
    have hp : ∀ l, ∑ u ∈ Finset.range s.n, (if u = t then pool t l - q * (T t).give l else pool u l) =
        ∑ u ∈ Finset.range s.n, pool u l - q * (T t).give l := by
      intro l
      rw [sum_upd s.n t h2 (fun u => pool u l)]
      ring
    have ht : ∀ l, (s.set i fun l => s.hold i l + (T t).inh q l - if l = .post t then q else 0).total l =
        s.total l + q * (T t).give l - if l = .post t then q else 0 := by
      intro l
      rw [total_set h1, hi']
      ring
    have hs : ∀ l, (s.set i fun l => s.hold i l + (T t).inh q l - if l = .post t then q else 0).total l +
        ∑ u ∈ Finset.range s.n, (if u = t then pool t l - q * (T t).give l else pool u l) =
        s.total l + ∑ u ∈ Finset.range s.n, pool u l - if l = .post t then q else 0 := by
      intro l; rw [ht, hp]; ring
    have hle : ∀ l, 0 ≤ if l = Loc.post t then q else 0 := by intro l; split <;> linarith
    have hqt : q ≤ s.total (.post t) + ∑ u ∈ Finset.range s.n, pool u (.post t) := by
      have a : s.hold i (.post t) ≤ s.total (.post t) :=
        Finset.single_le_sum (f := fun j => s.hold j (.post t)) (fun j _ => I.nonneg j _) (Finset.mem_range.2 h1)
      have b : 0 ≤ ∑ u ∈ Finset.range s.n, pool u (.post t) := Finset.sum_nonneg fun u _ => I.pos u _
      rw [hq] at a
      linarith
    have hcov : ∀ l, q * (T t).give l ≤ pool t l := fun l =>
      le_trans (mul_le_mul_of_nonneg_right hqt (hg t l)) (I.covered t h3 l)
    refine ⟨fun u l => if u = t then pool t l - q * (T t).give l else pool u l, ?_, ?_, ?_, ?_, ?_, I.lt, ?_, ?_⟩
    · intro k l
      simp only [St.set]
      split
      · show 0 ≤ s.hold i l + (T t).inh q l - if l = .post t then q else 0
        rw [hi']
        have a := mul_nonneg (le_of_lt h4) (hg t l)
        have b := I.nonneg i l
        split
        · next e => subst e; rw [hq]; linarith
        · linarith
      · exact I.nonneg k l
    · intro u l
      split
      · have := hcov l; linarith
      · exact I.pos u l
    · intro l
      refine le_of_eq_of_le (hs l) ?_
      have := I.le l
      have := hle l
      linarith
    · intro k hk
      have hk' : s.n ≤ k := hk
      refine (hs _).trans ?_
      rw [if_neg (by simp; omega), I.fresh k hk, sub_zero]
    · intro u hd l
      refine le_of_eq_of_le (congrArg (· * _) (hs _)) ?_
      by_cases hu : u = t
      · subst hu
        rw [if_pos rfl, if_pos rfl, sub_mul]
        have := I.covered u h3 l
        linarith
      · rw [if_neg hu, if_neg (by simp; omega), sub_zero]
        exact I.covered u hd l
    · intro u hu l
      have hu' : s.n ≤ u := hu
      rw [if_neg (by omega)]
      exact I.empty u hu l
    · intro k hk l
      have hk' : s.n ≤ k := hk
      simp only [St.set]
      rw [if_neg (by omega)]
      exact I.out k hk l

theorem reach_inv {T : Nat → Thr} (hg : ∀ t l, 0 ≤ (T t).give l) (he : ∀ t, (T t).exc = false)
    (hi : ∀ t p l, 0 ≤ p → (T t).inh p l = p * (T t).give l) {s : St} (h : Reach T s) : ∃ pool, Inv T s pool := by
  induction h with
  | init => exact ⟨_, inv_init T⟩
  | step _ hs ih => obtain ⟨pool, I⟩ := ih; exact inv_step hg he hi I hs

theorem reach_le {T : Nat → Thr} (hg : ∀ t l, 0 ≤ (T t).give l) (he : ∀ t, (T t).exc = false)
    (hi : ∀ t p l, 0 ≤ p → (T t).inh p l = p * (T t).give l) {s : St} (h : Reach T s) (l : Loc) :
    (∀ i, 0 ≤ s.hold i l) ∧ s.total l ≤ 1 := by
  obtain ⟨pool, I⟩ := reach_inv hg he hi h
  refine ⟨fun i => I.nonneg i l, ?_⟩
  have := I.le l
  have b : 0 ≤ ∑ u ∈ Finset.range s.n, pool u l := Finset.sum_nonneg fun u _ => I.pos u _
  linarith

/-- Two joins of a thread that gives up all of `l` duplicate `l` if the permission is not scaled. -/
theorem dup (T : Nat → Thr) (l : Loc) (hl : (∀ t, l ≠ .post t) ∨ l = .post (2 : Nat))
    (hg : ∀ l', (T 1).give l' = if l' = l then 1 else 0) (hi : (T 1).inh (1 / 2) l = 1) :
    ∃ s, Reach T s ∧ s.total l = 2 := by
  have hl1 : l ≠ .post (1 : Nat) := by
    rcases hl with hl | rfl
    · exact hl 1
    · simp
  have hl1' : l ≠ .post 1 := hl1
  have hl3 : l ≠ .post 3 := by
    rcases hl with hl | rfl
    · exact hl 3
    · simp
  have hl0 : (match l with | .post _ => (0 : ℚ) | _ => 1) + (if l = .post (2 : Nat) then 1 else 0) = 1 := by
    rcases hl with hl | rfl
    · cases l <;> simp_all
    · simp
  have hl0' : (match l with | .post _ => (0 : ℚ) | _ => 1) + (if l = .post 2 then 1 else 0) = 1 := hl0
  let s1 : St := { (init.set 0 fun l => init.hold 0 l + if l = .post init.n then 1 else 0).set init.n fun _ => 0
    with n := init.n + 1 }
  have r1 : Reach T s1 := .step .init (.start init 0 (by decide))
  let s2 : St := { (s1.set 0 fun l => s1.hold 0 l + if l = .post s1.n then 1 else 0).set s1.n fun _ => 0
    with n := s1.n + 1 }
  have r2 : Reach T s2 := .step r1 (.start s1 0 (by decide))
  let s3 : St := { (s2.set 0 fun l => s2.hold 0 l + if l = .post s2.n then 1 else 0).set s2.n fun _ => 0
    with n := s2.n + 1 }
  have r3 : Reach T s3 := .step r2 (.start s2 0 (by decide))
  have e3 : s3.hold 0 l = 1 := by
    simp [s3, s2, s1, init, St.set, hl1', hl3]
    exact hl0'
  have p3 : s3.hold 0 (.post 1) = 1 := by simp [s3, s2, s1, init, St.set]
  have z3 : ∀ i, i ≠ 0 → ∀ l, s3.hold i l = 0 := by
    intro i hi l
    simp only [s3, s2, s1, init, St.set]
    simp [hi]
  have n3 : ∀ l, 0 ≤ s3.hold 0 l := by
    intro l
    simp only [s3, s2, s1, init, St.set]
    cases l <;> simp
    split <;> split <;> split <;> norm_num
  have m3 : s3.n = 4 := rfl
  have d3 : ∀ t, ¬ s3.done t := fun t h => h
  clear_value s3
  obtain ⟨s4, r4, e4⟩ : ∃ s4, Reach T s4 ∧ s4 = ((s3.set 0 fun l' => s3.hold 0 l' - if l' = l then 1 else 0).set 1
      fun l' => s3.hold 1 l' + if l' = l then 1 else 0) := by
    refine ⟨_, .step r3 (.move s3 0 1 (fun l' => if l' = l then 1 else 0) (by omega) (by omega) (by decide) ?_), rfl⟩
    intro l'
    by_cases h : l' = l
    · subst h; simp [e3]
    · simp [h, n3]
  obtain ⟨s5, r5, e5⟩ : ∃ s5, Reach T s5 ∧ s5 = ((s4.set 0 fun l' => s4.hold 0 l' - if l' = .post 1 then 1 / 2 else 0).set 3
      fun l' => s4.hold 3 l' + if l' = .post 1 then 1 / 2 else 0) := by
    refine ⟨_, .step r4 (.move s4 0 3 (fun l' => if l' = .post 1 then 1 / 2 else 0) (by simp [e4, St.set, m3])
      (by simp [e4, St.set, m3]) (by decide) ?_), rfl⟩
    intro l'
    by_cases h : l' = .post 1
    · subst h
      simp [e4, St.set, p3, Ne.symm hl1']
      norm_num
    · by_cases h' : l' = l
      · subst h'; simp [e4, St.set, h, e3]
      · simp [e4, St.set, h, h', n3]
  obtain ⟨s6, r6, e6⟩ : ∃ s6, Reach T s6 ∧
      s6 = { s5.set 1 fun l => s5.hold 1 l - (T 1).give l with done := fun u => u = 1 ∨ s5.done u } := by
    refine ⟨_, .step r5 (.finish s5 1 (by simp [e5, e4, St.set, m3]) (by simp [e5, e4, St.set, d3]) ?_), rfl⟩
    intro l'
    rw [hg]
    simp [e5, e4, St.set, z3]
  have h6 : s6.hold 0 (.post 1) = 1 / 2 := by
    simp [e6, e5, e4, St.set, p3, Ne.symm hl1']
    norm_num
  have h63 : s6.hold 3 (.post 1) = 1 / 2 := by simp [e6, e5, e4, St.set, z3]
  have r7 := Reach.step r6 (.join s6 0 1 (by simp [e6, e5, e4, St.set, m3]) (by simp [e6, e5, e4, St.set, m3])
    (by simp [e6]) (by show 0 < s6.hold 0 (.post 1); rw [h6]; norm_num))
  have r8 := Reach.step r7 (.join _ 3 1 (by simp [e6, e5, e4, St.set, m3]) (by simp [e6, e5, e4, St.set, m3])
    (by simp [e6, St.set]) (by
      show 0 < (St.set _ _ _).hold 3 (.post 1)
      simp only [St.set]
      rw [if_neg (by decide), h63]; norm_num))
  refine ⟨_, r8, ?_⟩
  have hn : s6.n = 4 := by simp [e6, e5, e4, St.set, m3]
  have a0 : s6.hold 0 l = 0 := by simp [e6, e5, e4, St.set, hl1', e3]
  have a1 : s6.hold 1 l = 0 := by simp [e6, e5, e4, St.set, hg, z3]
  have a2 : s6.hold 2 l = 0 := by simp [e6, e5, e4, St.set, z3]
  have a3 : s6.hold 3 l = 0 := by simp [e6, e5, e4, St.set, hl1', z3]
  have h6' : s6.hold 0 (.post ((1 : Nat) : Int)) = 1 / 2 := h6
  have h63' : s6.hold 3 (.post ((1 : Nat) : Int)) = 1 / 2 := h63
  simp only [St.total, St.set, hn, Finset.sum_range_succ, Finset.sum_range_zero]
  simp only [if_neg hl1, h6', h63', a0, a1, a2, a3, hi]
  norm_num [h63, a0, a1, a2, a3, hl1']
  norm_num at hi
  norm_num [hi]

/-! ### Consistency of the equations at a start -/

theorem evalV_old {c : Ctx} {bs : List String} {E : VEnv} {old : Term → Int} {bv} {co : Heap} :
    ∀ {t : Term} {v : VT}, transT c bs t = some v → c.olds = [] → (c.res = some .callerRes ∨ c.res = none) →
      ∀ h, evalV E bv co h v = evalV { E with old := old } bv co h v := by
  intro t
  induction t with
  | var x =>
    intro v hv hc hr h
    simp only [transT, resolve] at hv
    split at hv
    · cases hv; rfl
    · split at hv
      · cases hv; rfl
      · split at hv <;> cases hv; rfl
  | res => intro v hv hc hr h; simp only [transT] at hv; rcases hr with hr | hr <;> rw [hr] at hv <;> cases hv; rfl
  | lit n => intro v hv hc hr h; cases hv; rfl
  | arg i => intro v hv; cases hv
  | field t f ih =>
    intro v hv hc hr h
    simp only [transT, Option.map_eq_some_iff] at hv
    obtain ⟨w, hw, rfl⟩ := hv
    simp only [evalV, ← ih hw hc hr h]
  | plus a b iha ihb =>
    intro v hv hc hr h
    simp only [transT, Option.map_eq_some_iff, Option.bind_eq_some_iff] at hv
    obtain ⟨w, hw, u, hu, rfl⟩ := hv
    simp only [evalV, ← iha hw hc hr h, ← ihb hu hc hr h]
  | old t ih =>
    intro v hv hc hr h
    simp only [transT, hc, List.not_mem_nil, if_false, Option.map_eq_some_iff] at hv
    obtain ⟨w, hw, rfl⟩ := hv
    simp only [evalV, ← ih hw hc hr co]

theorem eqs_consistent {b : Bool} {m : Method} {eqs : List (Term × VT)} (h : remember b m = some eqs)
    (E : VEnv) (co st : Heap) : ∃ old : Term → Int, ∀ e ∈ eqs, old e.1 = evalV E [] co st e.2 := by
  refine ⟨fun k => match eqs.lookup k with | some v => evalV E [] co st v | none => 0, ?_⟩
  rintro ⟨k, v⟩ he
  obtain ⟨e, _, rfl, hv⟩ := rememberAll_of_mem h he
  have : ∃ w, eqs.lookup (norm (forkCtx b m).params e) = some w ∧ (norm (forkCtx b m).params e, w) ∈ eqs := by
    clear h
    induction eqs with
    | nil => cases he
    | cons d eqs ih =>
      obtain ⟨k', w⟩ := d
      by_cases hk : norm (forkCtx b m).params e = k'
      · exact ⟨w, by simp [List.lookup, hk], by simp [hk]⟩
      · have hk' : (norm (forkCtx b m).params e == k') = false := by simp [hk]
        simp only [List.lookup, hk']
        rcases List.mem_cons.1 he with he | he
        · cases he; exact absurd rfl hk
        · obtain ⟨u, h1, h2⟩ := ih he
          exact ⟨u, h1, List.mem_cons_of_mem _ h2⟩
  obtain ⟨w, h1, h2⟩ := this
  obtain ⟨d, _, hd, hw⟩ := rememberAll_of_mem h h2
  have := norm_inj _ hv hw rfl rfl hd
  subst this
  rw [hv] at hw
  cases hw
  simp only [h1]

end Nagini.Threads
