import Verif.Spec.Truth

/-! Lemmas for C101 and C102. -/
set_option linter.unusedVariables false
set_option linter.unusedSimpArgs false
namespace Nagini.Truth

theorem unwrap_pure (e : E) : (unwrap e).isPure = e.isPure := by cases e <;> rfl

theorem isPureN_eq : ∀ n e, isPureN n e = e.isPure := by
  intro n
  induction n with
  | zero => intro e; rfl
  | succ n ih =>
    intro e
    rw [← unwrap_pure e]
    rw [isPureN]
    cases h : unwrap e <;> simp [ih, E.isPure]

theorem isPure'_eq (e : E) : isPure' e = e.isPure := isPureN_eq _ _

/-- The Viper type of a value. -/
def VVal.typ : VVal → VT
  | .ref _ => .ref
  | .int _ => .int
  | .bool _ => .bool

theorem eval_typ (I : Interp) (ρ : Env) : ∀ e r, e.wt → eval I ρ e = some r → r.typ = e.typ := by
  intro e
  induction e with
  | refV x | intV x | boolV x | acc x => intro r _ h; simp only [eval, Option.some.injEq] at h; subst h; rfl
  | boxI e ih | boxB e ih =>
    intro r _ h; simp only [eval] at h
    split at h <;> simp at h; subst h; rfl
  | unboxI e ih | unboxB e ih | callB d e ih =>
    intro r _ h; simp only [eval] at h
    split at h
    · split at h <;> simp at h; subst h; rfl
    · simp at h
  | ite c a t f iha iht ihf =>
    intro r hw h; simp only [eval] at h
    obtain ⟨h1, h2, h3, h4, h5⟩ := hw
    split at h
    · split at h
      · exact iht r h4 h
      · rw [ihf r h5 h]; exact h2.symm
    · simp at h
  | add l r ihl ihr =>
    intro x hw h; simp only [eval] at h
    split at h <;> simp at h; subst h; rfl
  | and l r ihl ihr =>
    intro x hw h; simp only [eval] at h
    split at h
    · rw [ihr x hw.2.2.2 h]; exact hw.2.1
    · simp at h; subst h; rfl
    · simp at h
  | or l r ihl ihr =>
    intro x hw h; simp only [eval] at h
    split at h
    · simp at h; subst h; rfl
    · rw [ihr x hw.2.2.2 h]; exact hw.2.1
    · simp at h

theorem bool_iff (v : Val) (hv : v.ok) (h : sub (typeOf v) .bool = true) : ∃ b, v = .bool b := by
  cases v with
  | none => simp [typeOf, sub, mro] at h
  | int i => simp [typeOf, sub, mro] at h
  | bool b => exact ⟨b, rfl⟩
  | obj i c n =>
    have h2 : sub c .bool = false := hv.2.1
    rw [typeOf, h2] at h; simp at h

theorem intToRef_eval (I : Interp) (ρ : Env) (e : E) (i : Int) (h : eval I ρ e = some (.int i)) :
    ∃ v, eval I ρ (intToRef e) = some (.ref v) ∧ PyEq v (.int i) ∧ ((∀ x, e ≠ .unboxI x) → v = .int i) := by
  by_cases hx : ∃ x, e = .unboxI x
  · obtain ⟨x, rfl⟩ := hx
    simp only [eval] at h
    split at h
    · rename_i v hx
      split at h
      · rename_i hs
        simp only [Option.some.injEq, VVal.int.injEq] at h
        exact ⟨v, hx, Or.inr ⟨hs, by simp [typeOf, sub, mro], h⟩, fun hn => absurd rfl (hn x)⟩
      · simp at h
    · simp at h
  · have he : intToRef e = .boxI e := by
      cases e <;> first | rfl | exact absurd ⟨_, rfl⟩ hx
    exact ⟨.int i, by rw [he, eval, h], Or.inl rfl, fun _ => rfl⟩

theorem boolToRef_eval (I : Interp) (ρ : Env) (e : E) (b : Bool) (h : eval I ρ e = some (.bool b))
    (hr : ∀ x v, e = .unboxB x → eval I ρ x = some (.ref v) → v.ok) :
    eval I ρ (boolToRef e) = some (.ref (.bool b)) := by
  by_cases hx : ∃ x, e = .unboxB x
  · obtain ⟨x, rfl⟩ := hx
    simp only [eval] at h
    split at h
    · rename_i v hx
      split at h
      · rename_i hs
        simp only [Option.some.injEq, VVal.bool.injEq] at h
        obtain ⟨b', rfl⟩ := bool_iff v (hr x v rfl hx) hs
        have hb : b' = b := by
          rw [← h]; cases b' <;> rfl
        subst hb
        exact hx
      · simp at h
    · simp at h
  · have he : boolToRef e = .boxB e := by
      cases e <;> first | rfl | exact absurd ⟨_, rfl⟩ hx
    rw [he, eval, h]

theorem toRef_eval (I : Interp) (ρ : Env) (e : E) (hw : e.wt) (hp : e.isPure = true) (r : VVal)
    (h : eval I ρ e = some r) (hr : ∀ x v, e = .unboxB x → eval I ρ x = some (.ref v) → v.ok) :
    ∃ v, eval I ρ (toRef e) = some (.ref v) ∧ PyEq v r.obj ∧ ((∀ x, e ≠ .unboxI x) → v = r.obj) := by
  have ht := eval_typ I ρ e r hw h
  rw [toRef, isPure'_eq, hp, ← ht]
  cases r with
  | ref v => exact ⟨v, h, Or.inl rfl, fun _ => rfl⟩
  | int i => exact intToRef_eval I ρ e i h
  | bool b => exact ⟨.bool b, boolToRef_eval I ρ e b h hr, Or.inl rfl, fun _ => rfl⟩

/-! Classes -/

theorem mem_mro_self (c : Cls) : c ∈ mro c := by cases c <;> simp [mro]

theorem sub_iff (c d : Cls) : sub c d = true ↔ d ∈ mro c := by simp [sub]

theorem sub_refl (c : Cls) : sub c c = true := (sub_iff c c).2 (mem_mro_self c)

theorem mro_trans : ∀ a b c : Cls, b ∈ mro a → c ∈ mro b → c ∈ mro a := by
  intro a
  induction a with
  | user n d s ih =>
    intro b c hb hc
    simp only [mro, List.mem_cons] at hb ⊢
    rcases hb with rfl | hb
    · simpa [mro] using hc
    · exact Or.inr (ih b c hb hc)
  | _ => intro b c hb hc; simp [mro] at hb; rcases hb with rfl | hb <;> (try rcases hb with rfl | hb) <;>
      (try rcases hb with rfl | hb) <;> (try rcases hb with rfl | hb) <;> simp_all [mro] <;> grind

theorem sub_trans (a b c : Cls) (h1 : sub a b = true) (h2 : sub b c = true) : sub a c = true :=
  (sub_iff a c).2 (mro_trans a b c ((sub_iff a b).1 h1) ((sub_iff b c).1 h2))

theorem definer_mem (c : Cls) : sub c (definer c) = true := by
  induction c with
  | user n d s ih =>
    simp only [definer]
    split
    · exact sub_refl _
    · exact sub_trans _ s _ ((sub_iff _ _).2 (by simp [mro, mem_mro_self])) ih
  | _ => simp [definer, sub, mro]

theorem object_mem (c : Cls) : Cls.object ∈ mro c := by
  induction c with
  | user n d s ih => simp [mro, ih]
  | _ => simp [mro]

/-- The builtin class a class is derived from. -/
def base : Cls → Cls
  | .user _ _ s => base s
  | c => c

/-- Builtin classes. -/
def builtin : Cls → Bool
  | .user _ _ _ => false
  | _ => true

theorem sub_base (c D : Cls) (h : builtin D = true) : sub c D = sub (base c) D := by
  induction c with
  | user n d s ih =>
    rw [base, ← ih, Bool.eq_iff_iff, sub_iff, sub_iff, mro, List.mem_cons]
    constructor
    · rintro (rfl | h')
      · simp [builtin] at h
      · exact h'
    · exact Or.inr
  | _ => rfl

theorem builtin_base (c : Cls) : builtin (base c) = true := by
  induction c with
  | user n d s ih => exact ih
  | _ => rfl

theorem definer_base (c : Cls) (ha : accepted c = true) (hb : definer (base c) ≠ .object) :
    definer c = base c ∧ (mro c).find? pyHasBool = (mro (base c)).find? pyHasBool := by
  induction c with
  | user n d s ih =>
    simp only [accepted, Bool.and_eq_true] at ha
    obtain ⟨h1, h2⟩ := ih ha.1.1 hb
    have hd : d.boolDef = none := by
      cases hx : d.boolDef with
      | none => rfl
      | some p =>
        rw [hx] at ha
        have h3 := ha.1.2
        simp only [Bool.and_eq_true, beq_iff_eq] at h3
        rw [h1] at h3
        rw [base, h3.2] at hb
        exact absurd rfl hb
    refine ⟨by simp [definer, hd, h1, base], ?_⟩
    rw [mro, List.find?_cons_of_neg (by simp [pyHasBool, hd]), h2, base]
  | tuple => simp [base, definer] at hb
  | _ => exact ⟨rfl, rfl⟩

theorem len_base (c : Cls) (ha : accepted c = true) (hb : inheritsLen c = true) :
    (mro c).find? pyHasLen = some (base c) := by
  induction c with
  | user n d s ih =>
    simp only [accepted, Bool.and_eq_true] at ha
    have hs : inheritsLen s = true := hb
    have hd : d.lenDef = false := by
      have h3 := ha.2; rw [hs] at h3; simpa using h3
    rw [mro, List.find?_cons_of_neg (by simp [pyHasLen, hd]), ih ha.1.1 hs, base]
  | _ => first | rfl | simp [inheritsLen] at hb

theorem inheritsLen_base (c : Cls) : inheritsLen c = inheritsLen (base c) := by
  induction c with
  | user n d s ih => exact ih
  | _ => rfl

theorem definer_user (n : Nat) (d : Defs) (s : Cls) (hd : d.boolDef = some true) (c : Cls) (ha : accepted c = true)
    (h : sub c (.user n d s) = true) :
    definer c = .user n d s ∧ (mro c).find? pyHasBool = some (.user n d s) := by
  rw [sub_iff] at h
  induction c with
  | user n' d' s' ih =>
    rw [mro, List.mem_cons] at h
    rcases h with h | h
    · injection h with e1 e2 e3
      subst e1; subst e2; subst e3
      refine ⟨by simp [definer, hd], ?_⟩
      rw [mro, List.find?_cons_of_pos (by simp [pyHasBool, hd])]
    · simp only [accepted, Bool.and_eq_true] at ha
      obtain ⟨h1, h2⟩ := ih ha.1.1 h
      have hd' : d'.boolDef = none := by
        cases hx : d'.boolDef with
        | none => rfl
        | some p =>
          rw [hx] at ha
          have h3 := ha.1.2
          simp only [Bool.and_eq_true, beq_iff_eq] at h3
          rw [h1] at h3
          simp at h3
      refine ⟨by simp [definer, hd', h1], ?_⟩
      rw [mro, List.find?_cons_of_neg (by simp [pyHasBool, hd']), h2]
  | _ => simp [mro] at h

theorem definer_user_bool : ∀ (c : Cls) (n : Nat) (d : Defs) (s : Cls), definer c = .user n d s →
    d.boolDef = some true := by
  intro c
  induction c with
  | user n' d' s' ih =>
    intro n d s h
    simp only [definer] at h
    split at h
    · rename_i hb
      injection h with e1 e2 e3
      rw [← e2]; exact hb
    · exact ih n d s h
  | _ => intro n d s h; simp [definer] at h

theorem definer_not_tuple (c : Cls) : definer c ≠ .tuple := by
  induction c with
  | user n d s ih => simp only [definer]; split <;> simp [ih]
  | _ => simp [definer]

theorem commonL_ub : ∀ (l : List Cls) (a b : Cls), (∀ x ∈ l, sub a x = true) → sub a (l.getLast?.getD b) = true →
    (.object ∈ l) → sub a (commonL l b) = true ∧ sub b (commonL l b) = true := by
  intro l
  induction l with
  | nil => intro a b _ h ho; simp at ho
  | cons x l ih =>
    intro a b hl h ho
    rw [commonL]
    split
    · rename_i hx
      exact ⟨sub_trans a x b (hl x (by simp)) hx, sub_refl b⟩
    · split
      · rename_i hx
        exact ⟨hl x (by simp), hx⟩
      · rename_i h1 h2
        have hob : sub b .object = true := (sub_iff _ _).2 (object_mem b)
        rcases List.mem_cons.1 ho with rfl | ho
        · exact absurd hob h2
        · refine ih a b (fun y hy => hl y (by simp [hy])) ?_ ho
          cases l with
          | nil => simp at ho
          | cons y l => simpa [List.getLast?_cons_cons] using h

theorem common_ub (a b : Cls) : sub a (commonL (mro a) b) = true ∧ sub b (commonL (mro a) b) = true := by
  refine commonL_ub (mro a) a b (fun x hx => (sub_iff _ _).2 hx) ?_ (object_mem a)
  cases h : (mro a).getLast? with
  | none => rw [List.getLast?_eq_none_iff] at h; have := mem_mro_self a; rw [h] at this; simp at this
  | some x => exact (sub_iff _ _).2 (List.mem_of_getLast? h)

theorem foldl_ub : ∀ (l : List Cls) (a : Cls), sub a (l.foldl (fun a b => commonL (mro a) b) a) = true ∧
    ∀ d ∈ l, sub d (l.foldl (fun a b => commonL (mro a) b) a) = true := by
  intro l
  induction l with
  | nil => intro a; exact ⟨sub_refl a, by simp⟩
  | cons b l ih =>
    intro a
    obtain ⟨h1, h2⟩ := ih (commonL (mro a) b)
    obtain ⟨h3, h4⟩ := common_ub a b
    refine ⟨sub_trans _ _ _ h3 h1, ?_⟩
    intro d hd
    rcases List.mem_cons.1 hd with rfl | hd
    · exact sub_trans _ _ _ h4 h1
    · exact h2 d hd

theorem unionCls_ub (c : Cls) (l : List Cls) (d : Cls) (hd : d ∈ c :: l) : sub d (unionCls c l) = true :=
  (foldl_ub (c :: l) c).2 d hd

theorem pickL_sub (v : Val) : ∀ (l : List Cls) (c : Cls), (∃ d ∈ c :: l, sub (typeOf v) d = true) →
    sub (typeOf v) (pickL v c l) = true := by
  intro l
  induction l with
  | nil => intro c ⟨d, hd, h⟩; simp at hd; subst hd; exact h
  | cons b l ih =>
    intro c ⟨d, hd, h⟩
    rw [pickL]
    split
    · rename_i hc; exact hc
    · rename_i hc
      rcases List.mem_cons.1 hd with rfl | hd
      · exact absurd h hc
      · exact ih b ⟨d, hd, h⟩

theorem pickL_mem (v : Val) : ∀ (l : List Cls) (c : Cls), pickL v c l ∈ c :: l := by
  intro l
  induction l with
  | nil => intro c; simp [pickL]
  | cons b l ih =>
    intro c
    rw [pickL]
    split
    · simp
    · exact List.mem_cons_of_mem _ (ih b)

theorem pick_sub (v : Val) (t : STy) (h : HasType v t) : v = .none ∨ sub (typeOf v) (pick v t) = true := by
  cases t with
  | cls c => exact Or.inr h
  | opt c => exact h
  | union c l => exact Or.inr (pickL_sub v l c h)
  | optUnion c l =>
    rcases h with h | ⟨d, hd, h⟩
    · exact Or.inl h
    · exact Or.inr (sub_trans _ _ _ h (unionCls_ub c l d hd))

/-! Truth values -/

theorem admits_user (n : Nat) (d : Defs) (s : Cls) (v : Val) : admits (.user n d s) v = sub (typeOf v) (.user n d s) := rfl

theorem typeOf_accepted (v : Val) (hv : v.ok) : accepted (typeOf v) = true := by
  cases v with
  | obj i c n => exact hv.2.2.2
  | _ => rfl

theorem noneType_iff (v : Val) (hv : v.ok) (h : sub (typeOf v) .noneType = true) : v = .none := by
  cases v with
  | obj i c n =>
    have h2 : sub c .noneType = false := hv.2.2.1
    rw [typeOf, h2] at h; simp at h
  | none => rfl
  | int i => simp [typeOf, sub, mro] at h
  | bool b => simp [typeOf, sub, mro] at h

theorem pyTruth_none (W : World) : pyTruth W .none = false := rfl

theorem pyTruth_num (W : World) (v : Val) (hv : v.ok) (D : Cls) (hD : D ∈ [Cls.bool, .int, .float])
    (h : sub (typeOf v) D = true) : pyTruth W v = decide (payload v ≠ 0) := by
  have hb : builtin D = true := by
    simp only [List.mem_cons, List.mem_nil_iff, or_false] at hD
    rcases hD with rfl | rfl | rfl <;> rfl
  rw [sub_base _ _ hb] at h
  have hc : base (typeOf v) = .bool ∨ base (typeOf v) = .int ∨ base (typeOf v) = .float := by
    have hbb := builtin_base (typeOf v)
    simp only [List.mem_cons, List.mem_nil_iff, or_false] at hD
    cases hx : base (typeOf v) <;> simp_all [sub, mro, builtin] <;> rcases hD with rfl | rfl | rfl <;> simp at h
  have hdef : definer (base (typeOf v)) ≠ .object := by
    rcases hc with hc | hc | hc <;> rw [hc] <;> simp [definer]
  obtain ⟨h1, h2⟩ := definer_base _ (typeOf_accepted v hv) hdef
  rw [pyTruth, h2]
  rcases hc with hc | hc | hc <;> rw [hc] <;> rfl

theorem pyTruth_coll (W : World) (v : Val) (hv : v.ok) (D : Cls)
    (hD : D ∈ [Cls.list, .set, .dict, .str, .bytes, .bytearray]) (h : sub (typeOf v) D = true) :
    pyTruth W v = decide (payload v ≠ 0) := by
  simp only [List.mem_cons, List.mem_nil_iff, or_false] at hD
  have hb : builtin D = true := by
    rcases hD with rfl | rfl | rfl | rfl | rfl | rfl <;> rfl
  rw [sub_base _ _ hb] at h
  have hbb := builtin_base (typeOf v)
  have hc : base (typeOf v) = D := by
    cases hx : base (typeOf v) <;> rw [hx] at h hbb <;>
      rcases hD with rfl | rfl | rfl | rfl | rfl | rfl <;> simp [sub, mro, builtin] at h hbb <;> rfl
  have hdef : definer (base (typeOf v)) ≠ .object := by
    rw [hc]; rcases hD with rfl | rfl | rfl | rfl | rfl | rfl <;> simp [definer]
  obtain ⟨h1, h2⟩ := definer_base _ (typeOf_accepted v hv) hdef
  have h3 : (mro (typeOf v)).find? pyHasLen = some D := by
    rw [← hc]
    refine len_base _ (typeOf_accepted v hv) ?_
    rw [inheritsLen_base, hc]
    rcases hD with rfl | rfl | rfl | rfl | rfl | rfl <;> rfl
  rw [pyTruth, h2, h3, hc]
  rcases hD with rfl | rfl | rfl | rfl | rfl | rfl <;> rfl

theorem pyTruth_user (W : World) (v : Val) (hv : v.ok) (n : Nat) (d : Defs) (s : Cls) (hd : d.boolDef = some true)
    (h : sub (typeOf v) (.user n d s) = true) : pyTruth W v = W.ub n v := by
  rw [pyTruth, (definer_user n d s hd _ (typeOf_accepted v hv) h).2]

/-- Functions other than those of `object` and `float` have Python's value. -/
theorem truth_of_definer (W : World) (I : Interp) (hI : Contracts W I) (v : Val) (hv : v.ok) (c : Cls)
    (hs : v = .none ∨ sub (typeOf v) c = true) (had : admits (definer c) v = true) (h1 : definer c ≠ .float)
    (h2 : definer c = .object → v = .none) : I (definer c) v = pyTruth W v := by
  by_cases hn : v = .none
  · subst hn
    rw [pyTruth_none]
    cases hD : definer c with
    | object => exact hI.objectNone
    | noneType => exact hI.noneType
    | tuple => exact absurd hD (definer_not_tuple c)
    | range => rw [hD] at had; simp [admits] at had
    | user n d s =>
      rw [hD, admits_user] at had
      simp [typeOf, sub, mro] at had
    | _ => exact hI.null _ (by simp)
  · have hs : sub (typeOf v) (definer c) = true := by
      rcases hs with hs | hs
      · exact absurd hs hn
      · exact sub_trans _ _ _ hs (definer_mem c)
    cases hD : definer c with
    | object => exact absurd (h2 hD) hn
    | float => exact absurd hD h1
    | noneType => rw [hD] at hs; exact absurd (noneType_iff v hv hs) hn
    | tuple => exact absurd hD (definer_not_tuple c)
    | range => rw [hD] at had; simp [admits] at had
    | user n d s =>
      rw [hD] at hs
      rw [hI.user n d s v hs, pyTruth_user W v hv n d s (definer_user_bool c n d s hD) hs]
    | int => rw [hD] at hs; rw [hI.int v hs, pyTruth_num W v hv .int (by simp) hs]
    | bool => rw [hD] at hs; rw [hI.bool v hs, pyTruth_num W v hv .bool (by simp) hs]
    | _ => rw [hD] at hs; rw [hI.coll _ (by simp) v hs, pyTruth_coll W v hv _ (by simp) hs]

/-- Python's truth values, where the contracts allow them. -/
def pyInterp (W : World) : Interp := fun d v =>
  match d with
  | .object => if v ≠ .none ∧ excluded (typeOf v) = false then true else pyTruth W v
  | .noneType => false
  | .user n _ _ => W.ub n v
  | _ => decide (payload v ≠ 0)

theorem pyInterp_contracts (W : World) : Contracts W (pyInterp W) where
  objectNone := by simp [pyInterp, pyTruth_none]
  object := by intro v h1 h2; simp [pyInterp, h1, h2]
  noneType := rfl
  null := by
    intro d hd
    simp only [List.mem_cons, List.mem_nil_iff, or_false] at hd
    rcases hd with rfl | rfl | rfl | rfl | rfl | rfl | rfl | rfl | rfl <;> rfl
  bool := fun v _ => rfl
  int := fun v _ => rfl
  float := fun v _ => rfl
  coll := by
    intro d hd v _
    simp only [List.mem_cons, List.mem_nil_iff, or_false] at hd
    rcases hd with rfl | rfl | rfl | rfl | rfl | rfl <;> rfl
  user := fun n d s v _ => rfl

/-! Evaluation -/

theorem chain_eval (I : Interp) (ρ : Env) (arg : E) (v : Val) (h : eval I ρ arg = some (.ref v)) :
    ∀ (l : List Cls) (c : Cls), eval I ρ (chain arg c l) =
      if admits (definer (pickL v c l)) v then some (.bool (I (definer (pickL v c l)) v)) else none := by
  intro l
  induction l with
  | nil => intro c; rw [chain, eval, h]; rfl
  | cons d l ih =>
    intro c
    rw [chain, eval, h]
    simp only [pickL]
    by_cases hc : sub (typeOf v) c = true
    · simp only [hc, if_true, eval, h]
    · simp only [hc, if_false, ih]
      rfl

theorem callBool_eval (I : Interp) (ρ : Env) (arg : E) (v : Val) (h : eval I ρ arg = some (.ref v)) (t : STy) :
    eval I ρ (callBool t arg) =
      if admits (definer (pick v t)) v then some (.bool (I (definer (pick v t)) v)) else none := by
  cases t with
  | cls c => rw [callBool, eval, h]; rfl
  | opt c => rw [callBool, eval, h]; rfl
  | union c l => exact chain_eval I ρ arg v h l c
  | optUnion c l => rw [callBool, eval, h]; rfl

theorem isBool_iff (t : STy) : isBool t = true ↔ t = .cls .bool := by
  constructor
  · intro h
    cases t with
    | cls c => cases c <;> simp [isBool] at h ⊢
    | _ => simp [isBool] at h
  · rintro rfl; rfl

theorem pyTruth_bool (W : World) (b : Bool) : pyTruth W (.bool b) = b := by
  rw [pyTruth_num W (.bool b) trivial .bool (by simp) (by simp [sub, mro, typeOf])]
  cases b <;> rfl

/-- A condition is the object's boolean, or the value of the function picked. -/
theorem refToBool_eval (W : World) (I : Interp) (ρ : Env) (e : E) (v : Val) (hv : v.ok)
    (h : eval I ρ e = some (.ref v)) (t : STy) :
    (∃ b, v = .bool b ∧ eval I ρ (refToBool e (some t)) = some (.bool b)) ∨
    ((∀ b, v ≠ .bool b) ∧ t = .cls .bool) ∨
    eval I ρ (refToBool e (some t)) =
      if admits (definer (pick v t)) v then some (.bool (I (definer (pick v t)) v)) else none := by
  by_cases hb : ∃ b, e = .boxB b
  · obtain ⟨b, rfl⟩ := hb
    rw [eval] at h
    split at h
    · rename_i b' hb
      simp only [Option.some.injEq, VVal.ref.injEq] at h
      exact Or.inl ⟨b', h.symm, hb⟩
    · simp at h
  · have he : refToBool e (some t) = if isBool t then .unboxB e else callBool t e := by
      cases e <;> first | rfl | exact absurd ⟨_, rfl⟩ hb
    rw [he]
    by_cases ht : isBool t = true
    · rw [if_pos ht, eval, h]
      by_cases hs : sub (typeOf v) .bool = true
      · obtain ⟨b, rfl⟩ := bool_iff v hv hs
        left
        refine ⟨b, rfl, ?_⟩
        simp only [hs, if_true]
        cases b <;> rfl
      · right; left
        refine ⟨?_, (isBool_iff t).1 ht⟩
        rintro b rfl
        exact hs (by simp [sub, mro, typeOf])
    · rw [if_neg ht]
      exact Or.inr (Or.inr (callBool_eval I ρ e v h t))

theorem eval_ok (I : Interp) (ρ : Env) (hρ : ∀ x, (ρ.ref x).ok) : ∀ e r, eval I ρ e = some r → r.obj.ok := by
  intro e
  induction e with
  | refV x => intro r h; simp only [eval, Option.some.injEq] at h; subst h; exact hρ x
  | intV x | boolV x | acc x => intro r h; simp only [eval, Option.some.injEq] at h; subst h; trivial
  | boxI e ih | boxB e ih =>
    intro r h; simp only [eval] at h
    split at h <;> simp at h; subst h; trivial
  | unboxI e ih | unboxB e ih | callB d e ih =>
    intro r h; simp only [eval] at h
    split at h
    · split at h <;> simp at h; subst h; trivial
    · simp at h
  | ite c a t f iha iht ihf =>
    intro r h; simp only [eval] at h
    split at h
    · split at h
      · exact iht r h
      · exact ihf r h
    · simp at h
  | add l r ihl ihr =>
    intro x h; simp only [eval] at h
    split at h <;> simp at h; subst h; trivial
  | and l r ihl ihr =>
    intro x h; simp only [eval] at h
    split at h
    · exact ihr x h
    · simp at h; subst h; trivial
    · simp at h
  | or l r ihl ihr =>
    intro x h; simp only [eval] at h
    split at h
    · simp at h; subst h; trivial
    · exact ihr x h
    · simp at h

/-- The value of a condition. -/
theorem toBool_eval (W : World) (I : Interp) (ρ : Env) (hρ : ∀ x, (ρ.ref x).ok) (e : E) (hw : e.wt)
    (hp : e.isPure = true) (r : VVal) (h0 : eval I ρ e = some r) (v : Val)
    (h : eval I ρ (toRef e) = some (.ref v)) (t : STy) :
    (∃ b, v = .bool b ∧ eval I ρ (toBool e (some t)) = some (.bool b)) ∨
    ((∀ b, v ≠ .bool b) ∧ t = .cls .bool) ∨
    eval I ρ (toBool e (some t)) =
      if admits (definer (pick v t)) v then some (.bool (I (definer (pick v t)) v)) else none := by
  have hv : v.ok := eval_ok I ρ hρ _ _ h
  rw [toBool, isPure'_eq, hp]
  cases ht : e.typ with
  | ref =>
    have hr : toRef e = e := by rw [toRef, isPure'_eq, hp, ht]; rfl
    rw [hr] at h
    exact refToBool_eval W I ρ e v hv h t
  | int => exact refToBool_eval W I ρ (toRef e) v hv h t
  | bool =>
    have hr : toRef e = boolToRef e := by rw [toRef, isPure'_eq, hp, ht]; rfl
    rw [hr] at h
    by_cases hx : ∃ x, e = .unboxB x
    · obtain ⟨x, rfl⟩ := hx
      have h' : eval I ρ x = some (.ref v) := h
      by_cases hs : sub (typeOf v) .bool = true
      · obtain ⟨b, rfl⟩ := bool_iff v hv hs
        left
        refine ⟨b, rfl, ?_⟩
        simp only [if_true, eval, h', hs]
        cases b <;> rfl
      · simp [eval, h', hs] at h0
    · have he : boolToRef e = .boxB e := by
        cases e <;> first | rfl | exact absurd ⟨_, rfl⟩ hx
      rw [he, eval] at h
      split at h
      · rename_i b hb
        simp only [Option.some.injEq, VVal.ref.injEq] at h
        exact Or.inl ⟨b, h.symm, hb⟩
      · simp at h

end Nagini.Truth
