import Verif.Lemmas.Fields

/-! C105: accesses to attributes denote what they denote in Python.  C106: verified accesses to attributes succeed. -/
set_option linter.unusedVariables false
set_option linter.unusedSimpArgs false
namespace Nagini.Fields

/-- For objects of the class `D`: accesses translated to properties use the same property in Python; accesses translated
to fields use no property, the field is one of those that are created with the object, and two accesses denote the same
field exactly if they denote the same attribute. -/
structure Faithful (T : Table) (D : List Nat) : Prop where
  props : ∀ e S n c m, S <:+ D → lookupField T e S n = some (.prop c m) → UsesProp T D (pyName T e n) c
  fields : ∀ e S n c m, S <:+ D → lookupField T e S n = some (.field c m) →
    (c, m) ∈ allFields T D ∧ ∀ d, ¬ UsesProp T D (pyName T e n) d
  same : ∀ e S n c m e' S' n' c' m', S <:+ D → S' <:+ D → lookupField T e S n = some (.field c m) →
    lookupField T e' S' n' = some (.field c' m') → ((c, m) = (c', m') ↔ pyName T e n = pyName T e' n')

/-- **C105** (full claim): for every class that is accepted. -/
def C105 : Prop := ∀ (T : Table) (D : List Nat), Keys T → D.Nodup → checkProps T D = true → Faithful T D

/-- C105 for classes where no property has a private name, the names of private attributes do not clash with others, and
properties hide nothing that the direct superclass does not mention. -/
theorem C105_partial (T : Table) (D : List Nat) (hk : Keys T) (hD : D.Nodup) (hc : checkProps T D = true)
    (ht : Tame T D) : Faithful T D where
  props := fun e S n c m hS h => uses_prop hD hc ht hS h
  fields := fun e S n c m hS h => ⟨field_mem hk hS h, uses_no_prop hD hc ht hS h⟩
  same := by
    intro e S n c m e' S' n' c' m' hS hS' h h'
    rw [(name_of_access h).2, (name_of_access h').2]
    constructor
    · intro he
      simp only [Prod.mk.injEq] at he
      rw [he.1, he.2]
    · intro he
      exact names_inj hk hD ht (field_mem hk hS h) (field_mem hk hS' h') he

/-- The permission to create a field exists exactly once. -/
theorem C105_created_once (T : Table) (D : List Nat) (hk : Keys T) (hD : D.Nodup) (e : Option Nat) (S : List Nat) (n : Name)
    (c : Nat) (m : Name) (hS : S <:+ D) (h : lookupField T e S n = some (.field c m)) :
    (allFields T D).count (c, m) = 1 :=
  List.count_eq_one_of_mem (allFields_nodup T hk D hD) (field_mem hk hS h)

theorem pyName_eval (T : Table) (e : Option Nat) (n : Name) : pyName T e n =
    if isMangled n then (match e with
      | none => n
      | some c => mangleIn (T c).name n) else n := by
  by_cases h : Private n
  · simp only [pyName, h, (isMangled_iff n).2 h, if_true]
    cases e <;> rfl
  · have : isMangled n = false := by
      cases hx : isMangled n with
      | false => rfl
      | true => exact absurd ((isMangled_iff n).1 hx) h
    simp [pyName, h, this]

/-- `class A` with the attribute `__x`, and its subclass `_A`, also with `__x`. -/
abbrev twoPrivate : Table := fun c => if c = 0 then ⟨['A'], [(['_', '_', 'x'], .field)]⟩
  else if c = 1 then ⟨['_', 'A'], [(['_', '_', 'x'], .field)]⟩ else ⟨[], []⟩

theorem keys_of (T : Table) (N : Nat) (h : ∀ c < N, ((T c).members.map (·.1)).Nodup) (h' : ∀ c, N ≤ c → (T c).members = []) :
    Keys T := by
  intro c
  by_cases hc : c < N
  · exact h c hc
  · rw [h' c (by omega)]; simp

/-- **C105 fails** for private attributes: two fields are the same attribute `_A__x`. -/
theorem C105_private_fails : Keys twoPrivate ∧ checkProps twoPrivate [1, 0] = true ∧
    lookupField twoPrivate (some 0) [0] ['_', '_', 'x'] = some (.field 0 ['_', '_', 'x']) ∧
    lookupField twoPrivate (some 1) [1, 0] ['_', '_', 'x'] = some (.field 1 ['_', '_', 'x']) ∧
    pyName twoPrivate (some 0) ['_', '_', 'x'] = pyName twoPrivate (some 1) ['_', '_', 'x'] := by
  refine ⟨keys_of _ 2 (by decide) ?_, rfl, rfl, rfl, ?_⟩
  · intro c hc
    simp [twoPrivate, show c ≠ 0 by omega, show c ≠ 1 by omega]
  · rw [pyName_eval, pyName_eval]; rfl

/-- `class A` with the attributes `__x` and `_A__x`. -/
abbrev spelled : Table := fun c => if c = 0 then ⟨['A'], [(['_', '_', 'x'], .field), (['_', 'A', '_', '_', 'x'], .field)]⟩
  else ⟨[], []⟩

theorem keys_spelled : Keys spelled := by
  refine keys_of _ 1 (by decide) ?_
  intro c hc
  simp [spelled, show c ≠ 0 by omega]

/-- **C105 fails** if a mangled name is spelled out. -/
theorem C105_spelled_fails : Keys spelled ∧ checkProps spelled [0] = true ∧
    lookupField spelled (some 0) [0] ['_', '_', 'x'] = some (.field 0 ['_', '_', 'x']) ∧
    lookupField spelled (some 0) [0] ['_', 'A', '_', '_', 'x'] = some (.field 0 ['_', 'A', '_', '_', 'x']) ∧
    pyName spelled (some 0) ['_', '_', 'x'] = pyName spelled (some 0) ['_', 'A', '_', '_', 'x'] := by
  refine ⟨keys_spelled, rfl, rfl, rfl, ?_⟩
  rw [pyName_eval, pyName_eval]; rfl

/-- `class A` with the attribute `x`, its subclass `B`, and a subclass `C` of `B` with a property `x`. -/
abbrev hidden : Table := fun c => if c = 0 then ⟨['A'], [(['x'], .field)]⟩
  else if c = 2 then ⟨['C'], [(['x'], .prop)]⟩ else ⟨['B'], []⟩

/-- **C105 fails** for properties: the property of `C` is not compared with the attribute of `A`. -/
theorem C105_property_fails : Keys hidden ∧ checkProps hidden [2, 1, 0] = true ∧
    lookupField hidden none [0] ['x'] = some (.field 0 ['x']) ∧ UsesProp hidden [2, 1, 0] (pyName hidden none ['x']) 2 := by
  refine ⟨keys_of _ 3 (by decide) ?_, rfl, rfl, [], [1, 0], rfl, ⟨['x'], rfl, ?_⟩, by simp⟩
  · intro c hc
    simp [hidden, show c ≠ 0 by omega, show c ≠ 2 by omega]
  · rw [pyName_eval, pyName_eval]; rfl

/-- `class A` with a property `__p`. -/
abbrev privateProp : Table := fun c => if c = 0 then ⟨['A'], [(['_', '_', 'p'], .prop)]⟩ else ⟨[], []⟩

/-- **C105 fails** for private properties: they can be used outside of their class, where Python finds no attribute. -/
theorem C105_private_property_fails : Keys privateProp ∧ checkProps privateProp [0] = true ∧
    lookupField privateProp none [0] ['_', '_', 'p'] = some (.prop 0 ['_', '_', 'p']) ∧
    ∀ c, ¬ UsesProp privateProp [0] (pyName privateProp none ['_', '_', 'p']) c := by
  refine ⟨keys_of _ 1 (by decide) ?_, rfl, rfl, ?_⟩
  · intro c hc
    simp [privateProp, show c ≠ 0 by omega]
  · rintro c ⟨l, l', h, ⟨m, h1, h2⟩, _⟩
    have hc : c = 0 := by
      have : c ∈ [0] := by rw [h]; simp
      simpa using this
    subst hc
    have hm : m = ['_', '_', 'p'] := by
      have := mem_of_lookup h1
      simpa [privateProp] using this
    subst hm
    rw [pyName_eval, pyName_eval] at h2
    revert h2
    decide

theorem C105_fails : ¬ C105 := by
  intro h
  obtain ⟨h1, h2, h3, h4, h5⟩ := C105_private_fails
  have := ((h twoPrivate [1, 0] h1 (by decide) h2).same _ _ _ _ _ _ _ _ _ _ (List.suffix_cons 1 [0])
    (List.suffix_refl _) h3 h4).2 h5
  simp at this

/-- Non-vacuity of C105: `class A` with `x`, `__y` and a property `p`; a subclass `B` that uses `x` and `p` and has its own
`__y`. -/
abbrev usual : Table := fun c => if c = 0 then ⟨['A'], [(['x'], .field), (['_', '_', 'y'], .field), (['p'], .prop)]⟩
  else if c = 1 then ⟨['B'], [(['_', '_', 'y'], .field), (['p'], .field), (['x'], .field)]⟩ else ⟨[], []⟩

theorem usual_ok : Keys usual ∧ checkProps usual [1, 0] = true ∧ Tame usual [1, 0] := by
  have hl0 : ∀ n k, (usual 0).members.lookup n = some k → n = ['x'] ∨ n = ['_', '_', 'y'] ∨ (n = ['p'] ∧ k = .prop) := by
    intro n k h
    have := mem_of_lookup h
    simp [usual] at this
    rcases this with ⟨h, _⟩ | ⟨h, _⟩ | ⟨h, h'⟩ <;> simp [h]
    exact h'
  have hl1 : ∀ n k, (usual 1).members.lookup n = some k → k = .field ∧ (n = ['_', '_', 'y'] ∨ n = ['p'] ∨ n = ['x']) := by
    intro n k h
    have := mem_of_lookup h
    simp [usual] at this
    rcases this with ⟨h, h'⟩ | ⟨h, h'⟩ | ⟨h, h'⟩ <;> simp [h, h']
  have hx : ¬ Private ['x'] := fun h => by have := (isMangled_iff _).2 h; revert this; decide
  have hp : ¬ Private ['p'] := fun h => by have := (isMangled_iff _).2 h; revert this; decide
  refine ⟨keys_of _ 2 (by decide) ?_, rfl, ?_, ?_, ?_⟩
  · intro c hc
    simp [usual, show c ≠ 0 by omega, show c ≠ 1 by omega]
  · intro c hc n h
    simp only [List.mem_cons, List.not_mem_nil, or_false] at hc
    rcases hc with rfl | rfl
    · have := (hl1 n _ h).1; simp at this
    · have hn : n = ['p'] := by
        have := mem_of_lookup h
        simpa [usual] using this
      rw [hn]; exact hp
  · intro c hc d hd n m hn hm hpriv heq
    obtain ⟨k, hk⟩ := Option.ne_none_iff_exists'.1 hn
    obtain ⟨k', hk'⟩ := Option.ne_none_iff_exists'.1 hm
    have hny : n = ['_', '_', 'y'] := by
      simp only [List.mem_cons, List.not_mem_nil, or_false] at hc
      rcases hc with rfl | rfl
      · rcases (hl1 n k hk).2 with h | h | h
        · exact h
        · exact absurd (h ▸ hpriv) hp
        · exact absurd (h ▸ hpriv) hx
      · rcases hl0 n k hk with h | h | ⟨h, _⟩
        · exact absurd (h ▸ hpriv) hx
        · exact h
        · exact absurd (h ▸ hpriv) hp
    have hmc : m = ['_', '_', 'y'] ∨ m = ['p'] ∨ m = ['x'] := by
      simp only [List.mem_cons, List.not_mem_nil, or_false] at hd
      rcases hd with rfl | rfl
      · exact (hl1 m k' hk').2
      · rcases hl0 m k' hk' with h | h | ⟨h, _⟩ <;> simp [h]
    subst hny
    rw [pyName_eval, pyName_eval] at heq
    simp only [List.mem_cons, List.not_mem_nil, or_false] at hc hd
    rcases hc with rfl | rfl <;> rcases hd with rfl | rfl <;> rcases hmc with rfl | rfl | rfl <;>
      first
        | exact ⟨rfl, rfl⟩
        | (exfalso; revert heq; decide)
  · intro c d r n hs hpr _
    exfalso
    rcases List.suffix_cons_iff.1 hs with h | h
    · simp only [List.cons.injEq] at h
      rw [h.1] at hpr
      have := (hl1 n _ hpr).1; simp at this
    · have := h.length_le; simp at this

example : Keys usual ∧ ([1, 0] : List Nat).Nodup ∧ checkProps usual [1, 0] = true ∧ Tame usual [1, 0] ∧
    lookupField usual (some 1) [1, 0] ['_', '_', 'y'] = some (.field 1 ['_', '_', 'y']) ∧
    lookupField usual (some 0) [0] ['_', '_', 'y'] = some (.field 0 ['_', '_', 'y']) ∧
    lookupField usual (some 1) [1, 0] ['x'] = some (.field 0 ['x']) ∧
    lookupField usual none [1, 0] ['p'] = some (.prop 0 ['p']) ∧
    lookupField usual none [1, 0] ['_', '_', 'y'] = none :=
  ⟨usual_ok.1, by decide, usual_ok.2.1, usual_ok.2.2, rfl, rfl, rfl, rfl, rfl⟩

/-- **C106** (full claim): in every state that verified steps lead to, an attribute for which there is permission exists
and has the value that the Viper heap has, and `del` statements that are verified find the attribute. -/
def C106 : Prop :=
  ∀ (P : Prog) (N : Nat), Keys P.table → (∀ D, P.classes D → D.Nodup ∧ checkProps P.table D = true) →
    ∀ (s : St N), Reach P s → ∀ o D S i, s.cls o = some D → S <:+ D →
      (∀ e n c m, lookupField P.table e S n = some (.field c m) → 0 < s.acc o (c, m) i →
        (∀ d, ¬ UsesProp P.table D (pyName P.table e n) d) ∧ s.dict o (pyName P.table e n) = some (s.heap o (c, m))) ∧
      (∀ e n f, P.dels e S n → deleted P.table S n = some f → 1 ≤ s.acc o f i →
        (∀ d, ¬ UsesProp P.table D (pyName P.table e n) d) ∧ s.dict o (pyName P.table e n) ≠ none)

/-- C106 for the classes of `C105_partial`, if `del` statements of private attributes occur in the class of the
attribute. -/
theorem C106_partial (P : Prog) (N : Nat) (hk : Keys P.table)
    (hcls : ∀ D, P.classes D → D.Nodup ∧ checkProps P.table D = true ∧ Tame P.table D)
    (hdel : ∀ e S n, P.dels e S n → DelOk P.table e S n) (s : St N) (hr : Reach P s) (o : Nat) (D S : List Nat) (i : Fin N)
    (hD : s.cls o = some D) (hS : S <:+ D) :
    (∀ e n c m, lookupField P.table e S n = some (.field c m) → 0 < s.acc o (c, m) i →
      (∀ d, ¬ UsesProp P.table D (pyName P.table e n) d) ∧ s.dict o (pyName P.table e n) = some (s.heap o (c, m))) ∧
    (∀ e n f, P.dels e S n → deleted P.table S n = some f → 1 ≤ s.acc o f i →
      (∀ d, ¬ UsesProp P.table D (pyName P.table e n) d) ∧ s.dict o (pyName P.table e n) ≠ none) := by
  have hi := inv_reach hk hcls hdel hr
  obtain ⟨h1, h2, h3⟩ := hcls D (hi.good o D hD)
  constructor
  · intro e n c m hl ha
    refine ⟨uses_no_prop h1 h2 h3 hS hl, ?_⟩
    rw [(name_of_access hl).2]
    exact hi.dict o D (c, m) hD (field_mem hk hS hl) (lt_of_lt_of_le ha (le_sum (hi.accNonneg o (c, m)) i))
  · intro e n f hd hdl ha
    obtain ⟨c, m⟩ := f
    have hlk := deleted_lookup hdl
    have hnm := deleted_name hdl (hdel _ _ _ hd)
    rw [hnm]
    constructor
    · have := uses_no_prop h1 h2 h3 hS hlk
      rwa [(name_of_access hlk).2] at this
    · have hpos : 0 < s.acc o (c, m) i := by linarith
      rw [hi.dict o D (c, m) hD (field_mem hk hS hlk) (lt_of_lt_of_le hpos (le_sum (hi.accNonneg o (c, m)) i))]
      simp

/-- Permissions are never duplicated: what all owners together have for a field and for creating it is at most one. -/
theorem C106_exclusive (P : Prog) (N : Nat) (hk : Keys P.table)
    (hcls : ∀ D, P.classes D → D.Nodup ∧ checkProps P.table D = true ∧ Tame P.table D)
    (hdel : ∀ e S n, P.dels e S n → DelOk P.table e S n) (s : St N) (hr : Reach P s) (o : Nat) (f : Nat × Name) :
    (∑ i, s.acc o f i) + (∑ i, s.may o f i) ≤ 1 := (inv_reach hk hcls hdel hr).total o f

/-- `MayCreate(o, 'n')` for an attribute that a superclass has as well is a permission that nobody ever has. -/
theorem C106_may_create_inherited (P : Prog) (N : Nat) (hk : Keys P.table)
    (hcls : ∀ D, P.classes D → D.Nodup ∧ checkProps P.table D = true ∧ Tame P.table D)
    (hdel : ∀ e S n, P.dels e S n → DelOk P.table e S n) (s : St N) (hr : Reach P s) (o : Nat) (D S : List Nat) (i : Fin N)
    (hD : s.cls o = some D) (hS : S <:+ D) (e : Option Nat) (n : Name) (c : Nat) (m : Name) (f : Nat × Name)
    (hl : lookupField P.table e S n = some (.field c m)) (hm : mayCreateId P.table S n = some f) (hne : f ≠ (c, m)) :
    s.may o f i = 0 := by
  have hi := inv_reach hk hcls hdel hr
  obtain ⟨h1, h2, h3⟩ := hcls D (hi.good o D hD)
  refine (hi.dom o D f i hD ?_).2
  intro hf
  simp only [mayCreateId] at hm
  split at hm
  · rename_i d hg
    simp only [Option.some.injEq] at hm
    obtain ⟨b, r, rfl, hb, hb', _⟩ := getField_some _ S n d .field hg
    subst hm
    simp only [List.headD_cons] at hf hne
    obtain ⟨l, a1, a2, a3⟩ := (mem_allFields _ hk D b n).1 hf
    have hlr := suffix_unique h1 a1 (hb.trans hS)
    subst hlr
    have hres := (lookupField_field hl).1
    have hact : ∀ k, actual P.table k (b :: l, .field) n = .field b n := by
      intro k
      cases k with
      | zero => rfl
      | succ k => simp only [actual, a3]; rfl
    simp only [resolve, hg, Option.map_some, hact, Option.some.injEq, Loc.field.injEq] at hres
    exact hne (by rw [hres.1, hres.2])
  · simp at hm

/-- `MayCreate(o, 'n')` and `del o.n` refer to the field that accesses denote, if no other class of the receiver mentions
the name or the name is private. -/
theorem C106_may_create_partial (T : Table) (e : Option Nat) (S : List Nat) (n : Name) (c : Nat) (m : Name)
    (hl : lookupField T e S n = some (.field c m))
    (hone : Private n ∨ ∀ d ∈ S, d ≠ c → (T d).members.lookup n = none) (hnd : S.Nodup) :
    mayCreateId T S n = some (c, m) ∧ deleted T S n = some (c, m) := by
  have hres := (lookupField_field hl).1
  have hm := (name_of_access hl).1
  simp only [resolve, Option.map_eq_some_iff] at hres
  obtain ⟨⟨l, k⟩, hg, ha⟩ := hres
  obtain ⟨b, r, rfl, hb, hb', hb''⟩ := getField_some _ S n l k hg
  have hk : k = .field := by
    cases k with
    | field => rfl
    | prop => cases hS : S.length <;> rw [hS] at ha <;> simp [actual] at ha
  subst hk
  have hinh : inherited T (b :: r) n = none ∧ b = c := by
    rcases hone with hp | hone
    · have hi : inherited T (b :: r) n = none := by simp [inherited, (isMangled_iff n).2 hp]
      refine ⟨hi, ?_⟩
      cases hS : S.length <;> rw [hS] at ha <;> simp [actual, hi] at ha <;> exact ha.1
    · have hbc : b = c := by
        by_contra hne
        have := hone b (hb.subset (by simp)) hne
        rw [this] at hb'
        simp at hb'
      refine ⟨?_, hbc⟩
      subst hbc
      cases hi : inherited T (b :: r) n with
      | none => rfl
      | some x =>
        exfalso
        obtain ⟨x, kx⟩ := x
        simp only [inherited] at hi
        split at hi
        · simp at hi
        · obtain ⟨d, r', rfl, hd, hd', _⟩ := getField_some _ _ n x kx hi
          simp only [List.tail_cons] at hd
          have hdr : d ∈ r := hd.subset (by simp)
          have hbr : (b :: r).Nodup := hb.sublist.nodup hnd
          have hdb : d ≠ b := by
            intro h; subst h
            simp at hbr; exact hbr.1 hdr
          have := hone d (hb.subset (by simp [hdr])) hdb
          rw [this] at hd'
          simp at hd'
  obtain ⟨hi, rfl⟩ := hinh
  rw [hm]
  simp [mayCreateId, deleted, hg, hi]

example : lookupField usual (some 1) [1, 0] ['_', '_', 'y'] = some (.field 1 ['_', '_', 'y']) ∧
    Private ['_', '_', 'y'] ∧ lookupField usual none [0] ['x'] = some (.field 0 ['x']) :=
  ⟨rfl, (isMangled_iff _).1 rfl, rfl⟩

/-- With `MayCreate(self, 'x')` where `x` is used in the class and in a superclass, the hypotheses hold. -/
theorem C106_may_create_fails : lookupField usual (some 1) [1, 0] ['x'] = some (.field 0 ['x']) ∧
    mayCreateId usual [1, 0] ['x'] = some (1, ['x']) := ⟨rfl, rfl⟩

/-- The class `A` of `spelled`, and a `del` statement outside of it. -/
abbrev spelledProg : Prog := ⟨spelled, fun D => D = [0], fun e S n => e = none ∧ S = [0] ∧ n = ['_', '_', 'x']⟩

theorem no_prop_spelled (p : Name) : ¬ ∃ c, UsesProp spelled [0] p c := by
  rintro ⟨c, l, l', h, ⟨m, h1, _⟩, _⟩
  have hc : c = 0 := by
    have : c ∈ [0] := by rw [h]; simp
    simpa using this
  subst hc
  have := mem_of_lookup h1
  simp [spelled] at this

/-- An object whose `__x` has been set to 1, and then `_A__x` to 2. -/
theorem reach_spelled : ∃ s : St 1, Reach spelledProg s ∧ s.cls 0 = some [0] ∧ s.acc 0 (0, ['_', '_', 'x']) 0 = 1 ∧
    s.heap 0 (0, ['_', '_', 'x']) = 1 ∧ s.dict 0 ['_', 'A', '_', '_', 'x'] = some 2 ∧ s.dict 0 ['_', '_', 'x'] = none := by
  have n1 : pyName spelled (some 0) ['_', '_', 'x'] = ['_', 'A', '_', '_', 'x'] := by rw [pyName_eval]; rfl
  have n2 : pyName spelled (some 0) ['_', 'A', '_', '_', 'x'] = ['_', 'A', '_', '_', 'x'] := by rw [pyName_eval]; rfl
  have r0 : Reach spelledProg (start 1 fun _ _ => 0) := .start _
  have r1 := r0.step (Step.create (P := spelledProg) _ 0 0 [0] rfl rfl)
  have r2 := r1.step (Step.assignNew (P := spelledProg) _ 0 0 [0] [0] (some 0) ['_', '_', 'x'] 0 ['_', '_', 'x'] 1
    (by simp) (List.suffix_refl _) rfl (by
      have : (allFields spelled [0]).count (0, ['_', '_', 'x']) = 1 := by decide
      simp [start, add, this]))
  have r3 := r2.step (Step.assignNew (P := spelledProg) _ 0 0 [0] [0] (some 0) ['_', 'A', '_', '_', 'x'] 0
    ['_', 'A', '_', '_', 'x'] 2 (by simp [exchange]) (List.suffix_refl _) rfl (by
      have : (allFields spelled [0]).count (0, ['_', 'A', '_', '_', 'x']) = 1 := by decide
      simp [exchange, start, upd, add, this]))
  refine ⟨_, r3, ?_, ?_, ?_, ?_, ?_⟩
  · simp [exchange]
  · simp [exchange, upd, add, start]
  · simp [exchange, upd, add, start]
  · simp only [assignAttr, no_prop_spelled, if_false, n2, setAttr, and_self, if_true]
  · simp only [assignAttr, no_prop_spelled, if_false, n1, n2]
    simp [setAttr, exchange, start]

/-- **C106 fails** for private attributes whose mangled name is spelled out: the verifier knows that `__x` is 1. -/
theorem C106_spelled_fails : ∃ s : St 1, Reach spelledProg s ∧ s.cls 0 = some [0] ∧
    lookupField spelled (some 0) [0] ['_', '_', 'x'] = some (.field 0 ['_', '_', 'x']) ∧
    s.acc 0 (0, ['_', '_', 'x']) 0 = 1 ∧ s.heap 0 (0, ['_', '_', 'x']) = 1 ∧
    s.dict 0 (pyName spelled (some 0) ['_', '_', 'x']) = some 2 := by
  obtain ⟨s, h1, h2, h3, h4, h5, _⟩ := reach_spelled
  refine ⟨s, h1, h2, rfl, h3, h4, ?_⟩
  rw [pyName_eval]; exact h5

/-- **C106 fails** for `del o.__x` outside of the class: the attribute does not exist. -/
theorem C106_del_fails : ∃ s : St 1, Reach spelledProg s ∧ s.cls 0 = some [0] ∧ spelledProg.dels none [0] ['_', '_', 'x'] ∧
    deleted spelled [0] ['_', '_', 'x'] = some (0, ['_', '_', 'x']) ∧ s.acc 0 (0, ['_', '_', 'x']) 0 = 1 ∧
    s.dict 0 (pyName spelled none ['_', '_', 'x']) = none := by
  obtain ⟨s, h1, h2, h3, h4, _, h5⟩ := reach_spelled
  refine ⟨s, h1, h2, ⟨rfl, rfl, rfl⟩, rfl, h3, ?_⟩
  rw [pyName_eval]; exact h5

theorem C106_fails : ¬ C106 := by
  intro h
  obtain ⟨s, h1, h2, h3, h4, h5, h6⟩ := C106_spelled_fails
  have := ((h spelledProg 1 keys_spelled (by rintro D rfl; exact ⟨by decide, rfl⟩) s h1 0 [0] [0] 0 h2
    (List.suffix_refl _)).1 (some 0) _ 0 _ h3 (by rw [h4]; decide)).2
  rw [h6, h5] at this
  simp at this

/-- Non-vacuity of C106: an object of the class `B` of `usual` with the attribute `x`. -/
abbrev usualProg : Prog := ⟨usual, fun D => D = [1, 0], fun e S n => e = some 1 ∧ S = [1, 0] ∧ n = ['_', '_', 'y']⟩

example : Keys usualProg.table ∧
    (∀ D, usualProg.classes D → D.Nodup ∧ checkProps usualProg.table D = true ∧ Tame usualProg.table D) ∧
    (∀ e S n, usualProg.dels e S n → DelOk usualProg.table e S n) ∧
    ∃ s : St 2, Reach usualProg s ∧ s.cls 0 = some [1, 0] ∧ s.acc 0 (0, ['x']) 1 = 1 ∧ s.heap 0 (0, ['x']) = 5 := by
  refine ⟨usual_ok.1, ?_, ?_, ?_⟩
  · rintro D rfl; exact ⟨by decide, usual_ok.2⟩
  · rintro e S n ⟨rfl, rfl, rfl⟩ c m h _
    have : deleted usual [1, 0] ['_', '_', 'y'] = some (1, ['_', '_', 'y']) := rfl
    rw [this] at h
    simp only [Option.some.injEq, Prod.mk.injEq] at h
    rw [h.1]
  · have r0 : Reach usualProg (start 2 fun _ _ => 0) := .start _
    have r1 := r0.step (Step.create (P := usualProg) _ 0 0 [1, 0] rfl rfl)
    have r2 := r1.step (Step.assignNew (P := usualProg) _ 0 0 [1, 0] [1, 0] none ['x'] 0 ['x'] 5
      (by simp) (List.suffix_refl _) rfl (by
        have : (allFields usual [1, 0]).count (0, ['x']) = 1 := by decide
        simp [start, add, this]))
    have r3 := r2.step (Step.transfer (P := usualProg) _ 0 1 0 (0, ['x']) 1 0 (by decide) (by
      simp [exchange, upd, add, start]) (by decide) (by
        have : (allFields usual [1, 0]).count (0, ['x']) = 1 := by decide
        simp [exchange, upd, add, start, this]))
    refine ⟨_, r3, ?_, ?_, ?_⟩
    · simp [exchange]
    · simp [exchange, upd, add, start]
    · simp [exchange, upd, add, start]

end Nagini.Fields
