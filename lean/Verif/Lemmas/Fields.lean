import Verif.Spec.Fields
import Mathlib.Algebra.Order.BigOperators.Group.Finset
import Mathlib.Tactic.Linarith

set_option linter.unusedVariables false
set_option linter.unusedSimpArgs false
namespace Nagini.Fields

theorem isMangled_iff (n : Name) : isMangled n = true ↔ Private n := by
  simp only [isMangled, Bool.and_eq_true, Bool.not_eq_true', Private]
  constructor
  · rintro ⟨h1, h2⟩
    obtain ⟨r, hr⟩ := List.isPrefixOf_iff_prefix.1 h1
    refine ⟨⟨r, by simpa using hr.symm⟩, ?_⟩
    rintro ⟨r', rfl⟩
    have : ['_', '_'].isSuffixOf (r' ++ ['_', '_']) = true := List.isSuffixOf_iff_suffix.2 ⟨r', rfl⟩
    rw [this] at h2; simp at h2
  · rintro ⟨⟨r, rfl⟩, h2⟩
    refine ⟨List.isPrefixOf_iff_prefix.2 ⟨r, rfl⟩, ?_⟩
    cases h : ['_', '_'].isSuffixOf ('_' :: '_' :: r) with
    | false => rfl
    | true =>
      obtain ⟨r', hr⟩ := List.isSuffixOf_iff_suffix.1 h
      exact absurd ⟨r', hr.symm⟩ h2

theorem getField_none (T : Table) (l : List Nat) (n : Name) (h : getField T l n = none) :
    ∀ c ∈ l, (T c).members.lookup n = none := by
  induction l with
  | nil => simp
  | cons c l ih =>
    simp only [getField] at h
    split at h
    · simp at h
    · rename_i h1
      intro d hd
      rcases List.mem_cons.1 hd with rfl | hd
      · exact h1
      · exact ih h d hd

theorem getField_some (T : Table) (l : List Nat) (n : Name) (d : List Nat) (k : Kind) (h : getField T l n = some (d, k)) :
    ∃ c r, d = c :: r ∧ d <:+ l ∧ (T c).members.lookup n = some k ∧
      ∀ b ∈ l, b ∈ d ∨ (T b).members.lookup n = none := by
  induction l with
  | nil => simp [getField] at h
  | cons c l ih =>
    simp only [getField] at h
    split at h
    · rename_i k' hk
      simp only [Option.some.injEq, Prod.mk.injEq] at h
      obtain ⟨rfl, rfl⟩ := h
      exact ⟨c, l, rfl, List.suffix_refl _, hk, fun b hb => .inl hb⟩
    · rename_i hk
      obtain ⟨c', r, h1, h2, h3, h4⟩ := ih h
      refine ⟨c', r, h1, h2.trans (List.suffix_cons _ _), h3, ?_⟩
      intro b hb
      rcases List.mem_cons.1 hb with rfl | hb
      · exact .inr hk
      · exact h4 b hb

/-- What `actual` finds. -/
theorem actual_spec (T : Table) (n : Name) : ∀ (k : Nat) (c : Nat) (l : List Nat) (kd : Kind), l.length ≤ k →
    (T c).members.lookup n = some kd →
    (∃ d r, actual T k (c :: l, kd) n = .prop d n ∧ (d :: r) <:+ (c :: l) ∧ (T d).members.lookup n = some .prop ∧
        (d = c ∨ isMangled n = false)) ∨
    (∃ d r, actual T k (c :: l, kd) n = .field d n ∧ (d :: r) <:+ (c :: l) ∧ (T d).members.lookup n = some .field ∧
        (inherited T (d :: r) n = none) ∧ (isMangled n = true → d = c) ∧
        (isMangled n = false → ∀ b ∈ c :: l, (T b).members.lookup n ≠ some .prop)) := by
  intro k
  induction k with
  | zero =>
    intro c l kd hl hlk
    have hl0 : l = [] := List.length_eq_zero_iff.1 (by omega)
    subst hl0
    cases kd with
    | prop => exact .inl ⟨c, [], rfl, List.suffix_refl _, hlk, .inl rfl⟩
    | field =>
      refine .inr ⟨c, [], rfl, List.suffix_refl _, hlk, ?_, fun _ => rfl, ?_⟩
      · simp [inherited, getField]
      · intro _ b hb
        rw [List.mem_singleton.1 hb, hlk]; simp
  | succ k ih =>
    intro c l kd hl hlk
    cases kd with
    | prop => exact .inl ⟨c, l, rfl, List.suffix_refl _, hlk, .inl rfl⟩
    | field =>
      simp only [actual]
      cases hi : inherited T (c :: l) n with
      | none =>
        refine .inr ⟨c, l, rfl, List.suffix_refl _, hlk, hi, fun _ => rfl, ?_⟩
        intro hm b hb
        simp only [inherited, hm, List.tail_cons, Bool.false_eq_true, if_false] at hi
        rcases List.mem_cons.1 hb with rfl | hb
        · rw [hlk]; simp
        · rw [getField_none T l n hi b hb]; simp
      | some r =>
        obtain ⟨d, kd'⟩ := r
        have hm : isMangled n = false := by
          cases h : isMangled n with
          | false => rfl
          | true => simp [inherited, h] at hi
        simp only [inherited, hm, List.tail_cons, Bool.false_eq_true, if_false] at hi
        obtain ⟨c', r', rfl, h2, h3, h4⟩ := getField_some T l n d kd' hi
        have hlen : r'.length ≤ k := by
          have := h2.length_le
          simp only [List.length_cons] at this
          omega
        rcases ih c' r' kd' hlen h3 with ⟨e, q, a1, a2, a3, a4⟩ | ⟨e, q, a1, a2, a3, a4, a5, a6⟩
        · exact .inl ⟨e, q, a1, (a2.trans h2).trans (List.suffix_cons _ _), a3, .inr hm⟩
        · refine .inr ⟨e, q, a1, (a2.trans h2).trans (List.suffix_cons _ _), a3, a4, ?_, ?_⟩
          · intro h; rw [hm] at h; simp at h
          · intro _ b hb
            rcases List.mem_cons.1 hb with rfl | hb
            · rw [hlk]; simp
            · rcases h4 b hb with h | h
              · exact a6 hm b h
              · rw [h]; simp

theorem resolve_prop (T : Table) (S : List Nat) (n : Name) (c : Nat) (m : Name) (h : resolve T S n = some (.prop c m)) :
    m = n ∧ ∃ r, (c :: r) <:+ S ∧ (T c).members.lookup n = some .prop := by
  simp only [resolve, Option.map_eq_some_iff] at h
  obtain ⟨⟨d, k⟩, hg, ha⟩ := h
  obtain ⟨c', r', rfl, h2, h3, h4⟩ := getField_some T S n d k hg
  have hlen : r'.length ≤ S.length := by
    have := h2.length_le
    simp only [List.length_cons] at this
    omega
  rcases actual_spec T n S.length c' r' k hlen h3 with ⟨e, q, a1, a2, a3, a4⟩ | ⟨e, q, a1, a2, a3, a4, a5, a6⟩
  · rw [a1] at ha
    simp only [Loc.prop.injEq] at ha
    obtain ⟨rfl, rfl⟩ := ha
    exact ⟨rfl, q, a2.trans h2, a3⟩
  · rw [a1] at ha; simp at ha

theorem resolve_field (T : Table) (S : List Nat) (n : Name) (c : Nat) (m : Name) (h : resolve T S n = some (.field c m)) :
    m = n ∧ ∃ r, (c :: r) <:+ S ∧ (T c).members.lookup n = some .field ∧ inherited T (c :: r) n = none ∧
      (isMangled n = false → ∀ b ∈ S, (T b).members.lookup n ≠ some .prop) := by
  simp only [resolve, Option.map_eq_some_iff] at h
  obtain ⟨⟨d, k⟩, hg, ha⟩ := h
  obtain ⟨c', r', rfl, h2, h3, h4⟩ := getField_some T S n d k hg
  have hlen : r'.length ≤ S.length := by
    have := h2.length_le
    simp only [List.length_cons] at this
    omega
  rcases actual_spec T n S.length c' r' k hlen h3 with ⟨e, q, a1, a2, a3, a4⟩ | ⟨e, q, a1, a2, a3, a4, a5, a6⟩
  · rw [a1] at ha; simp at ha
  · rw [a1] at ha
    simp only [Loc.field.injEq] at ha
    obtain ⟨rfl, rfl⟩ := ha
    refine ⟨rfl, q, a2.trans h2, a3, a4, ?_⟩
    intro hm b hb
    rcases h4 b hb with h | h
    · exact a6 hm b h
    · rw [h]; simp

/-- The dictionaries have every key once. -/
def Keys (T : Table) : Prop := ∀ c, ((T c).members.map (·.1)).Nodup

theorem lookup_of_mem {l : List (Name × Kind)} (h : (l.map (·.1)).Nodup) {n : Name} {k : Kind} (hm : (n, k) ∈ l) :
    l.lookup n = some k := by
  induction l with
  | nil => simp at hm
  | cons e l ih =>
    simp only [List.map_cons, List.nodup_cons, List.mem_map, not_exists, not_and] at h
    rcases List.mem_cons.1 hm with rfl | hm
    · simp [List.lookup]
    · have hne : (n == e.1) = false := by
        rw [beq_eq_false_iff_ne]
        intro he
        exact h.1 (n, k) hm he
      simp only [List.lookup, hne]
      exact ih h.2 hm

theorem mem_of_lookup {l : List (Name × Kind)} {n : Name} {k : Kind} (h : l.lookup n = some k) : (n, k) ∈ l := by
  induction l with
  | nil => simp at h
  | cons e l ih =>
    simp only [List.lookup] at h
    split at h
    · rename_i he
      simp only [Option.some.injEq] at h
      rw [eq_of_beq he, ← h]; exact List.mem_cons_self
    · exact List.mem_cons_of_mem _ (ih h)

theorem mem_allFields (T : Table) (hk : Keys T) (D : List Nat) (c : Nat) (n : Name) :
    (c, n) ∈ allFields T D ↔ ∃ l, (c :: l) <:+ D ∧ (T c).members.lookup n = some .field ∧ inherited T (c :: l) n = none := by
  induction D with
  | nil => simp [allFields]
  | cons d D ih =>
    simp only [allFields, List.mem_append, List.mem_map, List.mem_filter, Bool.and_eq_true, beq_iff_eq,
      Option.isNone_iff_eq_none, Prod.mk.injEq, ih]
    constructor
    · rintro (⟨⟨m, k⟩, ⟨h1, h2, h3⟩, rfl, rfl⟩ | ⟨l, h1, h2, h3⟩)
      · simp only at h2 h3
        subst h2
        exact ⟨D, List.suffix_refl _, lookup_of_mem (hk _) h1, h3⟩
      · exact ⟨l, h1.trans (List.suffix_cons _ _), h2, h3⟩
    · rintro ⟨l, h1, h2, h3⟩
      rcases List.suffix_cons_iff.1 h1 with h | h
      · simp only [List.cons.injEq] at h
        obtain ⟨rfl, rfl⟩ := h
        exact .inl ⟨(n, .field), ⟨mem_of_lookup h2, rfl, h3⟩, rfl, rfl⟩
      · exact .inr ⟨l, h, h2, h3⟩

theorem allFields_nodup (T : Table) (hk : Keys T) (D : List Nat) (hD : D.Nodup) : (allFields T D).Nodup := by
  induction D with
  | nil => simp [allFields]
  | cons d D ih =>
    simp only [List.nodup_cons] at hD
    simp only [allFields]
    rw [List.nodup_append]
    refine ⟨?_, ih hD.2, ?_⟩
    · have h1 : ((((T d).members.filter fun e => e.2 == .field && (inherited T (d :: D) e.1).isNone).map (·.1)).map
          fun n => (d, n)).Nodup := by
        apply List.Nodup.map
        · intro a b h; simpa using h
        · exact (hk d).sublist (List.filter_sublist.map _)
      simpa [List.map_map, Function.comp_def] using h1
    · intro a ha b hb hab
      subst hab
      obtain ⟨c, n⟩ := a
      simp only [List.mem_map, List.mem_filter, Prod.mk.injEq] at ha
      obtain ⟨e, _, rfl, _⟩ := ha
      obtain ⟨l, h1, _⟩ := (mem_allFields T hk D _ n).1 hb
      exact hD.1 (h1.subset List.mem_cons_self)

/-- Suffixes that begin with the same element. -/
theorem suffix_unique {D : List Nat} (hD : D.Nodup) {c : Nat} {l r : List Nat} (h1 : (c :: l) <:+ D) (h2 : (c :: r) <:+ D) :
    l = r := by
  obtain ⟨a, rfl⟩ := h1
  obtain ⟨b, hb⟩ := h2
  have hn : ∀ (a b : List Nat), (a ++ c :: l).Nodup → b ++ c :: r = a ++ c :: l → l = r := by
    intro a
    induction a with
    | nil =>
      intro b hn hb
      cases b with
      | nil => simpa using hb.symm
      | cons x b =>
        simp only [List.cons_append, List.nil_append, List.cons.injEq] at hb
        simp only [List.nil_append, List.nodup_cons] at hn
        exact absurd (hb.2 ▸ by simp) hn.1
    | cons x a ih =>
      intro b hn hb
      cases b with
      | nil =>
        simp only [List.cons_append, List.nil_append, List.cons.injEq] at hb
        simp only [List.cons_append, List.nodup_cons] at hn
        exact absurd (hb.1 ▸ by simp) hn.1
      | cons y b =>
        simp only [List.cons_append, List.cons.injEq] at hb
        simp only [List.cons_append, List.nodup_cons] at hn
        exact ih b hn.2 hb.2
  exact hn a b hD hb

/-- Of two suffixes one is a suffix of the other. -/
theorem suffix_total {D l r : List Nat} (h1 : l <:+ D) (h2 : r <:+ D) : l <:+ r ∨ r <:+ l := by
  rcases Nat.le_total l.length r.length with h | h
  · exact .inl (List.suffix_of_suffix_length_le h1 h2 h)
  · exact .inr (List.suffix_of_suffix_length_le h2 h1 h)

theorem checkProps_spec (T : Table) (D : List Nat) (h : checkProps T D = true) (c d : Nat) (r : List Nat) (n : Name)
    (hs : (c :: d :: r) <:+ D) (hp : (T c).members.lookup n = some .prop) : (T d).members.lookup n = none := by
  induction D with
  | nil => simp at hs
  | cons e D ih =>
    simp only [checkProps, Bool.and_eq_true] at h
    rcases List.suffix_cons_iff.1 hs with hs | hs
    · simp only [List.cons.injEq] at hs
      obtain ⟨rfl, rfl⟩ := hs
      have := List.all_eq_true.1 h.1 _ (mem_of_lookup hp)
      simpa using this
    · exact ih h.2 hs

/-- The guards: no property has a private name; the name of a private attribute is not the name of another attribute; and
if a property has the name of something in a superclass, then of something in the direct superclass. -/
structure Tame (T : Table) (D : List Nat) : Prop where
  props : ∀ c ∈ D, ∀ n, (T c).members.lookup n = some .prop → ¬ Private n
  clash : ∀ c ∈ D, ∀ d ∈ D, ∀ n m, (T c).members.lookup n ≠ none → (T d).members.lookup m ≠ none → Private n →
    pyName T (some c) n = pyName T (some d) m → c = d ∧ n = m
  near : ∀ c d r n, (c :: d :: r) <:+ D → (T c).members.lookup n = some .prop →
    (∃ e ∈ r, (T e).members.lookup n ≠ none) → (T d).members.lookup n ≠ none

theorem above (T : Table) (D : List Nat) (h : checkProps T D = true) (ht : Tame T D) (c : Nat) (l : List Nat) (n : Name)
    (hs : (c :: l) <:+ D) (hp : (T c).members.lookup n = some .prop) : ∀ e ∈ l, (T e).members.lookup n = none := by
  cases l with
  | nil => simp
  | cons d r =>
    intro e he
    have hd := checkProps_spec T D h c d r n hs hp
    rcases List.mem_cons.1 he with rfl | he
    · exact hd
    · cases hl : (T e).members.lookup n with
      | none => rfl
      | some k => exact absurd hd (ht.near c d r n hs hp ⟨e, he, by rw [hl]; simp⟩)

theorem pyName_not {T : Table} {e : Option Nat} {n : Name} (h : ¬ Private n) : pyName T e n = n := by
  simp [pyName, h]

theorem lookupField_prop {T : Table} {e : Option Nat} {S : List Nat} {n : Name} {c : Nat} {m : Name}
    (h : lookupField T e S n = some (.prop c m)) : resolve T S n = some (.prop c m) := by
  simp only [lookupField] at h
  split at h
  · simp at h
  · rename_i h'; rw [h', h]
  · split at h <;> simp at h

theorem lookupField_field {T : Table} {e : Option Nat} {S : List Nat} {n : Name} {c : Nat} {m : Name}
    (h : lookupField T e S n = some (.field c m)) :
    resolve T S n = some (.field c m) ∧ (Private m → e = some c) := by
  simp only [lookupField] at h
  split at h
  · simp at h
  · simp at h
  · rename_i h'
    split at h
    · simp at h
    · rename_i hc
      rw [h'] 
      refine ⟨h, fun hp => ?_⟩
      simp only [Option.some.injEq, Loc.field.injEq] at h
      obtain ⟨rfl, rfl⟩ := h
      have := (isMangled_iff _).2 hp
      simpa [this] using hc

/-- Accepted accesses to a field have the Python name of the field. -/
theorem name_of_access {T : Table} {e : Option Nat} {S : List Nat} {n : Name} {c : Nat} {m : Name}
    (h : lookupField T e S n = some (.field c m)) : m = n ∧ pyName T e n = pyName T (some c) m := by
  obtain ⟨h1, h2⟩ := lookupField_field h
  obtain ⟨rfl, _⟩ := resolve_field T S n c m h1
  refine ⟨rfl, ?_⟩
  by_cases hp : Private m
  · rw [h2 hp]
  · rw [pyName_not hp, pyName_not hp]

theorem field_mem {T : Table} (hk : Keys T) {e : Option Nat} {S D : List Nat} {n : Name} {c : Nat} {m : Name} (hS : S <:+ D)
    (h : lookupField T e S n = some (.field c m)) : (c, m) ∈ allFields T D := by
  obtain ⟨h1, h2⟩ := lookupField_field h
  obtain ⟨rfl, r, a1, a2, a3, _⟩ := resolve_field T S n c m h1
  exact (mem_allFields T hk D c m).2 ⟨r, a1.trans hS, a2, a3⟩

/-- Different fields have different names. -/
theorem names_inj {T : Table} (hk : Keys T) {D : List Nat} (hD : D.Nodup) (ht : Tame T D) {f g : Nat × Name}
    (hf : f ∈ allFields T D) (hg : g ∈ allFields T D) (h : pyName T (some f.1) f.2 = pyName T (some g.1) g.2) : f = g := by
  obtain ⟨c, n⟩ := f
  obtain ⟨d, m⟩ := g
  obtain ⟨l, a1, a2, a3⟩ := (mem_allFields T hk D c n).1 hf
  obtain ⟨r, b1, b2, b3⟩ := (mem_allFields T hk D d m).1 hg
  have hc : c ∈ D := a1.subset List.mem_cons_self
  have hd : d ∈ D := b1.subset List.mem_cons_self
  simp only at h
  by_cases hn : Private n
  · obtain ⟨rfl, rfl⟩ := ht.clash c hc d hd n m (by rw [a2]; simp) (by rw [b2]; simp) hn h
    rfl
  · by_cases hm : Private m
    · obtain ⟨rfl, rfl⟩ := ht.clash d hd c hc m n (by rw [b2]; simp) (by rw [a2]; simp) hm h.symm
      rfl
    · rw [pyName_not hn, pyName_not hm] at h
      subst h
      have hmg : isMangled n = false := by
        cases hx : isMangled n with
        | false => rfl
        | true => exact absurd ((isMangled_iff n).1 hx) hn
      simp only [inherited, hmg, List.tail_cons, Bool.false_eq_true, if_false] at a3 b3
      rcases suffix_total a1 b1 with hs | hs
      · rcases List.suffix_cons_iff.1 hs with hs | hs
        · simp only [List.cons.injEq] at hs
          rw [hs.1]
        · have := getField_none T r n b3 c (hs.subset List.mem_cons_self)
          rw [this] at a2; simp at a2
      · rcases List.suffix_cons_iff.1 hs with hs | hs
        · simp only [List.cons.injEq] at hs
          rw [hs.1]
        · have := getField_none T l n a3 d (hs.subset List.mem_cons_self)
          rw [this] at b2; simp at b2

theorem uses_prop {T : Table} {D : List Nat} (hD : D.Nodup) (hc : checkProps T D = true) (ht : Tame T D)
    {e : Option Nat} {S : List Nat} (hS : S <:+ D) {n : Name} {c : Nat} {m : Name}
    (h : lookupField T e S n = some (.prop c m)) : UsesProp T D (pyName T e n) c := by
  obtain ⟨rfl, r, a1, a2⟩ := resolve_prop T S n c m (lookupField_prop h)
  have hcD : (c :: r) <:+ D := a1.trans hS
  have hcm : c ∈ D := hcD.subset List.mem_cons_self
  have hnp : ¬ Private m := ht.props c hcm m a2
  obtain ⟨l, hl⟩ := hcD
  refine ⟨l, r, hl.symm, ⟨m, a2, by rw [pyName_not hnp, pyName_not hnp]⟩, ?_⟩
  rintro b hb ⟨m', h1, h2⟩
  have hbD : b ∈ D := by rw [← hl]; exact List.mem_append_left _ hb
  rw [pyName_not (ht.props b hbD m' h1), pyName_not hnp] at h2
  subst h2
  obtain ⟨x, y, rfl⟩ := List.append_of_mem hb
  have hsuf : (b :: (y ++ c :: r)) <:+ D := ⟨x, by rw [← hl]; simp⟩
  have := above T D hc ht b _ m' hsuf h1 c (by simp)
  rw [this] at a2; simp at a2

theorem uses_no_prop {T : Table} {D : List Nat} (hD : D.Nodup) (hc : checkProps T D = true) (ht : Tame T D)
    {e : Option Nat} {S : List Nat} (hS : S <:+ D) {n : Name} {c : Nat} {m : Name}
    (h : lookupField T e S n = some (.field c m)) (d : Nat) : ¬ UsesProp T D (pyName T e n) d := by
  rintro ⟨l, l', hl, ⟨m', h1, h2⟩, _⟩
  obtain ⟨rfl, hname⟩ := name_of_access h
  obtain ⟨hr, _⟩ := lookupField_field h
  obtain ⟨-, r, a1, a2, a3, a4⟩ := resolve_field T S m c m hr
  have hcm : c ∈ D := (a1.trans hS).subset List.mem_cons_self
  have hdD : d ∈ D := by rw [hl]; simp
  rw [hname] at h2
  by_cases hp : Private m
  · obtain ⟨rfl, rfl⟩ := ht.clash c hcm d hdD m m' (by rw [a2]; simp) (by rw [h1]; simp) hp h2.symm
    rw [a2] at h1; simp at h1
  · rw [pyName_not (ht.props d hdD m' h1), pyName_not hp] at h2
    subst h2
    have hmg : isMangled m' = false := by
      cases hx : isMangled m' with
      | false => rfl
      | true => exact absurd ((isMangled_iff m').1 hx) hp
    have hd : (d :: l') <:+ D := ⟨l, hl.symm⟩
    rcases suffix_total hd hS with hs | hs
    · exact a4 hmg d (hs.subset List.mem_cons_self) h1
    · rcases List.suffix_cons_iff.1 hs with hs | hs
      · exact a4 hmg d (by rw [hs]; simp) h1
      · have := above T D hc ht d l' m' hd h1 c ((a1.trans hs).subset List.mem_cons_self)
        rw [this] at a2; simp at a2

open Finset

theorem sum_add {N : Nat} (q : Fin N → ℚ) (i : Fin N) (x : ℚ) : ∑ j, add q i x j = (∑ j, q j) + x := by
  have h : ∀ j, add q i x j = q j + (if j = i then x else 0) := by
    intro j; simp only [add]; split <;> simp
  simp only [h, Finset.sum_add_distrib, Finset.sum_ite_eq', Finset.mem_univ, if_true]

theorem le_sum {N : Nat} {q : Fin N → ℚ} (h : ∀ j, 0 ≤ q j) (i : Fin N) : q i ≤ ∑ j, q j :=
  Finset.single_le_sum (fun j _ => h j) (Finset.mem_univ i)

/-- `del` statements of private names occur in the class of the field. -/
def DelOk (T : Table) (encl : Option Nat) (S : List Nat) (n : Name) : Prop :=
  ∀ c m, deleted T S n = some (c, m) → Private m → encl = some c

theorem deleted_lookup {T : Table} {S : List Nat} {n : Name} {c : Nat} {m : Name}
    (h : deleted T S n = some (c, m)) : lookupField T (some c) S n = some (.field c m) := by
  simp only [deleted] at h
  split at h
  · rename_i d hg
    split at h
    · rename_i hi
      simp only [Option.some.injEq, Prod.mk.injEq] at h
      obtain ⟨h1, rfl⟩ := h
      obtain ⟨e, r, rfl, _⟩ := getField_some T S n d .field hg
      simp only [List.headD_cons] at h1
      subst h1
      have hlen : ∀ k, actual T k (e :: r, .field) n = .field e n := by
        intro k
        cases k with
        | zero => rfl
        | succ k => simp only [actual, Option.isNone_iff_eq_none.1 hi]; rfl
      simp [lookupField, resolve, hg, hlen]
    · simp at h
  · simp at h

theorem deleted_name {T : Table} {encl : Option Nat} {S : List Nat} {n : Name} {f : Nat × Name}
    (h : deleted T S n = some f) (hd : DelOk T encl S n) : pyName T encl n = pyName T (some f.1) f.2 := by
  obtain ⟨c, m⟩ := f
  obtain ⟨rfl, _⟩ := name_of_access (deleted_lookup h)
  by_cases hp : Private m
  · rw [hd c m h hp]
  · rw [pyName_not hp, pyName_not hp]

/-- The invariant. -/
structure Inv (P : Prog) {N : Nat} (s : St N) : Prop where
  accNonneg : ∀ o f i, 0 ≤ s.acc o f i
  mayNonneg : ∀ o f i, 0 ≤ s.may o f i
  total : ∀ o f, (∑ i, s.acc o f i) + (∑ i, s.may o f i) ≤ 1
  fresh : ∀ o f i, s.cls o = none → s.acc o f i = 0 ∧ s.may o f i = 0
  dom : ∀ o D f i, s.cls o = some D → f ∉ allFields P.table D → s.acc o f i = 0 ∧ s.may o f i = 0
  good : ∀ o D, s.cls o = some D → P.classes D
  dict : ∀ o D f, s.cls o = some D → f ∈ allFields P.table D → 0 < ∑ i, s.acc o f i →
    s.dict o (pyName P.table (some f.1) f.2) = some (s.heap o f)

variable {P : Prog} {N : Nat}

theorem inv_start (h) : Inv P (start N h) := by
  constructor <;> intros <;> simp_all [start]

/-- Permissions to one field change. -/
theorem inv_perm {s : St N} (hi : Inv P s) {o : Nat} {D : List Nat} (hD : s.cls o = some D) {f : Nat × Name}
    (hf : f ∈ allFields P.table D) {a b : Fin N → ℚ} (ha : ∀ i, 0 ≤ a i) (hb : ∀ i, 0 ≤ b i)
    (ht : (∑ i, a i) + (∑ i, b i) ≤ 1) {h' : Nat → Nat × Name → Int} {d' : Nat → Name → Option Int}
    (hd : ∀ o' D' g, s.cls o' = some D' → g ∈ allFields P.table D' → (o', g) ≠ (o, f) → 0 < (∑ i, s.acc o' g i) →
      d' o' (pyName P.table (some g.1) g.2) = some (h' o' g))
    (hv : 0 < (∑ i, a i) → d' o (pyName P.table (some f.1) f.2) = some (h' o f)) :
    Inv P { s with acc := upd s.acc o f a, may := upd s.may o f b, heap := h', dict := d' } := by
  constructor
  · intro o' g i
    simp only [upd]; split
    · exact ha i
    · exact hi.accNonneg o' g i
  · intro o' g i
    simp only [upd]; split
    · exact hb i
    · exact hi.mayNonneg o' g i
  · intro o' g
    simp only [upd]
    by_cases h : o' = o ∧ g = f
    · simp only [h, and_self, if_true]; exact ht
    · simp only [h, if_false]; exact hi.total o' g
  · intro o' g i hn
    simp only at hn
    have h : ¬ (o' = o ∧ g = f) := by rintro ⟨rfl, _⟩; rw [hD] at hn; simp at hn
    simp only [upd, h, if_false]
    exact hi.fresh o' g i hn
  · intro o' D' g i hc hg
    simp only at hc
    have h : ¬ (o' = o ∧ g = f) := by
      rintro ⟨rfl, rfl⟩
      rw [hD] at hc
      simp only [Option.some.injEq] at hc
      subst hc
      exact hg hf
    simp only [upd, h, if_false]
    exact hi.dom o' D' g i hc hg
  · exact hi.good
  · intro o' D' g hc hg hpos
    by_cases h : o' = o ∧ g = f
    · obtain ⟨rfl, rfl⟩ := h
      simp only [upd, and_self, if_true] at hpos
      exact hv hpos
    · simp only [upd, h, if_false] at hpos
      exact hd o' D' g hc hg (by simpa using h) hpos

theorem upd_self {α : Type} (h : Nat → Nat × Name → α) (o : Nat) (f : Nat × Name) : upd h o f (h o f) = h := by
  funext o' f'
  simp only [upd]
  split
  · rename_i h'; rw [h'.1, h'.2]
  · rfl

/-- A field for which there is permission is one of the fields of the class. -/
theorem Inv.mem {s : St N} (hi : Inv P s) {o : Nat} {f : Nat × Name} {i : Fin N}
    (h : 0 < s.acc o f i ∨ 0 < s.may o f i) : ∃ D, s.cls o = some D ∧ f ∈ allFields P.table D := by
  cases hc : s.cls o with
  | none =>
    obtain ⟨h1, h2⟩ := hi.fresh o f i hc
    rw [h1, h2] at h
    simp at h
  | some D =>
    refine ⟨D, rfl, ?_⟩
    refine Classical.byContradiction fun hf => ?_
    obtain ⟨h1, h2⟩ := hi.dom o D f i hc hf
    rw [h1, h2] at h
    simp at h

/-- Writing one attribute does not change the others. -/
theorem others (hk : Keys P.table) (hcls : ∀ D, P.classes D → D.Nodup ∧ checkProps P.table D = true ∧ Tame P.table D) {s : St N} (hi : Inv P s) {o : Nat}
    {D : List Nat} (hD : s.cls o = some D) {f : Nat × Name} (hf : f ∈ allFields P.table D) {p : Name}
    (hp : p = pyName P.table (some f.1) f.2) (v : Option Int) (h' : Nat → Nat × Name → Int)
    (hh : ∀ o' g, (o', g) ≠ (o, f) → h' o' g = s.heap o' g) :
    ∀ o' D' g, s.cls o' = some D' → g ∈ allFields P.table D' → (o', g) ≠ (o, f) → 0 < (∑ i, s.acc o' g i) →
      setAttr s.dict o p v o' (pyName P.table (some g.1) g.2) = some (h' o' g) := by
  intro o' D' g hc hg hne hpos
  have hne' : ¬ (o' = o ∧ pyName P.table (some g.1) g.2 = p) := by
    rintro ⟨rfl, hx⟩
    rw [hD] at hc
    simp only [Option.some.injEq] at hc
    subst hc
    obtain ⟨h1, _, h2⟩ := hcls D (hi.good o' D hD)
    have := names_inj hk h1 h2 hg hf (by rw [hx, hp])
    exact hne (by rw [this])
  simp only [setAttr, hne', if_false, hh o' g hne]
  exact hi.dict o' D' g hc hg hpos

theorem assign_eq (hcls : ∀ D, P.classes D → D.Nodup ∧ checkProps P.table D = true ∧ Tame P.table D) {s : St N}
    (hi : Inv P s) {o : Nat} {D S : List Nat} (hD : s.cls o = some D) (hS : S <:+ D) {encl : Option Nat} {n : Name} {c : Nat}
    {m : Name} (hl : lookupField P.table encl S n = some (.field c m)) (v : Option Int) :
    assignAttr P.table D s.dict o (pyName P.table encl n) v = setAttr s.dict o (pyName P.table encl n) v := by
  obtain ⟨h1, h2, h3⟩ := hcls D (hi.good o D hD)
  have : ¬ ∃ c, UsesProp P.table D (pyName P.table encl n) c := fun ⟨d, hd⟩ => uses_no_prop h1 h2 h3 hS hl d hd
  simp only [assignAttr, this, if_false]

theorem inv_step (hk : Keys P.table) (hcls : ∀ D, P.classes D → D.Nodup ∧ checkProps P.table D = true ∧ Tame P.table D)
    (hdel : ∀ e S n, P.dels e S n → DelOk P.table e S n) {s s' : St N} (hi : Inv P s) (hs : Step P s s') : Inv P s' := by
  cases hs with
  | create i o D hn hc =>
    obtain ⟨hnd, _⟩ := hcls D hc
    have h01 : ∀ f, ((allFields P.table D).count f : ℚ) = if f ∈ allFields P.table D then 1 else 0 := by
      intro f
      by_cases hf : f ∈ allFields P.table D
      · rw [List.count_eq_one_of_mem (allFields_nodup _ hk D hnd) hf]; simp [hf]
      · rw [List.count_eq_zero_of_not_mem hf]; simp [hf]
    have hz : ∀ f j, s.may o f j = 0 := fun f j => (hi.fresh o f j hn).2
    have hza : ∀ f j, s.acc o f j = 0 := fun f j => (hi.fresh o f j hn).1
    constructor
    · exact hi.accNonneg
    · intro o' f j
      by_cases h : o' = o
      · simp only [h, if_true, add, h01, hz]; split
        · split <;> simp
        · exact le_refl _
      · simp only [h, if_false]; exact hi.mayNonneg o' f j
    · intro o' f
      by_cases h : o' = o
      · subst h
        simp only [if_true, sum_add, h01, hz, hza, Finset.sum_const_zero]
        split <;> simp
      · simp only [h, if_false]; exact hi.total o' f
    · intro o' f j hc'
      by_cases h : o' = o
      · simp [h] at hc'
      · simp only [h, if_false] at hc' ⊢; exact hi.fresh o' f j hc'
    · intro o' D' f j hc' hf
      by_cases h : o' = o
      · subst h
        simp only [if_true, Option.some.injEq] at hc'
        subst hc'
        simp only [if_true, add, h01, hz, hf, if_false, hza]
        simp
      · simp only [h, if_false] at hc' ⊢; exact hi.dom o' D' f j hc' hf
    · intro o' D' hc'
      by_cases h : o' = o
      · simp only [h, if_true, Option.some.injEq] at hc'; exact hc' ▸ hc
      · simp only [h, if_false] at hc'; exact hi.good o' D' hc'
    · intro o' D' f hc' hf hpos
      by_cases h : o' = o
      · subst h
        simp only [hza, Finset.sum_const_zero] at hpos
        simp at hpos
      · simp only [h, if_false] at hc' ⊢; exact hi.dict o' D' f hc' hf hpos
  | assign i o D S encl n c m v hD hS hl ha hm =>
    rw [assign_eq hcls hi hD hS hl]
    have hf := field_mem hk hS hl
    have := inv_perm (h' := upd s.heap o (c, m) v) (d' := setAttr s.dict o (pyName P.table encl n) (some v)) hi hD hf
      (hi.accNonneg o (c, m)) (hi.mayNonneg o (c, m)) (hi.total o (c, m))
      (others hk hcls hi hD hf (name_of_access hl).2 _ _ (by
        intro o' g hne
        have : ¬ (o' = o ∧ g = (c, m)) := by simpa using hne
        simp only [upd, this, if_false]))
      (by intro _; simp [setAttr, upd, (name_of_access hl).2])
    rw [upd_self, upd_self] at this
    exact this
  | assignNew i o D S encl n c m v hD hS hl ha =>
    rw [assign_eq hcls hi hD hS hl]
    have hf := field_mem hk hS hl
    have hsum := hi.total o (c, m)
    have hle := le_sum (hi.mayNonneg o (c, m)) i
    refine inv_perm (h' := upd s.heap o (c, m) v) (d' := setAttr s.dict o (pyName P.table encl n) (some v)) hi hD hf
      ?_ ?_ ?_ (others hk hcls hi hD hf (name_of_access hl).2 _ _ (by
        intro o' g hne
        have : ¬ (o' = o ∧ g = (c, m)) := by simpa using hne
        simp only [upd, this, if_false]))
      (by intro _; simp [setAttr, upd, (name_of_access hl).2])
    · intro j; simp only [add]; split
      · have := hi.accNonneg o (c, m) j; linarith
      · exact hi.accNonneg o (c, m) j
    · intro j; simp only [add]; split
      · rename_i h; rw [h]; linarith
      · exact hi.mayNonneg o (c, m) j
    · rw [sum_add, sum_add]; linarith
  | delete i o D S encl n f hD hS hd hdl ha =>
    have hnm := deleted_name hdl (hdel _ _ _ hd)
    have hlk := deleted_lookup (c := f.1) (m := f.2) hdl
    rw [hnm, ← (name_of_access hlk).2, assign_eq hcls hi hD hS hlk, (name_of_access hlk).2, ← hnm]
    obtain ⟨D', hD', hf⟩ := hi.mem (o := o) (f := f) (i := i) (.inl (by linarith))
    rw [hD] at hD'
    simp only [Option.some.injEq] at hD'
    subst hD'
    have hsum := hi.total o f
    have hma : 0 ≤ ∑ j, s.may o f j := Finset.sum_nonneg fun j _ => hi.mayNonneg o f j
    refine inv_perm (h' := s.heap) (d' := setAttr s.dict o (pyName P.table encl n) none) hi hD hf
      ?_ ?_ ?_ (others hk hcls hi hD hf (deleted_name hdl (hdel _ _ _ hd)) _ _ (fun _ _ _ => rfl)) ?_
    · intro j; simp only [add]; split
      · rename_i h; rw [h]; linarith
      · exact hi.accNonneg o f j
    · intro j; simp only [add]; split
      · have := hi.mayNonneg o f j; linarith
      · exact hi.mayNonneg o f j
    · rw [sum_add, sum_add]; linarith
    · intro hpos
      rw [sum_add] at hpos
      linarith
  | transfer i j o f a b ha0 ha hb0 hb =>
    by_cases hz : a = 0 ∧ b = 0
    · obtain ⟨rfl, rfl⟩ := hz
      have h0 : ∀ (q : Fin N → ℚ) i, add q i 0 = q := by intro q i; funext j; simp [add]
      simp only [neg_zero, h0, upd_self]
      exact hi
    · have hpos : 0 < s.acc o f i ∨ 0 < s.may o f i := by
        by_cases h : a = 0
        · right
          have : b ≠ 0 := fun hb' => hz ⟨h, hb'⟩
          have : 0 < b := lt_of_le_of_ne hb0 (Ne.symm this)
          linarith
        · left
          have : 0 < a := lt_of_le_of_ne ha0 (Ne.symm h)
          linarith
      obtain ⟨D, hD, hf⟩ := hi.mem hpos
      refine inv_perm (h' := s.heap) (d' := s.dict) hi hD hf ?_ ?_ ?_ ?_ ?_
      · intro k
        have h1 := hi.accNonneg o f k
        simp only [add]; split <;> split <;> (try subst_vars) <;> linarith
      · intro k
        have h1 := hi.mayNonneg o f k
        simp only [add]; split <;> split <;> (try subst_vars) <;> linarith
      · have := hi.total o f
        simp only [sum_add]; linarith
      · intro o' D' g hc hg _ hp; exact hi.dict o' D' g hc hg hp
      · intro hp
        simp only [sum_add] at hp
        exact hi.dict o D f hD hf (by linarith)
  | lose i o f a b ha0 ha hb0 hb =>
    by_cases hz : a = 0 ∧ b = 0
    · obtain ⟨rfl, rfl⟩ := hz
      have h0 : ∀ (q : Fin N → ℚ) i, add q i 0 = q := by intro q i; funext j; simp [add]
      simp only [neg_zero, h0, upd_self]
      exact hi
    · have hpos : 0 < s.acc o f i ∨ 0 < s.may o f i := by
        by_cases h : a = 0
        · right
          have : b ≠ 0 := fun hb' => hz ⟨h, hb'⟩
          have : 0 < b := lt_of_le_of_ne hb0 (Ne.symm this)
          linarith
        · left
          have : 0 < a := lt_of_le_of_ne ha0 (Ne.symm h)
          linarith
      obtain ⟨D, hD, hf⟩ := hi.mem hpos
      refine inv_perm (h' := s.heap) (d' := s.dict) hi hD hf ?_ ?_ ?_ ?_ ?_
      · intro k
        have h1 := hi.accNonneg o f k
        simp only [add]; split <;> (try subst_vars) <;> linarith
      · intro k
        have h1 := hi.mayNonneg o f k
        simp only [add]; split <;> (try subst_vars) <;> linarith
      · have := hi.total o f
        simp only [sum_add]; linarith
      · intro o' D' g hc hg _ hp; exact hi.dict o' D' g hc hg hp
      · intro hp
        simp only [sum_add] at hp
        exact hi.dict o D f hD hf (by linarith)

theorem inv_reach (hk : Keys P.table) (hcls : ∀ D, P.classes D → D.Nodup ∧ checkProps P.table D = true ∧ Tame P.table D)
    (hdel : ∀ e S n, P.dels e S n → DelOk P.table e S n) {s : St N} (h : Reach P s) : Inv P s := by
  induction h with
  | start h => exact inv_start h
  | step _ hs ih => exact inv_step hk hcls hdel ih hs

end Nagini.Fields
