import Verif.Spec.TestCheck
import Mathlib.Data.List.Basic
import Mathlib.Data.Multiset.OrderedMonoid
import Mathlib.Algebra.Order.Sub.Basic

/-!
C49: a test passes iff errors and annotations agree.  C50: removal of duplicate errors.
-/
set_option linter.unusedVariables false
set_option linter.unusedSectionVars false
namespace Nagini.TestCheck

variable {I B L R α β : Type} [DecidableEq I] [DecidableEq B] [DecidableEq L] [DecidableEq R]

/-! ### Multisets -/

theorem removeFirst_none (p : α → Bool) (l : List α) (h : removeFirst p l = none) : ∀ a ∈ l, p a = false := by
  induction l with
  | nil => simp
  | cons a l ih =>
    simp only [removeFirst] at h
    split at h
    · cases h
    · rename_i hp
      simp only [Option.map_eq_none_iff] at h
      intro b hb
      rcases List.mem_cons.1 hb with rfl | hb
      · simpa using hp
      · exact ih h b hb

theorem removeFirst_some (p : α → Bool) (l l' : List α) (h : removeFirst p l = some l') :
    ∃ a, p a = true ∧ l.Perm (a :: l') := by
  induction l generalizing l' with
  | nil => cases h
  | cons a l ih =>
    simp only [removeFirst] at h
    split at h
    · rename_i hp
      cases h
      exact ⟨a, hp, List.Perm.refl _⟩
    · rw [Option.map_eq_some_iff] at h
      obtain ⟨l2, h2, rfl⟩ := h
      obtain ⟨b, hb, hperm⟩ := ih l2 h2
      exact ⟨b, hb, (hperm.cons a).trans (List.Perm.swap ..)⟩

/-- What a resolved annotation says. -/
def key (a : Resolved I B) : I × Nat × List Nat := (a.id, a.line, a.vias)

/-- The multiset of what annotations say. -/
abbrev keys (l : List (Resolved I B)) : Multiset (I × Nat × List Nat) := ((l.map key : List _) : Multiset _)

theorem keys_perm {l l' : List (Resolved I B)} (h : l.Perm l') : keys l = keys l' :=
  Multiset.coe_eq_coe.2 (h.map _)

theorem matchErr_iff (norm : I → I) (a : Resolved I B) (e : Err I) :
    matchErr norm a e = true ↔ key a = errKey norm e := by
  simp [matchErr, key, errKey]

/-- Back-ends of annotations kept for one back-end are compatible. -/
def Fits (b : Backend B) (l : List (Resolved I B)) : Prop := ∀ a ∈ l, a.backend = b ∨ a.backend = .any

theorem matchMissing_iff (b : Backend B) (m e : Resolved I B) (hm : m.backend = b ∨ m.backend = .any)
    (he : e.backend = b ∨ e.backend = .any) : matchMissing m e = true ↔ key m = key e := by
  simp only [matchMissing, key, Prod.mk.injEq, decide_eq_true_eq]
  constructor
  · rintro ⟨h1, h2, h3, -⟩; exact ⟨h2, h1, h3⟩
  · rintro ⟨h1, h2, h3⟩
    refine ⟨h2, h1, h3, ?_⟩
    rcases hm with hm | hm
    · rcases he with he | he
      · exact Or.inl (hm.trans he.symm)
      · exact Or.inr (Or.inr he)
    · exact Or.inr (Or.inl hm)

/-- The first loop computes differences of multisets, in any order of iteration. -/
theorem silence_spec (ord : Nat → List (Resolved I B) → List (Resolved I B)) (hord : ∀ n l, (ord n l).Perm l)
    (b : Backend B) (es ms : List (Resolved I B)) (he : Fits b es) (hm : Fits b ms) :
    keys (silence ord es ms).1 = keys ms - keys es ∧ keys (silence ord es ms).2 = keys es - keys ms := by
  induction es generalizing ms with
  | nil => simp [silence]
  | cons e es ih =>
    have he' : Fits b es := fun a ha => he a (List.mem_cons_of_mem _ ha)
    have hee := he e List.mem_cons_self
    have hcons : keys (e :: es) = key e ::ₘ keys es := rfl
    simp only [silence]
    cases h : removeFirst (fun m => matchMissing m e) (ord es.length ms) with
    | some ms' =>
      obtain ⟨a, ha, hp⟩ := removeFirst_some _ _ _ h
      have hp' : ms.Perm (a :: ms') := (hord es.length ms).symm.trans hp
      have hma : a.backend = b ∨ a.backend = .any := hm a (hp'.mem_iff.2 List.mem_cons_self)
      have hk : key a = key e := (matchMissing_iff b a e hma hee).1 ha
      obtain ⟨h1, h2⟩ := ih ms' he' (fun x hx => hm x (hp'.mem_iff.2 (List.mem_cons_of_mem _ hx)))
      have hms : keys ms = key e ::ₘ keys ms' := by
        rw [keys_perm hp', ← hk]; rfl
      dsimp only
      rw [h1, h2, hms, hcons]
      simp
    | none =>
      have hnone := removeFirst_none _ _ h
      have hnot : key e ∉ keys ms := by
        intro hmem
        simp only [keys, Multiset.mem_coe, List.mem_map] at hmem
        obtain ⟨a, ha, hk⟩ := hmem
        have := hnone a ((hord es.length ms).mem_iff.2 ha)
        rw [(matchMissing_iff b a e (hm a ha) hee).2 hk] at this
        cases this
      obtain ⟨h1, h2⟩ := ih ms he' hm
      dsimp only
      refine ⟨?_, ?_⟩
      · rw [h1, hcons, Multiset.sub_cons, Multiset.erase_of_notMem hnot]
      · rw [show keys (e :: (silence ord es ms).2) = key e ::ₘ keys (silence ord es ms).2 from rfl, h2, hcons]
        ext k
        rw [Multiset.count_cons, Multiset.count_sub, Multiset.count_sub, Multiset.count_cons]
        by_cases hk : k = key e
        · subst hk
          rw [Multiset.count_eq_zero_of_notMem hnot]
          simp
        · simp [hk]

/-- The second loop as well. -/
theorem consume_spec (norm : I → I) (ord : Nat → List (Resolved I B) → List (Resolved I B))
    (hord : ∀ n l, (ord n l).Perm l) (errs : List (Err I)) (anns : List (Resolved I B)) :
    keys (consume norm ord errs anns).1 = keys anns - ((errs.map (errKey norm) : List _) : Multiset _) ∧
      (((consume norm ord errs anns).2.map (errKey norm) : List _) : Multiset _) =
        ((errs.map (errKey norm) : List _) : Multiset _) - keys anns := by
  induction errs generalizing anns with
  | nil => exact ⟨by simp [consume], (Multiset.zero_sub _).symm⟩
  | cons e es ih =>
    have hcons : (((e :: es).map (errKey norm) : List _) : Multiset _) =
        errKey norm e ::ₘ ((es.map (errKey norm) : List _) : Multiset _) := rfl
    simp only [consume]
    cases h : removeFirst (fun a => matchErr norm a e) (ord es.length anns) with
    | some anns' =>
      obtain ⟨a, ha, hp⟩ := removeFirst_some _ _ _ h
      have hp' : anns.Perm (a :: anns') := (hord es.length anns).symm.trans hp
      have hk : key a = errKey norm e := (matchErr_iff norm a e).1 ha
      obtain ⟨h1, h2⟩ := ih anns'
      have hms : keys anns = errKey norm e ::ₘ keys anns' := by
        rw [keys_perm hp', ← hk]; rfl
      dsimp only
      rw [h1, h2, hms, hcons]
      simp
    | none =>
      have hnone := removeFirst_none _ _ h
      have hnot : errKey norm e ∉ keys anns := by
        intro hmem
        simp only [keys, Multiset.mem_coe, List.mem_map] at hmem
        obtain ⟨a, ha, hk⟩ := hmem
        have := hnone a ((hord es.length anns).mem_iff.2 ha)
        rw [(matchErr_iff norm a e).2 hk] at this
        cases this
      obtain ⟨h1, h2⟩ := ih anns
      dsimp only
      refine ⟨?_, ?_⟩
      · rw [h1, hcons, Multiset.sub_cons, Multiset.erase_of_notMem hnot]
      · rw [show (((e :: (consume norm ord es anns).2).map (errKey norm) : List _) : Multiset _) =
          errKey norm e ::ₘ (((consume norm ord es anns).2.map (errKey norm) : List _) : Multiset _) from rfl,
          h2, hcons]
        ext k
        rw [Multiset.count_cons, Multiset.count_sub, Multiset.count_sub, Multiset.count_cons]
        by_cases hk : k = errKey norm e
        · subst hk
          rw [Multiset.count_eq_zero_of_notMem hnot]
          simp
        · simp [hk]

/-! ### Labels -/

theorem lookup_iff (labels : List (L × Nat)) (n : L) (x : Nat) :
    lookup labels n = some x ↔ LabelLine labels n x := by
  unfold lookup LabelLine
  rw [Option.map_eq_some_iff]
  constructor
  · rintro ⟨⟨n', x'⟩, hf, rfl⟩
    rw [List.find?_eq_some_iff_append] at hf
    obtain ⟨hn, as, bs, hrev, hno⟩ := hf
    have hn' : n' = n := by simpa using hn
    subst hn'
    refine ⟨bs.reverse, as.reverse, ?_, ?_⟩
    · rw [← List.reverse_reverse labels, hrev]; simp
    · intro p hp
      have := hno p (List.mem_reverse.1 hp)
      simpa using this
  · rintro ⟨l1, l2, rfl, hno⟩
    refine ⟨(n, x), ?_, rfl⟩
    rw [List.find?_eq_some_iff_append]
    refine ⟨by simp, l2.reverse, l1.reverse, by simp, ?_⟩
    intro p hp
    have := hno p (List.mem_reverse.1 hp)
    simpa using this

theorem mapM_iff {f : α → Option β} {Q : α → β → Prop} (h : ∀ a b, f a = some b ↔ Q a b) (l : List α)
    (r : List β) : l.mapM f = some r ↔ List.Forall₂ Q l r := by
  induction l generalizing r with
  | nil =>
    simp only [List.mapM_nil, List.forall₂_nil_left_iff]
    constructor
    · intro h; cases h; rfl
    · rintro rfl; rfl
  | cons a l ih =>
    rw [List.mapM_cons, List.forall₂_cons_left_iff]
    constructor
    · intro h'
      cases ha : f a with
      | none => rw [ha] at h'; cases h'
      | some b =>
        rw [ha] at h'
        cases hl : l.mapM f with
        | none => rw [hl] at h'; cases h'
        | some r' =>
          rw [hl] at h'
          cases h'
          exact ⟨b, r', (h a b).1 ha, (ih r').1 hl, rfl⟩
    · rintro ⟨b, r', hq, hf, rfl⟩
      rw [(h a b).2 hq, (ih r').2 hf]
      rfl

theorem resolve_iff (labels : List (L × Nat)) (a : Ann I B L) (x : Resolved I B) :
    resolve labels a = some x ↔ Says labels a (key x) ∧ x.backend = a.backend := by
  unfold resolve
  have hm := mapM_iff (lookup_iff labels) a.labels
  constructor
  · intro h
    cases hv : a.labels.mapM (lookup labels) with
    | none => rw [hv] at h; cases h
    | some v =>
      rw [hv] at h
      cases h
      exact ⟨⟨rfl, rfl, (hm v).1 hv⟩, rfl⟩
  · rintro ⟨⟨h1, h2, h3⟩, h4⟩
    rw [(hm x.vias).2 h3]
    obtain ⟨i, n, v, bk⟩ := x
    simp only [key] at h1 h2 h4
    subst h1 h2 h4
    rfl

/-- Resolving the annotations that apply. -/
theorem allSay_of_mapM (b : Backend B) (labels : List (L × Nat)) (l : List (Ann I B L))
    (r : List (Resolved I B)) (h : (collect b l).mapM (resolve labels) = some r) :
    AllSay b labels l (r.map key) ∧ Fits b r := by
  rw [mapM_iff (resolve_iff labels)] at h
  induction l generalizing r with
  | nil =>
    cases h
    exact ⟨.nil, fun a ha => by cases ha⟩
  | cons a l ih =>
    unfold collect at h
    rw [List.filter_cons] at h
    by_cases ha : a.backend = b ∨ a.backend = .any
    · rw [if_pos (by simpa using ha)] at h
      obtain ⟨x, r', hx, hr, rfl⟩ := List.forall₂_cons_left_iff.1 h
      obtain ⟨k1, k2⟩ := ih r' hr
      refine ⟨.say ha hx.1 k1, ?_⟩
      intro y hy
      rcases List.mem_cons.1 hy with rfl | hy
      · rw [hx.2]; exact ha
      · exact k2 y hy
    · rw [if_neg (by simpa using ha)] at h
      obtain ⟨k1, k2⟩ := ih r h
      exact ⟨.skip ha k1, k2⟩

theorem mapM_of_allSay (b : Backend B) (labels : List (L × Nat)) (l : List (Ann I B L))
    (ks : List (I × Nat × List Nat)) (h : AllSay b labels l ks) :
    ∃ r, (collect b l).mapM (resolve labels) = some r ∧ r.map key = ks := by
  simp only [mapM_iff (resolve_iff labels)]
  induction h with
  | nil => exact ⟨[], .nil, rfl⟩
  | @skip a l ks ha _ ih =>
    obtain ⟨r, h1, h2⟩ := ih
    refine ⟨r, ?_, h2⟩
    unfold collect at *
    rw [List.filter_cons, if_neg (by simpa [Applies] using ha)]
    exact h1
  | @say a l k ks ha hs _ ih =>
    obtain ⟨r, h1, h2⟩ := ih
    refine ⟨⟨k.1, k.2.1, k.2.2, a.backend⟩ :: r, ?_, by simp [key, h2]⟩
    unfold collect at *
    rw [List.filter_cons, if_pos (by simpa [Applies] using ha)]
    exact .cons ⟨hs, rfl⟩ h1

theorem keys_eq_zero (l : List (Resolved I B)) : l.isEmpty = true ↔ keys l = 0 := by
  cases l with
  | nil => simp
  | cons a l => simp [keys]

/-- **C49**: for every back-end, file and list of errors, and whatever order sets are iterated in, the
test passes iff the errors agree with the annotations as multisets. -/
theorem C49_passes_iff (norm : I → I) (ord ord' : Nat → List (Resolved I B) → List (Resolved I B))
    (hord : ∀ n l, (ord n l).Perm l) (hord' : ∀ n l, (ord' n l).Perm l) (b : Backend B) (f : File I B L) (errs : List (Err I)) :
    passes norm ord ord' b f errs = true ↔ Agree norm b f errs := by
  have main : ∀ e u m : List (Resolved I B), Fits b e → Fits b m →
      ((match expectedOutput ord e m u with
        | some anns => checkErrors norm ord' anns errs
        | none => false) = true ↔ keys m ≤ keys e ∧
          ((errs.map (errKey norm) : List _) : Multiset _) = keys e - keys m + keys u) := by
    intro e u m he hm
    obtain ⟨h1, h2⟩ := silence_spec ord hord b e m he hm
    unfold expectedOutput
    dsimp only
    by_cases hem : (silence ord e m).1.isEmpty = true
    · rw [if_pos hem]
      dsimp only
      have hle : keys m ≤ keys e := by
        rw [keys_eq_zero, h1] at hem
        exact tsub_eq_zero_iff_le.1 hem
      unfold checkErrors
      obtain ⟨c1, c2⟩ := consume_spec norm ord' hord' errs ((silence ord e m).2 ++ u)
      have hk : keys ((silence ord e m).2 ++ u) = keys e - keys m + keys u := by
        rw [← h2]; simp [keys]
      rw [hk] at c1 c2
      dsimp only
      rw [Bool.and_eq_true, keys_eq_zero, c1, tsub_eq_zero_iff_le]
      have hemp : (consume norm ord' errs ((silence ord e m).2 ++ u)).2.isEmpty = true ↔
          ((errs.map (errKey norm) : List _) : Multiset _) ≤ keys e - keys m + keys u := by
        rw [← tsub_eq_zero_iff_le, ← c2]
        cases (consume norm ord' errs ((silence ord e m).2 ++ u)).2 with
        | nil => simp
        | cons a l => simp
      rw [hemp]
      constructor
      · rintro ⟨k1, k2⟩; exact ⟨hle, le_antisymm k1 k2⟩
      · rintro ⟨-, k⟩; exact ⟨le_of_eq k, le_of_eq k.symm⟩
    · rw [if_neg hem]
      simp only [Bool.false_eq_true, false_iff]
      rintro ⟨hle, -⟩
      exact hem ((keys_eq_zero _).2 (by rw [h1]; exact tsub_eq_zero_iff_le.2 hle))
  unfold passes
  constructor
  · intro h
    split at h
    · rename_i e u m he hu hm
      obtain ⟨k1, k2⟩ := allSay_of_mapM b f.labels f.expected e he
      obtain ⟨k3, -⟩ := allSay_of_mapM b f.labels f.unexpected u hu
      obtain ⟨k4, k5⟩ := allSay_of_mapM b f.labels f.missing m hm
      obtain ⟨h1, h2⟩ := (main e u m k2 k5).1 h
      exact ⟨_, _, _, k1, k3, k4, h1, h2⟩
    · cases h
  · rintro ⟨e, u, m, he, hu, hm, h1, h2⟩
    obtain ⟨re, he', rfl⟩ := mapM_of_allSay b f.labels f.expected e he
    obtain ⟨ru, hu', rfl⟩ := mapM_of_allSay b f.labels f.unexpected u hu
    obtain ⟨rm, hm', rfl⟩ := mapM_of_allSay b f.labels f.missing m hm
    rw [he', hu', hm']
    exact (main re ru rm (allSay_of_mapM _ _ _ _ he').2 (allSay_of_mapM _ _ _ _ hm').2).2 ⟨h1, h2⟩

/-- A file with two equal expected errors, one of which is missing, an annotation for another back-end,
and a label. -/
def file : File Nat Nat Nat where
  expected := [⟨1, 10, [7], .any⟩, ⟨1, 10, [7], .named 0⟩, ⟨5, 20, [], .named 1⟩]
  unexpected := [⟨2, 30, [], .any⟩]
  missing := [⟨1, 10, [7], .named 0⟩]
  labels := [(7, 3), (7, 4)]

/-- It accepts one of the two errors and the unexpected one, in any order; iterating sets backwards
makes no difference. -/
example : passes id (fun _ => id) (fun _ => id) (.named 0) file [⟨2, 30, []⟩, ⟨1, 10, [4]⟩] = true ∧
    passes id (fun _ => List.reverse) (fun n l => if n = 1 then l.reverse else l) (.named 0) file [⟨1, 10, [4]⟩, ⟨2, 30, []⟩] = true ∧
    passes id (fun _ => List.reverse) (fun n l => if n = 1 then l.reverse else l) (.named 0) file [⟨1, 10, [4]⟩, ⟨2, 30, []⟩, ⟨1, 10, [4]⟩] = false ∧
    passes id (fun _ => id) (fun _ => id) (.named 1) file [⟨2, 30, []⟩, ⟨1, 10, [4]⟩] = false := by decide

/-! ### Duplicates -/

theorem half_eq (n : Nat) : half n = ((n + 1) / 2 : Nat) := by
  unfold half
  rw [Int.fdiv_eq_ediv_of_nonneg _ (by decide)]
  omega

theorem keep_sublist (repr : α → R) (l : List α) (c : R → Int) : (keep repr l c).Sublist l := by
  induction l generalizing c with
  | nil => exact List.Sublist.slnil
  | cons a l ih =>
    simp only [keep]
    split
    · exact (ih _).cons_cons a
    · exact (ih _).cons a

theorem keep_count (repr : α → R) (l : List α) (c : R → Int) (r : R) (hc : 0 ≤ c r) :
    (((keep repr l c).map repr).count r : Int) = min (c r) ((l.map repr).count r) := by
  induction l generalizing c with
  | nil => simp only [keep, List.map_nil, List.count_nil]; omega
  | cons a l ih =>
    simp only [keep]
    by_cases ha : c (repr a) > 0
    · rw [if_pos ha, List.map_cons, List.map_cons, List.count_cons, List.count_cons]
      by_cases hr : repr a = r
      · subst hr
        have := ih (fun r => if r = repr a then c r - 1 else c r) (by simp; omega)
        simp only [if_true] at this
        simp only [beq_self_eq_true, if_true]
        push_cast
        rw [this]
        omega
      · have hr' : ¬ r = repr a := fun h => hr h.symm
        have := ih (fun r => if r = repr a then c r - 1 else c r) (by simp [hr', hc])
        simp only [hr', if_false] at this
        simp only [beq_iff_eq, hr, if_false, Nat.add_zero]
        exact this
    · rw [if_neg ha, List.map_cons, List.count_cons, ih c hc]
      by_cases hr : repr a = r
      · subst hr
        have : c (repr a) = 0 := by omega
        rw [this]
        omega
      · simp [hr]

/-- **C50**: of the errors with the same representation, half (rounded up) are kept, in their order. -/
theorem C50_half (repr : α → R) (errs : List α) (r : R) :
    ((dedup repr errs).map repr).count r = ((errs.map repr).count r + 1) / 2 ∧
      (dedup repr errs).Sublist errs := by
  refine ⟨?_, keep_sublist ..⟩
  have h := keep_count repr errs (fun r => half ((errs.map repr).count r)) r (by rw [half_eq]; omega)
  rw [half_eq] at h
  unfold dedup
  have : min (((((errs.map repr).count r + 1) / 2 : Nat)) : Int) ((errs.map repr).count r : Int) =
      ((((errs.map repr).count r + 1) / 2 : Nat) : Int) := by omega
  rw [this] at h
  exact Int.ofNat.inj h

/-- **C50**: no kind of error is lost, and none is invented. -/
theorem C50_not_lost (repr : α → R) (errs : List α) (r : R) :
    r ∈ (dedup repr errs).map repr ↔ r ∈ errs.map repr := by
  rw [← List.count_pos_iff, ← List.count_pos_iff, (C50_half repr errs r).1]
  omega

/-- Errors given by id and object number. -/
example : dedup (fun e : Nat × Nat => e.1) [(1, 0), (2, 0), (1, 1), (1, 2), (2, 1), (3, 0)] =
    [(1, 0), (2, 0), (1, 1), (3, 0)] := by decide

end Nagini.TestCheck
