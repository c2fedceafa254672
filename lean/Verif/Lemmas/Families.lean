import Mathlib.Algebra.Group.Basic
import Mathlib.Data.List.Nodup
import Mathlib.Data.List.Perm.Basic
import Verif.Model.Families
import Verif.Lemmas.Classes

/-! Helper lemmas for `Verif.Props.Families`. -/
set_option linter.unusedVariables false
set_option linter.unusedSimpArgs false
set_option linter.unusedSectionVars false
namespace Nagini.Families

open Classes

variable {M V : Type} [AddCommMonoid M] {H : Hier} {defs : Nat → Option (Def V M)}

theorem star_comm (P Q : Assn M) : star P Q = star Q P := by
  funext m
  exact propext ⟨fun ⟨a, b, h, p, q⟩ => ⟨b, a, by rw [add_comm]; exact h, q, p⟩,
    fun ⟨a, b, h, p, q⟩ => ⟨b, a, by rw [add_comm]; exact h, q, p⟩⟩

theorem star_assoc (P Q R : Assn M) : star (star P Q) R = star P (star Q R) := by
  funext m
  refine propext ⟨?_, ?_⟩
  · rintro ⟨_, c, h, ⟨a, b, rfl, p, q⟩, r⟩
    exact ⟨a, b + c, by rw [← add_assoc]; exact h, p, b, c, rfl, q, r⟩
  · rintro ⟨a, _, h, p, b, c, rfl, q, r⟩
    exact ⟨a + b, c, by rw [add_assoc]; exact h, ⟨a, b, rfl, p, q⟩, r⟩

theorem emp_star (P : Assn M) : star emp P = P := by
  funext m
  refine propext ⟨?_, fun p => ⟨0, m, zero_add m, rfl, p⟩⟩
  rintro ⟨a, b, h, ha, p⟩
  rw [show a = 0 from ha, zero_add] at h
  exact h ▸ p

theorem star_emp (P : Assn M) : star P emp = P := by rw [star_comm, emp_star]

theorem conj_perm {l l' : List (Assn M)} (h : l.Perm l') : conj l = conj l' := by
  induction h with
  | nil => rfl
  | cons x _ ih => simp only [conj, ih]
  | swap x y l => simp only [conj]; rw [← star_assoc, star_comm y x, star_assoc]
  | trans _ _ ih1 ih2 => exact ih1.trans ih2

theorem conj_filter {α : Type} (p : α → Bool) (f : α → Assn M) : ∀ l : List α,
    conj (l.map fun c => if p c then f c else emp) = conj ((l.filter p).map f)
  | [] => rfl
  | c :: l => by
    by_cases h : p c
    · simp [conj, h, conj_filter p f l]
    · simp [conj, h, conj_filter p f l, emp_star]

/-- A class and its superclasses. -/
def chain (H : Hier) (c : Nat) : List Nat :=
  c :: (match h : H.sup c with
    | none => []
    | some p => chain H p)
termination_by H.depth c
decreasing_by exact H.depth_lt c p h

theorem chain_eq (c : Nat) : chain H c = c :: ((H.sup c).map (chain H)).getD [] := by
  rw [chain]
  split <;> rename_i h <;> simp [h]

theorem mem_chain {c d : Nat} : d ∈ chain H c ↔ Anc H c d := by
  induction hn : H.depth c using Nat.strongRecOn generalizing c with
  | _ n ih =>
    rw [chain_eq]
    cases hs : H.sup c with
    | none =>
      simp
      constructor
      · rintro rfl; exact .refl _
      · intro h
        cases h with
        | refl => rfl
        | step h1 _ => rw [hs] at h1; cases h1
    | some p =>
      simp
      rw [ih _ (by have := H.depth_lt c p hs; omega) rfl]
      constructor
      · rintro (rfl | h)
        · exact .refl _
        · exact .step hs h
      · intro h
        cases h with
        | refl => exact .inl rfl
        | step h1 h2 => rw [hs] at h1; cases h1; exact .inr h2

theorem chain_nodup (c : Nat) : (chain H c).Nodup := by
  induction hn : H.depth c using Nat.strongRecOn generalizing c with
  | _ n ih =>
    rw [chain_eq]
    cases hs : H.sup c with
    | none => simp
    | some p =>
      simp
      refine ⟨fun h => ?_, ih _ (by have := H.depth_lt c p hs; omega) p rfl⟩
      have := (mem_chain.1 h).depth_le
      have := H.depth_lt c p hs
      omega

theorem meaning_chain (vals : List V) (c : Nat) :
    meaning H defs vals c = conj ((chain H c).map (own defs vals)) := by
  induction hn : H.depth c using Nat.strongRecOn generalizing c with
  | _ n ih =>
    rw [meaning, chain_eq]
    split
    · rename_i hs; simp [hs, conj]
    · rename_i p hs
      rw [ih _ (by have := H.depth_lt c p hs; omega) p rfl]
      simp [hs, conj]

theorem own_filter (vals : List V) : ∀ l : List Nat,
    conj (l.map (own defs vals)) = conj ((l.filter fun c => (defs c).isSome).map (own defs vals))
  | [] => rfl
  | c :: l => by
    cases h : defs c with
    | none => simp [conj, h, own, own_filter vals l, emp_star]
    | some d => simp [conj, h, own_filter vals l]

/-! ### Families -/

theorem lookup_addMember (r c r' : Nat) : ∀ fs : List (Nat × List Nat),
    ((addMember r c fs).lookup r').getD [] =
      (fs.lookup r').getD [] ++ (if r' = r then [c] else [])
  | [] => by
    by_cases h : r' = r
    · subst h; simp [addMember]
    · have : (r' == r) = false := by simpa using h
      simp [addMember, List.lookup, this, h]
  | (r₁, ms) :: fs => by
    unfold addMember
    by_cases h1 : r₁ = r
    · subst h1
      by_cases h : r' = r₁
      · subst h; simp
      · have : (r' == r₁) = false := by simpa using h
        simp [List.lookup, this, h]
    · rw [if_neg h1]
      by_cases h : r' = r₁
      · subst h; simp [h1]
      · have : (r' == r₁) = false := by simpa using h
        simp [List.lookup, this, lookup_addMember r c r' fs]

theorem members_eq (cls : List Nat) (r : Nat) : members H defs cls r =
    cls.filter fun c => (defs c).isSome && decide (rootOf H defs c = r) := by
  have key : ∀ (l : List Nat) (fs : List (Nat × List Nat)),
      ((l.foldl (fun fs c => if (defs c).isSome then addMember (rootOf H defs c) c fs else fs) fs).lookup
        r).getD [] = (fs.lookup r).getD [] ++
          l.filter fun c => (defs c).isSome && decide (rootOf H defs c = r) := by
    intro l
    induction l with
    | nil => simp
    | cons c l ih =>
      intro fs
      rw [List.foldl_cons, ih]
      by_cases hd : (defs c).isSome
      · rw [if_pos hd, lookup_addMember]
        by_cases hr : rootOf H defs c = r
        · simp [hd, hr]
        · rw [if_neg (Ne.symm hr)]; simp [hd, hr]
      · rw [if_neg hd]; simp [hd]
  have := key cls []
  simpa [members, families] using this

theorem mem_members {cls : List Nat} {r c : Nat} : c ∈ members H defs cls r ↔
    c ∈ cls ∧ (defs c).isSome ∧ rootOf H defs c = r := by
  rw [members_eq]; simp

theorem rootOf_anc (c : Nat) : Anc H c (rootOf H defs c) := by
  induction hn : H.depth c using Nat.strongRecOn generalizing c with
  | _ n ih =>
    rw [rootOf]
    split
    · exact .refl _
    · rename_i p h
      have hs := overridden_sup H defs h
      exact .step hs (ih _ (by have := H.depth_lt c p hs; omega) p rfl)

/-- The values of a member's parameters are the arguments at the same position. -/
theorem memberEnv_eq (n : Nat) : ∀ (rps ps : List Nat) (vals : List V), rps.Nodup →
    rps.length = vals.length → memberEnv rps ps vals n = bindArgs ps vals n
  | [], ps, vals, _, hl => by
    have : vals = [] := List.length_eq_zero_iff.1 (by simpa using hl.symm)
    subst this
    simp [memberEnv, bindArgs]
  | r :: rps, [], vals, _, _ => by simp [memberEnv, bindArgs]
  | r :: rps, p :: ps, [], _, hl => by simp at hl
  | r :: rps, p :: ps, v :: vals, hn, hl => by
    have ih := memberEnv_eq n rps ps vals (List.nodup_cons.1 hn).2 (by simpa using hl)
    by_cases h : n = p
    · subst h; simp [memberEnv, bindArgs]
    · have hb : (n == p) = false := by simpa using h
      simp only [memberEnv, bindArgs, List.zip_cons_cons, List.lookup, hb] at ih ⊢
      rw [← ih]
      cases hk : (ps.zip rps).lookup n with
      | none => rfl
      | some rv =>
        have hm : rv ∈ rps := by
          have : ∀ (l l' : List Nat), (l.zip l').lookup n = some rv → rv ∈ l' := by
            intro l
            induction l with
            | nil => simp
            | cons a l ih =>
              intro l' h
              cases l' with
              | nil => simp at h
              | cons b l' =>
                simp only [List.zip_cons_cons, List.lookup] at h
                split at h
                · cases h; exact .head _
                · exact .tail _ (ih l' h)
          exact this _ _ hk
        have : (rv == r) = false := by
          simp
          rintro rfl
          exact (List.nodup_cons.1 hn).1 hm
        simp [this]

/-- The body of a family for a receiver of class `ty`. -/
theorem familyBody_eq (order : List Nat → List Nat) (ho : ∀ l, (order l).Perm l) (lockInv : Bool)
    (argOk : Nat → List V → Prop) (rest : Nat → List V → Assn M) (cls : List Nat) (hc : cls.Nodup)
    (r ty : Nat) (hcl : ∀ d, Anc H ty d → d ∈ cls) (vals : List V)
    (hp : ∀ d, defs r = some d → d.params.Nodup ∧ d.params.length = vals.length)
    (hr : (defs r).isSome) (m : M) :
    familyBody H defs order lockInv argOk rest cls r ty vals m ↔ argOk r vals ∧
      star (conj (((chain H ty).filter fun c => (defs c).isSome && decide (rootOf H defs c = r)).map
          (own defs vals)))
        (if !lockInv && !((defs ty).isSome && decide (rootOf H defs ty = r)) then rest r vals else emp)
        m := by
  unfold familyBody
  obtain ⟨dr, hdr⟩ := Option.isSome_iff_exists.1 hr
  have hps := hp dr hdr
  have e1 : (members H defs cls r).all (fun c => decide (ty ≠ c)) =
      !((defs ty).isSome && decide (rootOf H defs ty = r)) := by
    rw [Bool.eq_iff_iff]
    simp only [List.all_eq_true, decide_eq_true_eq, Bool.not_eq_true', Bool.and_eq_false_iff,
      decide_eq_false_iff_not]
    constructor
    · intro h
      by_cases h1 : (defs ty).isSome = true
      · right
        intro h2
        exact h ty (mem_members.2 ⟨hcl ty (.refl _), h1, h2⟩) rfl
      · left; simpa using h1
    · rintro h c hm rfl
      obtain ⟨_, h1, h2⟩ := mem_members.1 hm
      rcases h with h | h
      · rw [h] at h1; cases h1
      · exact h h2
  have e2 : conj ((order (members H defs cls r)).map
      (memberPart H defs (((defs r).map Def.params).getD []) ty vals)) =
      conj (((chain H ty).filter fun c => (defs c).isSome && decide (rootOf H defs c = r)).map
          (own defs vals)) := by
    rw [conj_perm ((ho _).map _)]
    have : memberPart H defs (((defs r).map Def.params).getD []) ty vals =
        fun c => if issubtype H ty c then own defs vals c else emp := by
      funext c
      unfold memberPart own
      rw [hdr]
      simp only [Option.map_some, Option.getD_some]
      split
      · cases defs c with
        | none => rfl
        | some d =>
          simp only
          congr 1
          funext n
          exact memberEnv_eq n _ _ _ hps.1 hps.2
      · rfl
    rw [this, conj_filter]
    refine conj_perm (List.Perm.map _ ?_)
    refine (List.perm_ext_iff_of_nodup ?_ ?_).2 fun c => ?_
    · rw [members_eq]; exact (hc.filter _).filter _
    · exact (chain_nodup ty).filter _
    · simp only [List.mem_filter, mem_members, mem_chain, issubtype_iff, Bool.and_eq_true,
        decide_eq_true_eq]
      constructor
      · rintro ⟨⟨_, h1, h2⟩, h3⟩; exact ⟨h3, h1, h2⟩
      · rintro ⟨h3, h1, h2⟩; exact ⟨⟨hcl c h3, h1, h2⟩, h3⟩
  rw [e1, e2]

/-! ### Accesses -/

theorem lookup_isSome {α : Type} {defs : Nat → Option α} {c : Nat} :
    (lookup H defs c).isSome ↔ ∃ d, Anc H c d ∧ (defs d).isSome := by
  cases h : lookup H defs c with
  | none =>
    have := (lookup_none defs c).1 h
    simp
    intro d hd
    exact this d hd
  | some x =>
    obtain ⟨d, h1, h2, _⟩ := lookup_some defs c x h
    simp
    exact ⟨d, h1, by simp [h2]⟩

/-- The topmost superclass of `c` that defines the predicate. -/
def Top (H : Hier) (defs : Nat → Option (Def V M)) (c t : Nat) : Prop :=
  Anc H c t ∧ (defs t).isSome ∧ ∀ d, Anc H t d → (defs d).isSome → d = t

theorem Top.unique {c t t' : Nat} (h : Top H defs c t) (h' : Top H defs c t') : t = t' := by
  rcases h.1.linear h'.1 with h1 | h1
  · exact (h.2.2 t' h1 h'.2.1).symm
  · exact h'.2.2 t h1 h.2.1

theorem Top.anc {c d t : Nat} (h : Top H defs d t) (ha : Anc H c d) : Top H defs c t :=
  ⟨ha.trans h.1, h.2⟩

theorem climb_top (c : Nat) (h : (lookup H defs c).isSome) : Top H defs c (climb H defs c) := by
  induction hn : H.depth c using Nat.strongRecOn generalizing c with
  | _ n ih =>
    obtain ⟨d, hd, hs⟩ := lookup_isSome.1 h
    rw [climb]
    split
    · rename_i hsup
      cases hd with
      | refl =>
        refine ⟨.refl _, hs, fun e he _ => ?_⟩
        cases he with
        | refl => rfl
        | step h1 _ => rw [hsup] at h1; cases h1
      | step h1 _ => rw [hsup] at h1; cases h1
    · rename_i p hsup
      split
      · rename_i hl
        exact (ih _ (by have := H.depth_lt c p hsup; omega) p hl rfl).anc (.step hsup (.refl _))
      · rename_i hl
        have hno : ∀ e, Anc H p e → ¬ (defs e).isSome := fun e he h => hl (lookup_isSome.2 ⟨e, he, h⟩)
        have hdc : d = c := by
          cases hd with
          | refl => rfl
          | step h1 h2 => rw [hsup] at h1; cases h1; exact absurd hs (hno d h2)
        subst hdc
        refine ⟨.refl _, hs, fun e he hse => ?_⟩
        cases he with
        | refl => rfl
        | step h1 h2 => rw [hsup] at h1; cases h1; exact absurd hse (hno e h2)

theorem defClass_self {c : Nat} (h : (defs c).isSome) : defClass H defs c = some c := by
  obtain ⟨d, hd⟩ := Option.isSome_iff_exists.1 h
  unfold defClass
  rw [lookup]
  simp [hd]

theorem defClass_isSome {c : Nat} : (defClass H defs c).isSome ↔ ∃ d, Anc H c d ∧ (defs d).isSome := by
  unfold defClass
  rw [lookup_isSome]
  simp

theorem defClass_some {c d : Nat} (h : defClass H defs c = some d) : Anc H c d ∧ (defs d).isSome := by
  obtain ⟨e, h1, h2, _⟩ := lookup_some _ c d h
  simp only at h2
  cases he : defs e with
  | none => rw [he] at h2; cases h2
  | some x => rw [he] at h2; cases h2; exact ⟨h1, by simp [he]⟩

theorem accessCall_iff {c t : Nat} : accessCall H defs c = some t ↔ Top H defs c t := by
  constructor
  · intro h
    have hl : (lookup H defs c).isSome := by
      rw [lookup_isSome]
      obtain ⟨h1, h2⟩ := defClass_some h
      have hc : Anc H c (climb H defs c) := by
        clear h h1 h2
        induction hn : H.depth c using Nat.strongRecOn generalizing c with
        | _ n ih =>
          rw [climb]
          split
          · exact .refl _
          · rename_i p hs
            split
            · exact .step hs (ih _ (by have := H.depth_lt c p hs; omega) rfl)
            · exact .refl _
      exact ⟨t, hc.trans h1, h2⟩
    have ht := climb_top c hl
    unfold accessCall at h
    rw [defClass_self ht.2.1] at h
    cases h
    exact ht
  · intro h
    have ht := climb_top c (lookup_isSome.2 ⟨t, h.1, h.2.1⟩)
    have := ht.unique h
    unfold accessCall
    rw [defClass_self ht.2.1, this]

theorem accessAcc_iff {c t : Nat} : accessAcc H defs c = some t ↔ Top H defs c t := by
  unfold accessAcc
  cases hd : defClass H defs c with
  | none =>
    simp
    intro h
    have := defClass_isSome.2 ⟨t, h.1, h.2.1⟩
    rw [hd] at this
    cases this
  | some d =>
    obtain ⟨h1, h2⟩ := defClass_some hd
    show accessCall H defs d = some t ↔ _
    rw [accessCall_iff]
    refine ⟨fun h => h.anc h1, fun h => ?_⟩
    rcases h1.linear h.1 with h3 | h3
    · exact ⟨h3, h.2⟩
    · have := h.2.2 d h3 h2
      subst this
      exact ⟨.refl _, h.2⟩

theorem rootOf_top {c t : Nat} (h : Top H defs c t) (hg : ∀ e, Anc H c e → Anc H e t → (defs e).isSome) :
    rootOf H defs c = t := by
  induction hn : H.depth c using Nat.strongRecOn generalizing c with
  | _ n ih =>
    rw [rootOf]
    split
    · rename_i ho
      rcases h with ⟨ha, h2, h3⟩
      cases ha with
      | refl => rfl
      | step hs hp =>
        unfold overridden at ho
        rw [hs] at ho
        simp [hg _ (.step hs (.refl _)) hp] at ho
    · rename_i p ho
      have hs := overridden_sup H defs ho
      have hp : (defs p).isSome := by
        unfold overridden at ho
        rw [hs] at ho
        by_contra hc
        simp [hc] at ho
      rcases h with ⟨ha, h2, h3⟩
      cases ha with
      | refl =>
        have h4 := h3 p (.step hs (.refl _)) hp
        have h5 := H.depth_lt _ p hs
        rw [h4] at h5
        omega
      | step hs' hp' =>
        rw [hs] at hs'; cases hs'
        exact ih _ (by have := H.depth_lt c p hs; omega) ⟨hp', h2, h3⟩
          (fun e h1 h2 => hg e (.step hs h1) h2) rfl

theorem familyBody_rootOf_congr {H' : Hier} {defs' : Nat → Option (Def V M)} (S : Nat → Prop)
    (hsup : ∀ c, S c → H'.sup c = H.sup c) (hcl : ∀ c p, S c → H.sup c = some p → S p)
    (hdef : ∀ c, S c → defs' c = defs c) (c : Nat) (hc : S c) :
    rootOf H' defs' c = rootOf H defs c := by
  induction hn : H.depth c using Nat.strongRecOn generalizing c with
  | _ n ih =>
    have ho : overridden H' defs' c = overridden H defs c := by
      unfold overridden
      rw [hsup c hc]
      cases hs : H.sup c with
      | none => rfl
      | some p => simp only [hdef p (hcl c p hc hs)]
    rw [rootOf, rootOf]
    split
    · rename_i h1
      split
      · rfl
      · rename_i p h2; rw [ho, h2] at h1; cases h1
    · rename_i p h1
      split
      · rename_i h2; rw [ho, h2] at h1; cases h1
      · rename_i q h2
        rw [ho, h2] at h1; cases h1
        have hs := overridden_sup H defs h2
        exact ih _ (by have := H.depth_lt c p hs; omega) p (hcl c p hc hs) rfl

theorem chain_congr {H' : Hier} (S : Nat → Prop) (hsup : ∀ c, S c → H'.sup c = H.sup c)
    (hcl : ∀ c p, S c → H.sup c = some p → S p) (c : Nat) (hc : S c) : chain H' c = chain H c := by
  induction hn : H.depth c using Nat.strongRecOn generalizing c with
  | _ n ih =>
    rw [chain_eq, chain_eq, hsup c hc]
    cases hs : H.sup c with
    | none => rfl
    | some p => simp [ih _ (by have := H.depth_lt c p hs; omega) p (hcl c p hc hs) rfl]

theorem anc_closed (S : Nat → Prop) (hcl : ∀ c p, S c → H.sup c = some p → S p) {c d : Nat}
    (h : Anc H c d) (hc : S c) : S d := by
  induction h with
  | refl => exact hc
  | step hs _ ih => exact ih (hcl _ _ hc hs)

end Nagini.Families
