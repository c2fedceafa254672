import Verif.Model.Oblig
import Verif.Lemmas.Termination
import Mathlib.Order.WithBot
import Mathlib.Order.Nat
import Mathlib.Data.List.Nodup
/-!
Lemmas about exhaling, inhaling and bounding of obligations, and about measures.
-/
set_option linter.unusedVariables false
set_option linter.unusedSimpArgs false
namespace Nagini.Oblig

open Nagini.Termination (Inst Entry check initMap tcond inhaled callCheck positive LoopState loopFlag loopEntry loopEnd
  loopPositive resetAmount check_iff positive_iff tcond_iff tcond_ignore_iff inhaled_pos Active)

/-- All locks with an obligation. -/
def Hold.all (h : Hold) : List Nat := h.b ++ h.u

/-- The instance is well formed. -/
def Wf (i : Inst) : Prop := i.term = true → i.fresh = false

theorem insts_wf {ct : Nat} {c : Contract} : ∀ i ∈ insts ct c, Wf i := by
  intro i hi
  obtain ⟨o, _, rfl⟩ := List.mem_map.1 hi
  cases o with
  | terminate g v => intro _; rfl
  | release g l m => cases m <;> intro h <;> cases h

/-- The locks of the instances. -/
def keys (is : List Inst) : List Nat := is.filterMap fun i => if i.guard && !i.term then some i.key else none

theorem keys_insts {ct : Nat} {c : Contract} : keys (insts ct c) = c.locks := by
  unfold keys insts Contract.locks
  rw [List.filterMap_map]
  congr 1
  funext o
  cases o with
  | terminate g v => simp [instOf]
  | release g l m => cases m <;> cases g <;> simp [instOf]

theorem mem_keys {is : List Inst} {r : Nat} :
    r ∈ keys is ↔ ∃ i ∈ is, i.guard = true ∧ i.term = false ∧ i.key = r := by
  simp only [keys, List.mem_filterMap]
  constructor
  · rintro ⟨i, hi, h⟩
    split at h
    · rename_i hc
      simp only [Bool.and_eq_true, Bool.not_eq_true'] at hc
      exact ⟨i, hi, hc.1, hc.2, Option.some.inj h⟩
    · cases h
  · rintro ⟨i, hi, hg, ht, hk⟩
    exact ⟨i, hi, by simp [hg, ht, hk]⟩

/-! ### Exhaling -/

/-- Exhaling an instance. -/
def take1 (chk : Nat → Int → Bool) (i : Inst) (h : Hold) : Option Hold :=
  if i.guard = false ∨ i.term = true then some h
  else if i.fresh = false ∧ i.key ∈ h.b ∧ chk i.key i.value = true then some { h with b := h.b.erase i.key }
  else if i.key ∈ h.u then some { h with u := h.u.erase i.key }
  else none

/-- Exhaling instances. -/
def takeAll (chk : Nat → Int → Bool) : List Inst → Hold → Option Hold
  | [], h => some h
  | i :: is, h => (take1 chk i h).bind (takeAll chk is)

theorem exhale_eq {use : Inst → InEx} {chk : Nat → Int → Bool}
    (hu : ∀ i, Wf i → i.guard = true → ∀ h, (use i).exh.exhale h = take1 chk i h) :
    ∀ is h, (∀ i ∈ is, Wf i) → exhale use is h = takeAll chk is h := by
  intro is
  induction is with
  | nil => intro h _; rfl
  | cons i is ih =>
    intro h hw
    rw [exhale, takeAll]
    cases hg : i.guard with
    | false =>
      simp only [Bool.false_eq_true, if_false]
      rw [take1, if_pos (Or.inl hg)]
      exact ih h fun j hj => hw j (List.mem_cons_of_mem _ hj)
    | true =>
      simp only [if_true]
      rw [hu i (hw i List.mem_cons_self) hg h]
      cases take1 chk i h with
      | none => rfl
      | some h' => exact ih h' fun j hj => hw j (List.mem_cons_of_mem _ hj)

theorem bounded_exhale {i : Inst} {c : Bool} {chk : Nat → Int → Bool} (hg : i.guard = true) (ht : i.term = false)
    (hf : i.fresh = false) (hc : chk i.key i.value = c) (h : Hold) :
    ((inexOf i).boundedExhale c).exhale h = take1 chk i h := by
  simp only [inexOf, ht, Bool.false_eq_true, if_false, Inex.boundedExhale, Inex.unboundedExhale, Assn.exhale, Hold.has,
    Hold.del]
  rw [take1, if_neg (by simp [hg, ht])]
  by_cases hb : i.key ∈ h.b
  · cases c with
    | true => simp [hb, hf, hc]
    | false => by_cases hu : i.key ∈ h.u <;> simp [hb, hc, hu]
  · by_cases hu : i.key ∈ h.u <;> simp [hb, hu]

theorem unbounded_exhale {i : Inst} {chk : Nat → Int → Bool} (hg : i.guard = true) (ht : i.term = false)
    (hf : i.fresh = true) (h : Hold) : (inexOf i).unboundedExhale.exhale h = take1 chk i h := by
  simp only [inexOf, ht, Bool.false_eq_true, if_false, Inex.unboundedExhale, Assn.exhale, Hold.has, Hold.del]
  rw [take1, if_neg (by simp [hg, ht]), if_neg (by simp [hf])]
  by_cases hu : i.key ∈ h.u <;> simp [hu]

theorem useMethod_exh {map : List Entry} {post : Bool} {i : Inst} (hw : Wf i) (hg : i.guard = true) (h : Hold) :
    (useMethod map post i).exh.exhale h = take1 (fun k v => post || check map k v) i h := by
  cases ht : i.term with
  | true =>
    have hf := hw ht
    rw [take1, if_pos (Or.inr ht)]
    simp [useMethod, hf, Inex.useMethodBounded, inexOf, ht, Assn.exhale]
  | false =>
    cases hf : i.fresh with
    | true =>
      simp only [useMethod, hf, if_true, Inex.useMethodUnbounded]
      exact unbounded_exhale hg ht hf h
    | false =>
      have hs : (inexOf i).skip = false := by simp [inexOf, ht]
      simp only [useMethod, hf, Bool.false_eq_true, if_false, Inex.useMethodBounded, hs]
      refine bounded_exhale hg ht hf ?_ h
      cases post <;> simp

theorem useLoop_exh {map : List Entry} {before : Bool} {i : Inst} (hw : Wf i) (hg : i.guard = true) (h : Hold) :
    (useLoop map before i).exh.exhale h = take1 (fun k v => before || check map k v) i h := by
  cases ht : i.term with
  | true =>
    have hs : (inexOf i).skip = true := by simp [inexOf, ht]
    rw [take1, if_pos (Or.inr ht)]
    simp [useLoop, Inex.useLoop, hs, Assn.exhale]
  | false =>
    have hs : (inexOf i).skip = false := by simp [inexOf, ht]
    cases hf : i.fresh with
    | true =>
      simp only [useLoop, hf, if_true, Inex.useLoop, hs, Bool.false_eq_true, if_false]
      exact unbounded_exhale hg ht hf h
    | false =>
      simp only [useLoop, hf, Bool.false_eq_true, if_false, Inex.useLoop, hs]
      cases before with
      | true => simp only [if_true]; exact bounded_exhale hg ht hf (by simp) h
      | false => simp only [Bool.false_eq_true, if_false]; exact bounded_exhale hg ht hf (by simp) h

theorem exhale_method {map : List Entry} {post : Bool} {ct : Nat} {c : Contract} {h : Hold} :
    exhale (useMethod map post) (insts ct c) h = takeAll (fun k v => post || check map k v) (insts ct c) h :=
  exhale_eq (fun _ hw hg h => useMethod_exh hw hg h) _ _ insts_wf

theorem exhale_loop {map : List Entry} {before : Bool} {ct : Nat} {c : Contract} {h : Hold} :
    exhale (useLoop map before) (insts ct c) h = takeAll (fun k v => before || check map k v) (insts ct c) h :=
  exhale_eq (fun _ hw hg h => useLoop_exh hw hg h) _ _ insts_wf

theorem take1_spec {chk : Nat → Int → Bool} {i : Inst} {h h' : Hold} (e : take1 chk i h = some h') :
    h.all.Perm (keys [i] ++ h'.all) ∧ h'.t = h.t ∧ (∀ r ∈ h'.b, r ∈ h.b) ∧ (∀ r ∈ h'.u, r ∈ h.u) ∧
    (∀ r ∈ h.b, r ∉ h'.b → i.guard = true ∧ i.term = false ∧ i.fresh = false ∧ i.key = r ∧
      chk r i.value = true) := by
  rw [take1] at e
  split at e
  · rename_i hc
    obtain rfl := Option.some.inj e
    refine ⟨?_, rfl, fun _ h => h, fun _ h => h, fun r h1 h2 => absurd h1 h2⟩
    have : keys [i] = [] := by
      rcases hc with hc | hc <;> simp [keys, hc]
    rw [this]; exact List.Perm.refl _
  · rename_i hc
    have hc : i.guard = true ∧ i.term = false := by simpa using hc
    have hk : keys [i] = [i.key] := by simp [keys, hc]
    split at e
    · rename_i hb
      obtain rfl := Option.some.inj e
      refine ⟨?_, rfl, fun r h => List.mem_of_mem_erase h, fun _ h => h, fun r h1 h2 => ?_⟩
      · rw [hk]
        exact (List.perm_cons_erase hb.2.1).append_right _
      · have : r = i.key := by
          by_contra hne
          exact h2 ((List.mem_erase_of_ne hne).2 h1)
        subst this
        exact ⟨hc.1, hc.2, hb.1, rfl, hb.2.2⟩
    · split at e
      · rename_i hu
        obtain rfl := Option.some.inj e
        refine ⟨?_, rfl, fun _ h => h, fun r h => List.mem_of_mem_erase h, fun r h1 h2 => absurd h1 h2⟩
        rw [hk]
        exact ((List.perm_cons_erase hu).append_left _).trans List.perm_middle
      · cases e

theorem keys_cons {i : Inst} {is : List Inst} : keys (i :: is) = keys [i] ++ keys is := by
  simp only [keys]
  rw [← List.filterMap_append]
  rfl

theorem takeAll_spec {chk : Nat → Int → Bool} : ∀ {is : List Inst} {h h' : Hold}, takeAll chk is h = some h' →
    h.all.Perm (keys is ++ h'.all) ∧ h'.t = h.t ∧ (∀ r ∈ h'.b, r ∈ h.b) ∧ (∀ r ∈ h'.u, r ∈ h.u) ∧
    (∀ r ∈ h.b, r ∉ h'.b → ∃ i ∈ is, i.guard = true ∧ i.term = false ∧ i.fresh = false ∧ i.key = r ∧
      chk r i.value = true) := by
  intro is
  induction is with
  | nil =>
    intro h h' e
    obtain rfl := Option.some.inj e
    exact ⟨List.Perm.refl _, rfl, fun _ h => h, fun _ h => h, fun r h1 h2 => absurd h1 h2⟩
  | cons i is ih =>
    intro h h' e
    rw [takeAll] at e
    cases hm : take1 chk i h with
    | none => rw [hm] at e; cases e
    | some h1 =>
      rw [hm] at e
      obtain ⟨p1, t1, b1, u1, x1⟩ := take1_spec hm
      obtain ⟨p2, t2, b2, u2, x2⟩ := ih e
      refine ⟨?_, t2.trans t1, fun r h => b1 r (b2 r h), fun r h => u1 r (u2 r h), fun r hr hr' => ?_⟩
      · rw [keys_cons, List.append_assoc]
        exact p1.trans (p2.append_left _)
      · by_cases hb : r ∈ h1.b
        · obtain ⟨j, hj, hx⟩ := x2 r hb hr'
          exact ⟨j, List.mem_cons_of_mem _ hj, hx⟩
        · exact ⟨i, List.mem_cons_self, x1 r hr hb⟩

/-! ### Inhaling -/

/-- Inhaling an instance. -/
def give1 (i : Inst) (h : Hold) : Hold :=
  if i.guard then
    if i.term then { h with t := h.t + 1 }
    else if i.fresh then { h with u := i.key :: h.u }
    else { h with b := i.key :: h.b }
  else h

/-- Inhaling instances. -/
def giveAll : List Inst → Hold → Hold
  | [], h => h
  | i :: is, h => giveAll is (give1 i h)

theorem inhale_eq {use : Inst → InEx}
    (hu : ∀ i, Wf i → i.guard = true → ∀ h : Hold, h.add (use i).inh = give1 i h) :
    ∀ is h, (∀ i ∈ is, Wf i) → inhale use is h = giveAll is h := by
  intro is
  induction is with
  | nil => intro h _; rfl
  | cons i is ih =>
    intro h hw
    rw [inhale, giveAll]
    have : (if i.guard then h.add (use i).inh else h) = give1 i h := by
      cases hg : i.guard with
      | false => simp [give1, hg]
      | true => simp only [if_true]; exact hu i (hw i List.mem_cons_self) hg h
    rw [this]
    exact ih _ fun j hj => hw j (List.mem_cons_of_mem _ hj)

theorem useMethod_inh {map : List Entry} {post : Bool} {i : Inst} (hw : Wf i) (hg : i.guard = true) (h : Hold) :
    h.add (useMethod map post i).inh = give1 i h := by
  cases ht : i.term with
  | true =>
    have hf := hw ht
    simp [useMethod, hf, Inex.useMethodBounded, Inex.inhale, inexOf, ht, Hold.add, give1, hg]
  | false =>
    cases hf : i.fresh <;>
      simp [useMethod, hf, Inex.useMethodBounded, Inex.useMethodUnbounded, Inex.inhale, inexOf, ht, Hold.add, give1, hg]

theorem useLoop_inh {map : List Entry} {before : Bool} {i : Inst} (hw : Wf i) (hg : i.guard = true) (h : Hold) :
    h.add (useLoop map before i).inh = give1 i h := by
  cases ht : i.term with
  | true =>
    have hf := hw ht
    simp [useLoop, hf, Inex.useLoop, Inex.inhale, inexOf, ht, Hold.add, give1, hg]
  | false =>
    cases hf : i.fresh <;> simp [useLoop, hf, Inex.useLoop, Inex.inhale, inexOf, ht, Hold.add, give1, hg]

theorem inhale_method {map : List Entry} {post : Bool} {ct : Nat} {c : Contract} {h : Hold} :
    inhale (useMethod map post) (insts ct c) h = giveAll (insts ct c) h :=
  inhale_eq (fun _ hw hg h => useMethod_inh hw hg h) _ _ insts_wf

theorem inhale_loop {map : List Entry} {before : Bool} {ct : Nat} {c : Contract} {h : Hold} :
    inhale (useLoop map before) (insts ct c) h = giveAll (insts ct c) h :=
  inhale_eq (fun _ hw hg h => useLoop_inh hw hg h) _ _ insts_wf

theorem give1_spec {i : Inst} {h : Hold} :
    (give1 i h).all.Perm (keys [i] ++ h.all) ∧ (give1 i h).t = inhaled [i] + h.t ∧
    (∀ r ∈ h.b, r ∈ (give1 i h).b) ∧ (∀ r ∈ h.u, r ∈ (give1 i h).u) ∧
    (i.guard = true → i.term = false → i.fresh = false → i.key ∈ (give1 i h).b) ∧
    (∀ r ∈ (give1 i h).u, r ∈ h.u ∨ (i.fresh = true ∧ i.key = r)) := by
  cases hg : i.guard with
  | false =>
    have hk : keys [i] = [] := by simp [keys, hg]
    have hi : inhaled [i] = 0 := by simp [inhaled, hg]
    have hh : give1 i h = h := by simp [give1, hg]
    rw [hk, hi, hh]
    exact ⟨List.Perm.refl _, by omega, fun _ h => h, fun _ h => h, by simp, fun r hr => Or.inl hr⟩
  | true =>
    cases ht : i.term with
    | true =>
      have hk : keys [i] = [] := by simp [keys, ht]
      have hi : inhaled [i] = 1 := by simp [inhaled, hg, ht]
      have hh : give1 i h = { h with t := h.t + 1 } := by simp [give1, hg, ht]
      rw [hk, hi, hh]
      exact ⟨List.Perm.refl _, Nat.add_comm _ _, fun _ h => h, fun _ h => h, by simp, fun r hr => Or.inl hr⟩
    | false =>
      have hk : keys [i] = [i.key] := by simp [keys, hg, ht]
      have hi : inhaled [i] = 0 := by simp [inhaled, hg, ht]
      rw [hk, hi]
      cases hf : i.fresh with
      | true =>
        have hh : give1 i h = { h with u := i.key :: h.u } := by simp [give1, hg, ht, hf]
        rw [hh]
        refine ⟨List.perm_middle, by simp, fun _ h => h, fun r hr => List.mem_cons_of_mem _ hr, by simp, fun r hr => ?_⟩
        rcases List.mem_cons.1 hr with rfl | hr
        · exact Or.inr ⟨rfl, rfl⟩
        · exact Or.inl hr
      | false =>
        have hh : give1 i h = { h with b := i.key :: h.b } := by simp [give1, hg, ht, hf]
        rw [hh]
        exact ⟨List.Perm.refl _, by simp, fun r hr => List.mem_cons_of_mem _ hr, fun _ h => h, by simp,
          fun r hr => Or.inl hr⟩

theorem inhaled_cons {i : Inst} {is : List Inst} : inhaled (i :: is) = inhaled [i] + inhaled is := by
  simp only [inhaled]
  rw [← List.length_append, ← List.filter_append]
  rfl

theorem giveAll_spec : ∀ {is : List Inst} {h : Hold},
    (giveAll is h).all.Perm (keys is ++ h.all) ∧ (giveAll is h).t = inhaled is + h.t ∧
    (∀ r ∈ h.b, r ∈ (giveAll is h).b) ∧ (∀ r ∈ h.u, r ∈ (giveAll is h).u) ∧
    (∀ i ∈ is, i.guard = true → i.term = false → i.fresh = false → i.key ∈ (giveAll is h).b) ∧
    (∀ r ∈ (giveAll is h).u, r ∈ h.u ∨ ∃ i ∈ is, i.fresh = true ∧ i.key = r) := by
  intro is
  induction is with
  | nil =>
    intro h
    exact ⟨List.Perm.refl _, by simp [giveAll, inhaled], fun _ h => h, fun _ h => h, fun i hi => absurd hi (by simp),
      fun r hr => Or.inl hr⟩
  | cons i is ih =>
    intro h
    rw [giveAll]
    obtain ⟨p1, t1, b1, u1, x1, y1⟩ := give1_spec (i := i) (h := h)
    obtain ⟨p2, t2, b2, u2, x2, y2⟩ := ih (h := give1 i h)
    refine ⟨?_, ?_, fun r hr => b2 r (b1 r hr), fun r hr => u2 r (u1 r hr), ?_, ?_⟩
    · refine p2.trans ((p1.append_left _).trans ?_)
      rw [keys_cons (i := i) (is := is), ← List.append_assoc]
      exact List.perm_append_comm.append_right _
    · rw [t2, t1, inhaled_cons (i := i) (is := is)]; omega
    · intro j hj hg ht hf
      rcases List.mem_cons.1 hj with rfl | hj
      · exact b2 _ (x1 hg ht hf)
      · exact x2 j hj hg ht hf
    · intro r hr
      rcases y2 r hr with h3 | ⟨j, hj, h3⟩
      · rcases y1 r h3 with h4 | h4
        · exact Or.inl h4
        · exact Or.inr ⟨i, List.mem_cons_self, h4⟩
      · exact Or.inr ⟨j, List.mem_cons_of_mem _ hj, h3⟩

/-! ### Bounding -/

theorem bound_spec : ∀ {is : List Inst} {h : Hold}, (bound is h).all.Perm h.all ∧ (bound is h).t = h.t ∧
    (h.u.Nodup → (∀ r ∈ (bound is h).u, r ∈ h.u ∧ ¬ ∃ i ∈ is, i.fresh = true ∧ i.key = r)) := by
  intro is
  induction is with
  | nil =>
    intro h
    refine ⟨List.Perm.refl _, rfl, fun _ r hr => ⟨hr, ?_⟩⟩
    rintro ⟨i, hi, _⟩
    cases hi
  | cons i is ih =>
    intro h
    rw [bound]
    by_cases hc : i.fresh = true ∧ i.key ∈ h.u
    · rw [if_pos (by simp [Hold.has, hc])]
      obtain ⟨p, t, y⟩ := ih (h := (h.del (.unbounded i.key)).add (.bounded i.key))
      refine ⟨p.trans ?_, t, fun hn r hr => ?_⟩
      · simp only [Hold.del, Hold.add, Hold.all]
        exact (List.perm_middle.symm).trans ((List.perm_cons_erase hc.2).symm.append_left _)
      · obtain ⟨y1, y2⟩ := y (hn.erase _) r hr
        simp only [Hold.del, Hold.add] at y1
        refine ⟨List.mem_of_mem_erase y1, ?_⟩
        rintro ⟨j, hj, hf, hk⟩
        rcases List.mem_cons.1 hj with rfl | hj
        · rw [hk] at y1
          exact hn.not_mem_erase y1
        · exact y2 ⟨j, hj, hf, hk⟩
    · rw [if_neg (by simp [Hold.has]; exact fun h1 h2 => hc ⟨h1, h2⟩)]
      obtain ⟨p, t, y⟩ := ih (h := h)
      refine ⟨p, t, fun hn r hr => ?_⟩
      obtain ⟨y1, y2⟩ := y hn r hr
      refine ⟨y1, ?_⟩
      rintro ⟨j, hj, hf, hk⟩
      rcases List.mem_cons.1 hj with rfl | hj
      · exact hc ⟨hf, hk ▸ y1⟩
      · exact y2 ⟨j, hj, hf, hk⟩

/-- The permissions at the beginning of a method or of an iteration. -/
theorem start_spec {is : List Inst} :
    (bound is (giveAll is .empty)).all.Perm (keys is) ∧ (bound is (giveAll is .empty)).t = inhaled is ∧
    ((keys is).Nodup → (bound is (giveAll is .empty)).u = [] ∧ ∀ r ∈ keys is, r ∈ (bound is (giveAll is .empty)).b) := by
  obtain ⟨p1, t1, b1, u1, x1, y1⟩ := giveAll_spec (is := is) (h := Hold.empty)
  obtain ⟨p2, t2, y2⟩ := bound_spec (is := is) (h := giveAll is Hold.empty)
  have hp : (bound is (giveAll is .empty)).all.Perm (keys is) := p2.trans (p1.trans (by simp [Hold.empty, Hold.all]))
  refine ⟨hp, by rw [t2, t1]; rfl, fun hn => ?_⟩
  have hn1 : (giveAll is Hold.empty).u.Nodup := by
    have : (giveAll is Hold.empty).all.Nodup := (p2.symm.trans hp).nodup_iff.2 hn
    exact (List.nodup_append.1 this).2.1
  have hu : (bound is (giveAll is .empty)).u = [] := by
    rw [List.eq_nil_iff_forall_not_mem]
    intro r hr
    obtain ⟨z1, z2⟩ := y2 hn1 r hr
    rcases y1 r z1 with h | h
    · cases h
    · exact z2 h
  refine ⟨hu, fun r hr => ?_⟩
  have := hp.mem_iff.2 hr
  simpa [Hold.all, hu] using this

theorem leakFree_iff {h : Hold} : leakFree h = true ↔ h.all = [] := by
  simp [leakFree, Hold.all, List.isEmpty_iff]

theorem not_leakFree {h : Hold} {r : Nat} (hr : r ∈ h.all) : leakFree h = false := by
  cases hl : leakFree h with
  | false => rfl
  | true => rw [leakFree_iff.1 hl] at hr; cases hr

theorem consistent_of_nodup {h : Hold} (hn : h.all.Nodup) : h.consistent :=
  ⟨(List.nodup_append.1 hn).1, (List.nodup_append.1 hn).2.1⟩

theorem merge_all {h h' : Hold} : (h.merge h').all.Perm (h.all ++ h'.all) := by
  simp only [Hold.merge, Hold.all, List.append_assoc]
  refine List.Perm.append_left _ ?_
  rw [← List.append_assoc, ← List.append_assoc]
  exact List.perm_append_comm.append_right _

/-! ### Measures -/

/-- The smallest measure of a key. -/
def rank (map : List Entry) (k : Nat) : WithTop Nat :=
  map.foldr (fun e a => if e.guard = true ∧ e.key = k then min (e.value.toNat : WithTop Nat) a else a) ⊤

theorem rank_le {map : List Entry} {k : Nat} {e : Entry} (he : e ∈ map) (hg : e.guard = true) (hk : e.key = k) :
    rank map k ≤ (e.value.toNat : WithTop Nat) := by
  induction map with
  | nil => cases he
  | cons a map ih =>
    rw [rank, List.foldr_cons]
    rcases List.mem_cons.1 he with rfl | he
    · rw [if_pos ⟨hg, hk⟩]; exact min_le_left _ _
    · split
      · exact (min_le_right _ _).trans (ih he)
      · exact ih he

theorem lt_rank {map : List Entry} {k n : Nat}
    (h : ∀ e ∈ map, e.guard = true → e.key = k → n < e.value.toNat) : (n : WithTop Nat) < rank map k := by
  induction map with
  | nil => exact WithTop.coe_lt_top n
  | cons a map ih =>
    have ih := ih fun e he => h e (List.mem_cons_of_mem _ he)
    rw [rank, List.foldr_cons]
    split
    · rename_i hc
      exact lt_min (WithTop.coe_lt_coe.2 (h a List.mem_cons_self hc.1 hc.2)) ih
    · exact ih

theorem rank_init_le {is : List Inst} {i : Inst} {k : Nat} (hi : i ∈ is) (hg : i.guard = true) (hf : i.fresh = false)
    (hk : i.key = k) : rank (initMap false is) k ≤ (i.value.toNat : WithTop Nat) :=
  rank_le (e := ⟨i.guard, i.key, i.value⟩)
    (List.mem_map.2 ⟨i, List.mem_filter.2 ⟨hi, by simp [hf]⟩, by simp⟩) hg hk

theorem rank_lt {map : List Entry} {is : List Inst} {i : Inst} {k : Nat} (hp : positive is = true) (hi : i ∈ is)
    (hg : i.guard = true) (hf : i.fresh = false) (hk : i.key = k) (hc : check map k i.value = true) :
    rank (initMap false is) k < rank map k := by
  refine lt_of_le_of_lt (rank_init_le hi hg hf hk) (lt_rank fun e he h1 h2 => ?_)
  have := check_iff.1 hc e he h1 h2
  have := positive_iff.1 hp i hi hg hf
  omega

theorem insts_term {ct : Nat} {c : Contract} {i : Inst} (hi : i ∈ insts ct c) (ht : i.term = true) :
    i.fresh = false ∧ i.key = ct := by
  obtain ⟨o, _, rfl⟩ := List.mem_map.1 hi
  cases o with
  | terminate g v => exact ⟨rfl, rfl⟩
  | release g l m => cases m <;> cases ht

theorem rank_tcond {map : List Entry} {ct : Nat} {c : Contract} (hp : positive (insts ct c) = true)
    (h : tcond false map ct (insts ct c) = true) :
    rank (initMap false (insts ct c)) ct < rank map ct ∧ 0 < inhaled (insts ct c) := by
  obtain ⟨i, hi, ht, hg, hc⟩ := tcond_iff.1 h
  obtain ⟨hf, hk⟩ := insts_term hi ht
  exact ⟨rank_lt hp hi hg hf hk hc, inhaled_pos.2 ⟨i, hi, ht, hg⟩⟩

theorem active_insts {ct : Nat} {c : Contract} : Active (insts ct c) ↔ c.terminates := by
  constructor
  · rintro ⟨i, hi, ht, hg⟩
    obtain ⟨o, ho, rfl⟩ := List.mem_map.1 hi
    cases o with
    | terminate g v =>
      have : g = true := hg
      subst this
      exact ⟨v, ho⟩
    | release g l m => cases m <;> cases ht
  · rintro ⟨v, hv⟩
    exact ⟨_, List.mem_map.2 ⟨_, hv, rfl⟩, rfl, rfl⟩

end Nagini.Oblig
