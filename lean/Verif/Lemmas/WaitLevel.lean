import Verif.Spec.WaitLevel
import Mathlib.Order.Lattice
import Mathlib.Data.List.Induction
set_option linter.unusedVariables false
set_option linter.unusedSimpArgs false
namespace Nagini.WaitLevel

theorem levelBelow_iff {L : Obj → Rat} {held : List Nat} {r e : Rat} :
    levelBelow L held r e = true ↔ (∀ l ∈ held, L (.lock l) < e) ∧ r < e := by
  simp [levelBelow]

theorem levelBelowEq_iff {L : Obj → Rat} {held : List Nat} {r e : Rat} :
    levelBelowEq L held r e = true ↔ (∀ l ∈ held, L (.lock l) ≤ e) ∧ r ≤ e := by
  simp [levelBelowEq]

theorem maxLevel_ge (L : Obj → Rat) (rest : List Nat) (r : Rat) :
    r ≤ maxLevel L rest r ∧ ∀ l ∈ rest, L (.lock l) ≤ maxLevel L rest r := by
  unfold maxLevel
  induction rest generalizing r with
  | nil => exact ⟨le_refl _, fun l hl => by cases hl⟩
  | cons x xs ih =>
    obtain ⟨h1, h2⟩ := ih (max r (L (.lock x)))
    rw [List.foldl_cons]
    refine ⟨le_trans (le_max_left _ _) h1, fun l hl => ?_⟩
    rcases List.mem_cons.1 hl with rfl | hl
    · exact le_trans (le_max_right _ _) h1
    · exact h2 l hl

theorem maxLevel_lt (L : Obj → Rat) (rest : List Nat) (r e : Rat)
    (h : levelBelow L rest r e = true) : maxLevel L rest r < e := by
  obtain ⟨h1, h2⟩ := levelBelow_iff.1 h
  clear h
  unfold maxLevel
  induction rest generalizing r with
  | nil => exact h2
  | cons x xs ih =>
    rw [List.foldl_cons]
    exact ih _ (fun l hl => h1 l (List.mem_cons_of_mem _ hl)) (max_lt h2 (h1 x List.mem_cons_self))

/-- The residue of each frame is above everything owned further out. -/
def Linked (L : Obj → Rat) : List Frame → Prop
  | [] => True
  | f :: fs => (f.loop = false → f.mres = f.res) ∧ (∀ g ∈ fs, ∀ l ∈ g.held, L (.lock l) ≤ f.res) ∧
      (∀ g ∈ fs, g.res ≤ f.res) ∧ Linked L fs

/-- What is known about a waiting thread. -/
def WaitOk (L : Obj → Rat) (t : Th) : Prop :=
  match t.wait with
  | .none => True
  | .on x => (∃ n, x = .thread n) ∧ (∃ f fs, t.stack = f :: fs ∧ f.loop = true) ∨
      ∀ f ∈ t.stack, ∀ l ∈ f.held, L (.lock l) < L x

def Good (L : Obj → Rat) (t : Th) : Prop := Linked L t.stack ∧ WaitOk L t

theorem waitOk_none (L : Obj → Rat) (s : List Frame) (b : Bool) : WaitOk L ⟨s, .none, b⟩ := trivial

theorem linked_top {L : Obj → Rat} {f f' : Frame} {fs : List Frame} (h : Linked L (f :: fs))
    (h1 : f'.res = f.res) (h2 : f'.mres = f.mres) (h3 : f'.loop = f.loop) : Linked L (f' :: fs) := by
  simp only [Linked] at h ⊢
  rw [h1, h2, h3]
  exact h

theorem linked_push {L : Obj → Rat} {f : Frame} {fs : List Frame} (h : Linked L (f :: fs))
    (rest passed : List Nat) (m : Rat) (b : Bool) (hm : b = false → m = maxLevel L rest f.res) :
    Linked L (⟨passed, maxLevel L rest f.res, m, b⟩ :: { f with held := rest } :: fs) := by
  obtain ⟨hg1, hg2⟩ := maxLevel_ge L rest f.res
  refine ⟨hm, ?_, ?_, linked_top h rfl rfl rfl⟩
  · intro g hg l hl
    rcases List.mem_cons.1 hg with rfl | hg
    · exact hg2 l hl
    · exact le_trans (h.2.1 g hg l hl) hg1
  · intro g hg
    rcases List.mem_cons.1 hg with rfl | hg
    · exact hg1
    · exact le_trans (h.2.2.1 g hg) hg1

theorem good_set {L : Obj → Rat} {σ : Sys} (h : ∀ i, Good L (σ i)) (i : Nat) (t : Th) (ht : Good L t) :
    ∀ j, Good L (σ.set i t j) := by
  intro j
  unfold Sys.set
  split
  · exact ht
  · exact h j

theorem stack_linked {L : Obj → Rat} {σ : Sys} {i : Nat} {s : List Frame} {w : Wait} {b : Bool}
    (h : ∀ i, Good L (σ i)) (e : σ i = ⟨s, w, b⟩) : Linked L s := by
  have := (h i).1
  rw [e] at this
  exact this

theorem step_good {L : Obj → Rat} {σ τ : Sys} (h : ∀ i, Good L (σ i)) (hs : Step L σ τ) :
    ∀ i, Good L (τ i) := by
  cases hs with
  | call i f fs passed rest es e hp hc =>
    exact good_set h _ _ ⟨linked_push (stack_linked h e) rest passed _ _ fun _ => rfl, trivial⟩
  | loop i f fs passed rest e hp =>
    exact good_set h _ _ ⟨linked_push (stack_linked h e) rest passed _ _ (fun hb => by cases hb), trivial⟩
  | ret i g f fs e =>
    exact good_set h _ _ ⟨linked_top (stack_linked h e).2.2.2 rfl rfl rfl, trivial⟩
  | finish i f e hh => exact good_set h _ _ ⟨trivial, trivial⟩
  | acquire i f fs l e hc =>
    have hl := stack_linked h e
    refine good_set h _ _ ⟨hl, Or.inr ?_⟩
    simp only [acquireCheck, preCheck, List.all_cons, List.all_nil, Bool.and_true] at hc
    obtain ⟨h1, h2⟩ := levelBelow_iff.1 hc
    intro g hg x hx
    rcases List.mem_cons.1 hg with rfl | hg
    · exact h1 x hx
    · exact lt_of_le_of_lt (hl.2.1 g hg x hx) h2
  | grant i f fs l e hn =>
    exact good_set h _ _ ⟨linked_top (stack_linked h e) rfl rfl rfl, trivial⟩
  | release i f fs l e hl =>
    exact good_set h _ _ ⟨linked_top (stack_linked h e) rfl rfl rfl, trivial⟩
  | fork i f fs passed rest j es r e hne hst hp hf hr =>
    have h' := good_set h i ⟨{ f with held := rest } :: fs, .none, true⟩
      ⟨linked_top (stack_linked h e) rfl rfl rfl, trivial⟩
    refine good_set h' _ _ ⟨⟨fun _ => rfl, ?_, ?_, trivial⟩, trivial⟩
    · intro g hg
      cases hg
    · intro g hg
      cases hg
  | join i f fs t e hst hc =>
    have hl := stack_linked h e
    refine good_set h _ _ ⟨hl, ?_⟩
    cases hb : f.loop with
    | true => exact Or.inl ⟨⟨t, rfl⟩, f, fs, rfl, hb⟩
    | false =>
      refine Or.inr ?_
      obtain ⟨h1, h2⟩ := levelBelow_iff.1 hc
      rw [hl.1 hb] at h2
      intro g hg x hx
      rcases List.mem_cons.1 hg with rfl | hg
      · exact h1 x hx
      · exact lt_of_le_of_lt (hl.2.1 g hg x hx) h2
  | joined i f fs t e ht =>
    exact good_set h _ _ ⟨stack_linked h e, trivial⟩

theorem reach_good {L : Obj → Rat} {σ : Sys} (h : Reach L σ) : ∀ i, Good L (σ i) := by
  induction h with
  | init r =>
    intro i
    unfold initial
    split
    · exact ⟨⟨fun _ => rfl, (fun g hg => by cases hg), (fun g hg => by cases hg), trivial⟩, trivial⟩
    · exact ⟨trivial, trivial⟩
  | step _ hs ih => exact step_good ih hs

theorem flagAfter_append (b : Bool) (es es' : List Ev) :
    flagAfter b (es ++ es') = flagAfter (flagAfter b es) es' := by simp [flagAfter]

theorem flagStep_true {b : Bool} {e : Ev} (h : ¬ Resets e) : flagStep true e = true := by
  cases e with
  | inline => rfl
  | fork n =>
    by_cases hn : n = 0
    · simp [flagStep, hn]
    · exact absurd ⟨n, Nat.pos_of_ne_zero hn, Or.inl rfl⟩ h
  | join n =>
    by_cases hn : n = 0
    · simp [flagStep, hn]
    · exact absurd ⟨n, Nat.pos_of_ne_zero hn, Or.inr rfl⟩ h

theorem flagStep_resets {b : Bool} {e : Ev} (h : Resets e) : flagStep b e = false := by
  obtain ⟨n, hn, rfl | rfl⟩ := h <;> simp [flagStep, Nat.pos_iff_ne_zero.1 hn]

theorem flagAfter_concat (b : Bool) (es : List Ev) (e : Ev) :
    flagAfter b (es ++ [e]) = flagStep (flagAfter b es) e := by simp [flagAfter]

theorem flag_lost (es : List Ev) : flagAfter false es = true ↔ Lost es := by
  induction es using List.reverseRecOn with
  | nil => simp [flagAfter, Lost]
  | append_singleton es e ih =>
    rw [flagAfter_concat]
    by_cases hr : Resets e
    · rw [flagStep_resets hr]
      constructor
      · intro h; cases h
      · rintro ⟨before, after, he, ha⟩
        rcases List.eq_nil_or_concat after with rfl | ⟨after, e', rfl⟩
        · have := (List.append_inj' he rfl).2
          cases this
          obtain ⟨n, _, h | h⟩ := hr <;> cases h
        · have h2 : es ++ [e] = (before ++ .inline :: after) ++ [e'] := by simpa using he
          have := (List.append_inj' h2 rfl).2
          cases this
          exact absurd hr (ha e (by simp))
    · by_cases hi : e = .inline
      · subst hi
        exact ⟨fun _ => ⟨es, [], rfl, fun e he => by cases he⟩, fun _ => rfl⟩
      · have hs : flagStep (flagAfter false es) e = flagAfter false es := by
          cases hb : flagAfter false es with
          | true => exact flagStep_true (b := true) hr
          | false =>
            cases e with
            | inline => exact absurd rfl hi
            | fork n => simp [flagStep]
            | join n => simp [flagStep]
        rw [hs, ih]
        constructor
        · rintro ⟨before, after, rfl, ha⟩
          refine ⟨before, after ++ [e], by simp, fun x hx => ?_⟩
          rcases List.mem_append.1 hx with hx | hx
          · exact ha x hx
          · rw [List.mem_singleton.1 hx]
            exact hr
        · rintro ⟨before, after, he, ha⟩
          rcases List.eq_nil_or_concat after with rfl | ⟨after, e', rfl⟩
          · have := (List.append_inj' he rfl).2
            cases this
            exact absurd rfl hi
          · have h2 : es ++ [e] = (before ++ .inline :: after) ++ [e'] := by simpa using he
            exact ⟨before, after, (List.append_inj' h2 rfl).1, fun x hx => ha x (by simp [hx])⟩

theorem emittedFrom_kept (ms : List Meth) (es : List Ev) :
    emittedFrom (flagAfter false es) ms = kept es ms := by
  induction ms generalizing es with
  | nil => rfl
  | cons m ms ih =>
    rw [emittedFrom, kept, ← flagAfter_append, ih]
    congr 1
    cases h : flagAfter false es with
    | true => rw [if_pos rfl, if_pos ((flag_lost es).1 h)]
    | false =>
      have : ¬ Lost es := fun hl => by rw [(flag_lost es).2 hl] at h; cases h
      rw [if_neg (by simp), if_neg this]

/-- Some element of a non-empty list has the largest value. -/
theorem exists_max {α : Type} (w : α → Rat) (D : List α) (h : D ≠ []) :
    ∃ i ∈ D, ∀ j ∈ D, w j ≤ w i := by
  induction D with
  | nil => exact absurd rfl h
  | cons a D ih =>
    by_cases hD : D = []
    · subst hD
      exact ⟨a, List.mem_cons_self, fun j hj => by
        rcases List.mem_cons.1 hj with rfl | hj
        · exact le_refl _
        · cases hj⟩
    · obtain ⟨i, hi, hm⟩ := ih hD
      by_cases hle : w a ≤ w i
      · exact ⟨i, List.mem_cons_of_mem _ hi, fun j hj => by
          rcases List.mem_cons.1 hj with rfl | hj
          · exact hle
          · exact hm j hj⟩
      · exact ⟨a, List.mem_cons_self, fun j hj => by
          rcases List.mem_cons.1 hj with rfl | hj
          · exact le_refl _
          · exact le_trans (hm j hj) (le_of_lt (not_le.1 hle))⟩

end Nagini.WaitLevel
