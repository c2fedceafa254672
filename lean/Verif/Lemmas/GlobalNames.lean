import Verif.Model.GlobalNames

/-! Lemmas about the checks that global names are defined (C126, C127). -/
namespace Nagini.GlobalNames

theorem lookup_complete {p : Prog} (w : WF p) {m c b} (h : Finds p m c b) : ∀ fuel, c < fuel → lookup p m fuel c = some b := by
  induction h with
  | @own c cd b hc hm =>
    intro fuel hf
    cases fuel with
    | zero => omega
    | succ f => simp [lookup, hc, hm]
  | @up c cd d b hc hm hs _ ih =>
    intro fuel hf
    cases fuel with
    | zero => omega
    | succ f =>
      simp only [lookup, hc, hm, hs]
      exact ih f (by have := w _ _ _ hc hs; omega)

theorem lookup_sound {p : Prog} {m b} : ∀ {fuel c}, lookup p m fuel c = some b → Finds p m c b := by
  intro fuel
  induction fuel with
  | zero => intro c h; simp [lookup] at h
  | succ f ih =>
    intro c h
    rw [lookup] at h
    cases hc : p.classes[c]? with
    | none => simp [hc] at h
    | some cd =>
      simp only [hc] at h
      cases hm : cd.methods m with
      | some b' => simp [hm] at h; subst h; exact .own hc hm
      | none =>
        simp only [hm] at h
        cases hs : cd.sup with
        | none => simp [hs] at h
        | some d => simp only [hs] at h; exact .up hc hm hs (ih h)

theorem sub_known {p : Prog} {c d} (h : Sub p c d) : ∃ cd, p.classes[d]? = some cd := by
  cases h with
  | refl h => exact ⟨_, h⟩
  | up h _ _ => exact ⟨_, h⟩

theorem isSub_complete {p : Prog} (w : WF p) {c d} (h : Sub p c d) : ∀ fuel, d < fuel → isSub p c fuel d = true := by
  induction h with
  | refl hc =>
    intro fuel hf
    cases fuel with
    | zero => omega
    | succ f => simp [isSub, hc]
  | @up d cd e hd hs _ ih =>
    intro fuel hf
    cases fuel with
    | zero => omega
    | succ f =>
      have := ih f (by have := w _ _ _ hd hs; omega)
      simp [isSub, hd, hs, this]

theorem isSub_sound {p : Prog} {c} : ∀ {fuel d}, isSub p c fuel d = true → Sub p c d := by
  intro fuel
  induction fuel with
  | zero => intro d h; simp [isSub] at h
  | succ f ih =>
    intro d h
    rw [isSub] at h
    cases hd : p.classes[d]? with
    | none => simp [hd] at h
    | some cd =>
      simp only [hd, Bool.or_eq_true, decide_eq_true_eq] at h
      rcases h with rfl | h
      · exact .refl hd
      · cases hs : cd.sup with
        | none => simp [hs] at h
        | some e => simp only [hs] at h; exact .up hd hs (ih h)

theorem mem_subclasses {p : Prog} (w : WF p) {c d} : d ∈ subclasses p c ↔ Sub p c d := by
  simp only [subclasses, List.mem_filter, List.mem_range]
  constructor
  · rintro ⟨_, h⟩; exact isSub_sound h
  · intro h
    obtain ⟨cd, hd⟩ := sub_known h
    exact ⟨(List.getElem?_eq_some_iff.1 hd).1, isSub_complete w h _ (by omega)⟩

theorem named_className {p : Prog} {c n} (h : Named p c n) : className p c = n := by
  obtain ⟨cd, hc, rfl⟩ := h
  simp [className, hc]

theorem className_named {p : Prog} {c cd} (h : p.classes[c]? = some cd) : Named p c (className p c) :=
  ⟨cd, h, by simp [className, h]⟩

/-- `E` describes the defined names `D`, except for names of the methods and fields of classes. -/
structure Agree (p : Prog) (E : List Ref) (D : List Nat) : Prop where
  to : ∀ n, n ∈ D → Ref.single n ∈ E
  back : ∀ n, Ref.single n ∈ E → n ∈ D ∨ ∃ cd ∈ p.classes, n ∈ cd.inner
  comb : ∀ c m, Ref.comb c m ∉ E

theorem Agree.cons {p E D} (h : Agree p E D) (n : Nat) : Agree p (.single n :: E) (n :: D) where
  to := by intro m hm; simp at hm ⊢; rcases hm with rfl | hm; exact .inl rfl; exact .inr (h.to m hm)
  back := by
    intro m hm
    simp at hm
    rcases hm with rfl | hm
    · exact .inl (by simp)
    · rcases h.back m hm with h | h
      · exact .inl (by simp [h])
      · exact .inr h
  comb := by intro c m hm; simp at hm; exact h.comb c m hm

theorem Agree.cls {p E D} {c : Nat} {cd : Cls} (h : Agree p E D) (hc : p.classes[c]? = some cd) :
    Agree p (.single cd.name :: cd.inner.map Ref.single ++ E) (cd.name :: D) where
  to := by
    intro m hm
    simp only [List.mem_cons, List.cons_append, List.mem_append, List.mem_map] at hm ⊢
    rcases hm with rfl | hm
    · exact .inl rfl
    · exact .inr (.inr (h.to m hm))
  back := by
    intro m hm
    simp only [List.mem_cons, List.cons_append, List.mem_append, List.mem_map, Ref.single.injEq] at hm
    rcases hm with rfl | ⟨k, hk, rfl⟩ | hm
    · exact .inl (by simp)
    · exact .inr ⟨cd, List.mem_of_getElem? hc, hk⟩
    · rcases h.back m hm with h | h
      · exact .inl (by simp [h])
      · exact .inr h
  comb := by
    intro c m hm
    simp at hm
    exact h.comb c m hm

end Nagini.GlobalNames
