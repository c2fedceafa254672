import Verif.Lemmas.Cfg

/-! The generated control flow graph simulates Python's executions. -/
namespace Nagini.Cfg

set_option linter.unusedVariables false
set_option linter.unusedSimpArgs false

variable {σ Val Exc Ty : Type} {P : List (Instr σ Val Exc)}

/-! ### Syntax -/

theorem find_isSome {l : Label} : ∀ {c : List (Instr σ Val Exc)}, l ∈ labels c → (find l c).isSome := by
  intro c
  induction c with
  | nil => intro h; cases h
  | cons x c ih =>
    intro h
    cases x with
    | label l' =>
      simp only [labels, List.mem_cons] at h
      simp only [find]
      split
      · rfl
      · rename_i hne
        exact ih (h.resolve_left (fun h => hne h.symm))
    | _ => exact ih h

theorem infix_label {l : Label} {X : List (Instr σ Val Exc)} (h : X <:+: P) (hl : l ∈ labels X) : (find l P).isSome := by
  obtain ⟨a, b, rfl⟩ := h
  apply find_isSome
  simp [labels_append, hl]

def Job.hasRet : Job σ Val Exc Ty → Bool
  | .stmt s => s.hasRet
  | .inner _ s hs _ t _ _ => s.hasRet || hs.hasRet || t.hasRet

section
variable {isinst : Exc → Ty → Bool}

theorem find_hasRet {e : Exc} : ∀ {hs : Handlers σ Val Exc Ty} {g h}, hs.find isinst e = some (g, h) → h.hasRet = true → hs.hasRet = true
  | .nil, g, h => fun h1 => by cases h1
  | .cons ty b s r, g, h => fun h1 h2 => by
    simp only [Handlers.find] at h1
    split at h1
    · cases h1; simp [Handlers.hasRet, h2]
    · simp [Handlers.hasRet, find_hasRet h1 h2]

theorem exec_ret {j : Job σ Val Exc Ty} {a b : σ} {o : Outcome Val Exc} (h : Exec isinst j a o b) : ∀ v, o = .ret v → j.hasRet = true := by
  induction h with
  | innerCatch i s hs t u f F a b c e g h o _ h2 _ ih1 ih2 =>
    intro v hv
    have := find_hasRet h2 (ih2 v hv)
    simp [Job.hasRet, this]
  | seq | seqStop | iteTrue | iteFalse | loopElse | loopBrk | loopNext | loopStop | retNone | ret | innerElse | innerJump |
    tryNoFin | tryFin | tryOver | withS => intro v hv; simp_all [Job.hasRet, Stmt.hasRet] <;> grind
  | _ => intro v hv; cases hv

theorem handler_found {e : Exc} {i : Nat} {f : Bool} {fs : List (Frame Ty)} : ∀ {hs : Handlers σ Val Exc Ty} {g h}, hs.find isinst e = some (g, h) →
    ∀ k0, ∃ k, firstH isinst e k0 hs.heads = some (k, g.isSome) ∧
      handlerCode isinst i f fs k g h <:+: handlersCode isinst i f fs k0 hs ∧
      blocks isinst (.other i f :: fs) h <:+: handlerBlocks isinst i f fs hs ∧
      (okHandlers i f fs hs = true → ok (.other i f :: fs) h = true) ∧ h.ids.Sublist hs.ids
  | .nil, g, h => fun h1 => by cases h1
  | .cons ty b s r, g, h => fun h1 k0 => by
    simp only [Handlers.find] at h1
    by_cases he : isinst e ty = true
    · rw [if_pos he] at h1
      cases h1
      refine ⟨k0, by simp [Handlers.heads, firstH, he], ?_, ?_, ?_, ?_⟩
      · exact (List.prefix_append _ _).isInfix
      · simp only [handlerBlocks]; exact (List.prefix_append _ _).isInfix
      · intro h; simp only [okHandlers, Bool.and_eq_true] at h; exact h.1
      · simp [Handlers.ids]
    · rw [if_neg he] at h1
      obtain ⟨k, h2, h3, h4, h5, h6⟩ := handler_found (i := i) (f := f) (fs := fs) h1 (k0 + 1)
      refine ⟨k, by simp [Handlers.heads, firstH, he, h2], ?_, ?_, ?_, ?_⟩
      · exact h3.trans (List.suffix_append _ _).isInfix
      · simp only [handlerBlocks]; exact h4.trans (List.suffix_append _ _).isInfix
      · intro h; simp only [okHandlers, Bool.and_eq_true] at h; exact h5 h.2
      · exact h6.trans (by simp [Handlers.ids])

theorem handler_none {e : Exc} : ∀ {hs : Handlers σ Val Exc Ty}, hs.find isinst e = none → ∀ k0, firstH isinst e k0 hs.heads = none
  | .nil => fun _ _ => rfl
  | .cons ty b s r => fun h1 k0 => by
    simp only [Handlers.find] at h1
    by_cases he : isinst e ty = true
    · rw [if_pos he] at h1; cases h1
    · rw [if_neg he] at h1
      simp only [Handlers.heads, firstH]
      rw [if_neg he]
      exact handler_none h1 _

theorem handler_labels {i : Nat} {f : Bool} {fs : List (Frame Ty)} : ∀ {hs : Handlers σ Val Exc Ty} (k0 k : Nat), k < hs.heads.length →
    .handler i (k0 + k) ∈ labels (handlersCode isinst i f fs k0 hs)
  | .nil => fun k0 k h => by simp [Handlers.heads] at h
  | .cons ty b s r => fun k0 k h => by
    simp only [handlersCode, handlerCode, labels_append, List.mem_append]
    cases k with
    | zero => simp [labels]
    | succ k =>
      have := handler_labels (i := i) (f := f) (fs := fs) (hs := r) (k0 + 1) k (by simpa [Handlers.heads] using h)
      have e : k0 + (k + 1) = k0 + 1 + k := by omega
      rw [e]
      exact .inr this

end

/-! ### The invariant -/


/-- What is known at the destination. -/
structure Facts (d : Dest) (o : Outcome Val Exc) (b : σ) (m : M σ Val Exc) : Prop where
  user : m.user = b
  res : m.res = o.value
  merr : m.err none = if d = .endD then o.exitArg else none
  fin : ∀ i c, d = .fin i c → m.fin i = c
  excFin : ∀ e, o = .exc e → ∀ i c, d = .fin i c → m.err (some i) = some e
  excH : ∀ e, o = .exc e → ∀ i k, d = .handler i k true → m.err (some i) = some e

/-- Finally and error variables of other blocks do not change. -/
def Pres (S : List Nat) (ev : Option Nat) (d : Dest) (m m' : M σ Val Exc) : Prop :=
  ∀ j, j ∉ S → (∀ c, d ≠ .fin j c) → m'.fin j = m.fin j ∧ (ev ≠ some j → m'.err (some j) = m.err (some j))

def Concl (P : List (Instr σ Val Exc)) (S : List Nat) (ev : Option Nat) (k : List (Instr σ Val Exc))
    (st : Config σ Val Exc) (o : Outcome Val Exc) (b : σ) (m : M σ Val Exc) (d : Dest) (g : Bool) : Prop :=
  (o = .fail → Steps P st .failed) ∧
  (o ≠ .fail → g = true ∧ ∃ c m', Steps P st (.run c m') ∧ At P k d c ∧ Facts d o b m' ∧ Pres S ev d m m')

/-- A statement at a position in the program. -/
structure Wf (isinst : Exc → Ty → Bool) (P : List (Instr σ Val Exc)) (fs : List (Frame Ty)) (s : Stmt σ Val Exc Ty)
    (k : List (Instr σ Val Exc)) : Prop where
  okk : ok fs s = true
  nd : (fs.map Frame.id ++ s.ids).Nodup
  suf : code isinst fs s ++ k <:+ P
  blk : blocks isinst fs s <:+: P
  env : Env P fs

theorem Concl.mono {S S2 : List Nat} {ev ev2 : Option Nat} {k k2 : List (Instr σ Val Exc)} {st st2 : Config σ Val Exc}
    {o : Outcome Val Exc} {b : σ} {m m2 : M σ Val Exc} {d : Dest} {g g2 : Bool}
    (h : Concl P S2 ev2 k2 st2 o b m2 d g2) (hst : Steps P st st2) (hg : o ≠ .fail → g2 = true → g = true)
    (hk : d.lab = none → o ≠ .fail → ∀ m', m'.res = o.value → m'.err none = none →
      Steps P (.run k2 m') (.run k m'))
    (hp : ∀ j, j ∉ S → j ∉ S2 ∧ m2.fin j = m.fin j ∧ (ev ≠ some j → ev2 ≠ some j ∧ m2.err (some j) = m.err (some j))) :
    Concl P S ev k st o b m d g := by
  refine ⟨fun hf => hst.trans (h.1 hf), fun hf => ?_⟩
  obtain ⟨h1, c, m', h2, h3, h4, h5⟩ := h.2 hf
  have pres : Pres S ev d m m' := by
    intro j hj hd
    obtain ⟨a1, a2, a3⟩ := hp j hj
    obtain ⟨b1, b2⟩ := h5 j a1 hd
    refine ⟨b1.trans a2, fun hev => ?_⟩
    obtain ⟨c1, c2⟩ := a3 hev
    exact (b2 c1).trans c2
  cases hl : d.lab with
  | some l =>
    refine ⟨hg hf h1, c, m', hst.trans h2, ?_, h4, pres⟩
    simp only [At, hl] at h3 ⊢
    exact h3
  | none =>
    have hc : c = k2 := by simpa [At, hl] using h3
    subst hc
    have hd : d ≠ .endD := by intro h; rw [h] at hl; cases hl
    refine ⟨hg hf h1, k, m', (hst.trans h2).trans (hk hl hf m' h4.res (by rw [h4.merr, if_neg hd])), ?_, h4, pres⟩
    simp [At, hl]

theorem dest_lab (isinst : Exc → Ty → Bool) (fs : List (Frame Ty)) (o : Outcome Val Exc) (h : (dest isinst fs o).lab = none) :
    o = .normal ∨ o = .fail := by
  cases o with
  | normal => exact .inl rfl
  | fail => exact .inr rfl
  | ret v =>
    exfalso
    induction fs with
    | nil => cases h
    | cons f fs ih =>
      cases f with
      | body i f hs =>
        cases f
        · exact ih h
        · cases h
      | withB i => cases h
      | _ => exact ih h
  | brk =>
    exfalso
    induction fs with
    | nil => cases h
    | cons f fs ih =>
      cases f with
      | body i f hs =>
        cases f
        · exact ih h
        · cases h
      | loop i => cases h
      | _ => exact ih h
  | cont =>
    exfalso
    induction fs with
    | nil => cases h
    | cons f fs ih =>
      cases f with
      | body i f hs =>
        cases f
        · exact ih h
        · cases h
      | loop i => cases h
      | _ => exact ih h
  | exc e =>
    exfalso
    induction fs with
    | nil => cases h
    | cons f fs ih =>
      cases f with
      | body i f hs =>
        simp only [dest, destExc] at h
        cases hh : firstH isinst e 0 hs with
        | some p => rw [hh] at h; cases h
        | none =>
          rw [hh] at h
          cases f
          · exact ih h
          · cases h
      | withB i => cases h
      | _ => exact ih h

/-! ### Simple statements -/

theorem simple_run {isinst : Exc → Ty → Bool} (hP : (labels P).Nodup) {j : Job σ Val Exc Ty} {a b : σ} {o : Outcome Val Exc}
    (h : Exec isinst j a o b) : ∀ s, j = .stmt s → s.simple = true → ∀ fs k m, code isinst fs s ++ k <:+ P → m.user = a →
    (o = .normal ∧ Steps P (.run (code isinst fs s ++ k) m) (.run k { m with user := b })) ∨
    (o = .fail ∧ Steps P (.run (code isinst fs s ++ k) m) .failed) := by
  induction h with
  | act f a b h1 =>
    intro s hs hsim fs k m hsuf hu
    cases hs; subst hu
    exact .inl ⟨rfl, st_op (by simp [h1])⟩
  | actFail f a h1 =>
    intro s hs hsim fs k m hsuf hu
    cases hs; subst hu
    exact .inr ⟨rfl, st_fail (by simp [h1])⟩
  | seq s t a b c o _ _ ih1 ih2 =>
    intro s' hs hsim fs k m hsuf hu
    cases hs
    simp only [Stmt.simple, Bool.and_eq_true] at hsim
    simp only [code, List.append_assoc] at hsuf ⊢
    rcases ih1 s rfl hsim.1 fs _ m hsuf hu with ⟨_, h1⟩ | ⟨h1, _⟩
    · rcases ih2 t rfl hsim.2 fs k { m with user := b } ((List.suffix_append _ _).trans hsuf) rfl with ⟨h3, h2⟩ | ⟨h3, h2⟩
      · exact .inl ⟨h3, h1.trans h2⟩
      · exact .inr ⟨h3, h1.trans h2⟩
    · cases h1
  | seqStop s t a b o _ hne ih =>
    intro s' hs hsim fs k m hsuf hu
    cases hs
    simp only [Stmt.simple, Bool.and_eq_true] at hsim
    simp only [code, List.append_assoc] at hsuf ⊢
    rcases ih s rfl hsim.1 fs _ m hsuf hu with ⟨h1, _⟩ | h
    · exact absurd h1 hne
    · exact .inr h
  | iteTrue i c s t a b o hc _ ih =>
    intro s' hs hsim fs k m hsuf hu
    cases hs; subst hu
    simp only [Stmt.simple, Bool.and_eq_true] at hsim
    simp only [code, List.append_assoc, List.cons_append, List.nil_append] at hsuf ⊢
    have s1 := (List.suffix_cons _ _).trans hsuf
    have s2 := (List.suffix_append _ _).trans s1
    have s3 : (.label (.endif i) :: k) <:+ P :=
      (List.suffix_append _ _).trans ((List.suffix_cons _ _).trans ((List.suffix_cons _ _).trans s2))
    rcases ih s rfl hsim.1 fs _ m s1 rfl with ⟨h1, h2⟩ | ⟨h1, h2⟩
    · refine .inl ⟨h1, (st_skip (by simp [hc])).trans (h2.trans ((st_goto (find_suffix hP s3)).trans st_label))⟩
    · exact .inr ⟨h1, (st_skip (by simp [hc])).trans h2⟩
  | iteFalse i c s t a b o hc _ ih =>
    intro s' hs hsim fs k m hsuf hu
    cases hs; subst hu
    simp only [Stmt.simple, Bool.and_eq_true] at hsim
    simp only [code, List.append_assoc, List.cons_append, List.nil_append] at hsuf ⊢
    have s1 := (List.suffix_cons _ _).trans hsuf
    have s2 := (List.suffix_cons _ _).trans ((List.suffix_append _ _).trans s1)
    have s3 := (List.suffix_cons _ _).trans s2
    rcases ih t rfl hsim.2 fs _ m s3 rfl with ⟨h1, h2⟩ | ⟨h1, h2⟩
    · refine .inl ⟨h1, (st_take (u := id) (by simp [hc]) (find_suffix hP s2)).trans (st_label.trans (h2.trans st_label))⟩
    · exact .inr ⟨h1, (st_take (u := id) (by simp [hc]) (find_suffix hP s2)).trans (st_label.trans h2)⟩
  | _ => intro s' hs hsim; cases hs <;> cases hsim

end Nagini.Cfg
