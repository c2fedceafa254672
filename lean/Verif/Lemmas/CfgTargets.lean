import Verif.Lemmas.CfgSim

/-! Every jump of a generated program has a target. -/
namespace Nagini.Cfg

set_option linter.unusedVariables false
set_option linter.unusedSimpArgs false

variable {σ Val Exc Ty : Type} {P : List (Instr σ Val Exc)}

def targets : List (Instr σ Val Exc) → List Label
  | [] => []
  | .jump _ _ l :: k => l :: targets k
  | .goto l :: k => l :: targets k
  | _ :: k => targets k

theorem targets_append (a b : List (Instr σ Val Exc)) : targets (a ++ b) = targets a ++ targets b := by
  induction a with
  | nil => rfl
  | cons x a ih => cases x <;> simp [targets, ih]

/-- Labels that a position provides. -/
def FL : Frame Ty → Label → Prop
  | .loop i, l => l = .loopEnd i ∨ l = .loopPost i
  | .loopElse i, l => l = .loopEnd i ∨ l = .loopPost i
  | .body i f hs, l => (∃ k, k < hs.length ∧ l = .handler i k) ∨ (f = true ∧ l = .finL i)
  | .withB i, l => l = .finL i
  | _, _ => False

def Avail : List (Frame Ty) → Label → Prop
  | [], l => l = .endL
  | f :: fs, l => FL f l ∨ Avail fs l

theorem avail_end (fs : List (Frame Ty)) : Avail fs .endL := by
  induction fs with
  | nil => rfl
  | cons f fs ih => exact .inr ih

theorem avail_block (fs : List (Frame Ty)) : ∀ b ∈ surrounding fs, ((b.fin || b.isWith) = true → Avail fs (.finL b.i)) ∧
    ∀ k, k < b.hs.length → Avail fs (.handler b.i k) := by
  induction fs with
  | nil => intro b hb; cases hb
  | cons f fs ih =>
    intro b hb
    cases f with
    | body i f hs =>
      rcases List.mem_cons.1 hb with rfl | hb
      · refine ⟨fun h => .inl (.inr ⟨by simpa using h, rfl⟩), fun k hk => .inl (.inl ⟨k, hk, rfl⟩)⟩
      · exact ⟨fun h => .inr ((ih b hb).1 h), fun k hk => .inr ((ih b hb).2 k hk)⟩
    | withB i =>
      rcases List.mem_cons.1 hb with rfl | hb
      · refine ⟨fun h => .inl rfl, fun k hk => by simp at hk⟩
      · exact ⟨fun h => .inr ((ih b hb).1 h), fun k hk => .inr ((ih b hb).2 k hk)⟩
    | _ => exact ⟨fun h => .inr ((ih b hb).1 h), fun k hk => .inr ((ih b hb).2 k hk)⟩

theorem avail_loop (fs : List (Frame Ty)) : ∀ j, parentLoop fs = some j → Avail fs (.loopEnd j) ∧ Avail fs (.loopPost j) := by
  induction fs with
  | nil => intro j h; cases h
  | cons f fs ih =>
    intro j h
    cases f with
    | loop i => cases h; exact ⟨.inl (.inl rfl), .inl (.inr rfl)⟩
    | loopElse i => cases h; exact ⟨.inl (.inl rfl), .inl (.inr rfl)⟩
    | _ => exact ⟨.inr (ih j h).1, .inr (ih j h).2⟩

theorem tested_mem : ∀ (bs : List (Block Ty)) h, h ∈ tested bs → ∃ b ∈ bs, h.1 = b.i ∧ h.2.1 < b.hs.length := by
  intro bs
  induction bs with
  | nil => intro h hh; cases hh
  | cons b bs ih =>
    intro h hh
    simp only [tested, List.mem_append, List.mem_map] at hh
    rcases hh with ⟨x, hx, rfl⟩ | hh
    · obtain ⟨_, h2, _⟩ := List.mem_zipIdx hx
      exact ⟨b, by simp, rfl, by simpa using h2⟩
    · cases hf : b.fin with
      | true => simp [hf] at hh
      | false =>
        simp only [hf] at hh
        obtain ⟨b', h1, h2⟩ := ih h hh
        exact ⟨b', by simp [h1], h2⟩

theorem targets_tested (c : M σ Val Exc → Ty → Bool) (fs : List (Frame Ty)) (l : Label)
    (h : l ∈ targets ((tested (surrounding fs)).map fun h => (.jump (fun m => c m h.2.2) id (.handler h.1 h.2.1) : Instr σ Val Exc))) : Avail fs l := by
  have : ∀ ts : List (Nat × Nat × Ty), l ∈ targets (ts.map fun h => (.jump (fun m => c m h.2.2) id (.handler h.1 h.2.1) : Instr σ Val Exc)) →
      ∃ h ∈ ts, l = .handler h.1 h.2.1 := by
    intro ts
    induction ts with
    | nil => intro h; cases h
    | cons t ts ih =>
      intro h
      rcases List.mem_cons.1 h with rfl | h
      · exact ⟨t, by simp, rfl⟩
      · obtain ⟨x, h1, h2⟩ := ih h
        exact ⟨x, by simp [h1], h2⟩
  obtain ⟨x, h1, rfl⟩ := this _ h
  obtain ⟨b, h2, h3, h4⟩ := tested_mem _ x h1
  rw [h3]
  exact (avail_block fs b h2).2 _ h4

theorem ff_avail (fs : List (Frame Ty)) (b) (h : firstFinally (surrounding fs) = some b) : Avail fs (.finL b.i) :=
  (avail_block fs b (List.mem_of_find?_eq_some h)).1 (List.find?_some (p := fun b : Block Ty => b.fin || b.isWith) h)

theorem ft_avail (fs : List (Frame Ty)) (b) (h : firstTryFinally (surrounding fs) = some b) : Avail fs (.finL b.i) :=
  (avail_block fs b (List.mem_of_find?_eq_some h)).1 (by have : b.fin = true := List.find?_some (p := fun b : Block Ty => b.fin) h; simp [this])

theorem targets_catchers (isinst : Exc → Ty → Bool) (fs : List (Frame Ty)) (l) (h : l ∈ targets (catchers isinst fs : List (Instr σ Val Exc))) : Avail fs l := by
  unfold catchers at h
  simp only [targets_append, List.mem_append] at h
  rcases h with h | h
  · exact targets_tested (fun m ty => (m.err (errorVar fs)).isSome && hasType isinst (m.err (errorVar fs)) ty) fs l h
  · cases hf : firstFinally (surrounding fs) with
    | some b =>
      rw [hf] at h
      simp [targets] at h
      subst h
      exact ff_avail fs b hf
    | none =>
      rw [hf] at h
      simp [targets] at h
      subst h
      exact avail_end fs

theorem targets_returnJump (fs : List (Frame Ty)) (l) (h : l ∈ targets (returnJump fs : List (Instr σ Val Exc))) : Avail fs l := by
  unfold returnJump at h
  cases hf : firstFinally (surrounding fs) with
  | some b =>
    rw [hf] at h
    simp [targets] at h
    subst h
    exact ff_avail fs b hf
  | none =>
    rw [hf] at h
    simp [targets] at h
    subst h
    exact avail_end fs

theorem targets_loopJump (c L) (hL : ∀ j, L j = .loopEnd j ∨ L j = .loopPost j) (fs : List (Frame Ty)) (l)
    (h : l ∈ targets (loopJump c L fs : List (Instr σ Val Exc))) : Avail fs l := by
  unfold loopJump at h
  cases hp : parentLoop fs with
  | none => rw [hp] at h; cases h
  | some j =>
    rw [hp] at h
    cases hf : firstFinally (surrounding fs) with
    | some b =>
      simp only [hf] at h
      simp [targets] at h
      subst h
      exact ff_avail fs b hf
    | none =>
      simp only [hf] at h
      simp [targets] at h
      subst h
      rcases hL j with h | h <;> rw [h]
      · exact (avail_loop fs j hp).1
      · exact (avail_loop fs j hp).2

theorem targets_loopDispatch (i c L) (hL : ∀ j, L j = .loopEnd j ∨ L j = .loopPost j) (fs : List (Frame Ty)) (l)
    (h : l ∈ targets (loopDispatch i c L fs : List (Instr σ Val Exc))) : Avail fs l := by
  unfold loopDispatch at h
  cases hp : parentLoop fs with
  | none => rw [hp] at h; cases h
  | some j =>
    rw [hp] at h
    cases hf : firstTryFinally ((surrounding fs).filter fun b => b.loop == some j) with
    | some b =>
      simp only [hf] at h
      simp [targets] at h
      subst h
      have hm := List.mem_of_find?_eq_some hf
      have hb : b.fin = true := List.find?_some (p := fun b : Block Ty => b.fin) hf
      exact (avail_block fs b (List.mem_filter.1 hm).1).1 (by simp [hb])
    | none =>
      simp only [hf] at h
      simp [targets] at h
      subst h
      rcases hL j with h | h <;> rw [h]
      · exact (avail_loop fs j hp).1
      · exact (avail_loop fs j hp).2

theorem targets_dispatch (isinst : Exc → Ty → Bool) (i) (fs : List (Frame Ty)) (l) (h : l ∈ targets (dispatch isinst i fs : List (Instr σ Val Exc))) :
    Avail fs l ∨ l = .post i := by
  unfold dispatch at h
  simp only [targets_append, List.mem_append] at h
  rcases h with ((h | h) | h) | h
  · exact .inl (targets_loopDispatch _ _ _ (fun _ => .inl rfl) fs l h)
  · exact .inl (targets_loopDispatch _ _ _ (fun _ => .inr rfl) fs l h)
  · exact .inl (targets_tested (fun m ty => m.fin i == 2 && hasType isinst (m.err (some i)) ty) fs l h)
  · cases hf : firstTryFinally (surrounding fs) with
    | some b =>
      rw [hf] at h
      simp [targets] at h
      rcases h with rfl | rfl
      · exact .inl (ft_avail fs b hf)
      · exact .inr rfl
    | none =>
      rw [hf] at h
      simp [targets] at h
      rcases h with rfl | rfl
      · exact .inl (avail_end fs)
      · exact .inr rfl

theorem targets_handlerEnd (i f) (l) (h : l ∈ targets (handlerEnd i f : List (Instr σ Val Exc))) :
    l = .post i ∨ (f = true ∧ l = .finL i) := by
  cases f <;> simp [handlerEnd, targets] at h <;> simp [h]

mutual

theorem targets_stmt (isinst : Exc → Ty → Bool) (s : Stmt σ Val Exc Ty) : ∀ fs l, l ∈ targets (code isinst fs s) ∨ l ∈ targets (blocks isinst fs s) →
    l ∈ labels (code isinst fs s) ∨ l ∈ labels (blocks isinst fs s) ∨ Avail fs l :=
  match s with
  | .act f => fun fs l h => by simp [code, blocks, targets] at h
  | .call f => fun fs l h => by
    simp [code, blocks, targets] at h
    exact .inr (.inr (targets_catchers isinst fs l h))
  | .ret none => fun fs l h => by
    simp [code, blocks, targets] at h
    exact .inr (.inr (targets_returnJump fs l h))
  | .ret (some v) => fun fs l h => by
    simp [code, blocks, targets] at h
    exact .inr (.inr (targets_returnJump fs l h))
  | .brk => fun fs l h => by
    simp [code, blocks, targets] at h
    exact .inr (.inr (targets_loopJump _ _ (fun _ => .inr rfl) fs l h))
  | .cont => fun fs l h => by
    simp [code, blocks, targets] at h
    exact .inr (.inr (targets_loopJump _ _ (fun _ => .inl rfl) fs l h))
  | .seq s t => fun fs l h => by
    have h1 := targets_stmt isinst s fs l
    have h2 := targets_stmt isinst t fs l
    simp only [code, blocks, targets_append, labels_append, List.mem_append] at h ⊢
    grind
  | .ite i c s t => fun fs l h => by
    have h1 := targets_stmt isinst s fs l
    have h2 := targets_stmt isinst t fs l
    simp only [code, blocks, targets_append, labels_append, List.mem_append, targets, labels, List.mem_cons, List.not_mem_nil] at h ⊢
    grind
  | .loop i c s t => fun fs l h => by
    have h1 := targets_stmt isinst s (.loop i :: fs) l
    have h2 := targets_stmt isinst t (.loopElse i :: fs) l
    simp only [code, blocks, targets_append, labels_append, List.mem_append, targets, labels, List.mem_cons, List.not_mem_nil] at h ⊢
    simp only [Avail, FL] at h1 h2
    grind
  | .withS i en s ex => fun fs l h => by
    have h1 := targets_stmt isinst s (.withB i :: fs) l
    have h2 := targets_dispatch (σ := σ) (Val := Val) isinst i fs l
    simp only [code, blocks, exitCode, targets_append, labels_append, List.mem_append, targets, labels, List.mem_cons, List.not_mem_nil] at h ⊢
    simp only [Avail, FL] at h1
    grind
  | .tryS i s hs u t f F => fun fs l h => by
    have h1 := targets_stmt isinst s (.body i f hs.heads :: fs) l
    have h2 := targets_handlers isinst hs i f fs 0 l
    have h3 := targets_stmt isinst t (.other i f :: fs) l
    have h4 := targets_stmt isinst F (.final i :: fs) l
    have h5 := targets_dispatch (σ := σ) (Val := Val) isinst i fs l
    have h6 := targets_handlerEnd (σ := σ) (Val := Val) (Exc := Exc) i f l
    have h7 := handler_labels (isinst := isinst) (i := i) (f := f) (fs := fs) (hs := hs) 0
    simp only [Nat.zero_add] at h7
    simp only [Avail, FL, false_or] at h1 h3 h4
    cases u <;> cases f <;>
    · simp only [code, blocks, finallyCode, targets_append, labels_append, List.mem_append, targets, labels, List.mem_cons, List.not_mem_nil,
        if_true, if_false, Bool.false_eq_true] at h ⊢
      grind

theorem targets_handlers (isinst : Exc → Ty → Bool) (hs : Handlers σ Val Exc Ty) : ∀ i f fs k l,
    l ∈ targets (handlersCode isinst i f fs k hs) ∨ l ∈ targets (handlerBlocks isinst i f fs hs) →
    l ∈ labels (handlersCode isinst i f fs k hs) ∨ l ∈ labels (handlerBlocks isinst i f fs hs) ∨ Avail fs l ∨ l = .post i ∨ (f = true ∧ l = .finL i) :=
  match hs with
  | .nil => fun i f fs k l h => by simp [handlersCode, handlerBlocks, targets] at h
  | .cons ty b s r => fun i f fs k l h => by
    have h1 := targets_stmt isinst s (.other i f :: fs) l
    have h2 := targets_handlers isinst r i f fs (k + 1) l
    have h6 := targets_handlerEnd (σ := σ) (Val := Val) (Exc := Exc) i f l
    simp only [handlersCode, handlerBlocks, handlerCode, targets_append, labels_append, List.mem_append, targets, labels, List.mem_cons, List.not_mem_nil] at h ⊢
    simp only [Avail, FL, false_or] at h1
    grind

end

theorem targets_program (isinst : Exc → Ty → Bool) (s : Stmt σ Val Exc Ty) (l) (h : l ∈ targets (program isinst s)) : l ∈ labels (program isinst s) := by
  have h1 := targets_stmt isinst s [] l
  simp only [program, targets_append, labels_append, List.mem_append, targets, labels, List.mem_cons, List.not_mem_nil, Avail] at h h1 ⊢
  grind

theorem find_suf : ∀ {k : List (Instr σ Val Exc)} {l c}, find l k = some c → c <:+ k
  | [], l, c, h => by cases h
  | .label l' :: k, l, c, h => by
    simp only [find] at h
    split at h
    · cases h; exact List.suffix_refl _
    · exact (find_suf h).trans (List.suffix_cons _ _)
  | .op f :: k, l, c, h => (find_suf (k := k) h).trans (List.suffix_cons _ _)
  | .goto f :: k, l, c, h => (find_suf (k := k) h).trans (List.suffix_cons _ _)
  | .jump f u g :: k, l, c, h => (find_suf (k := k) h).trans (List.suffix_cons _ _)

theorem suffix_target {k : List (Instr σ Val Exc)} (h : k <:+ P) {l} (hl : l ∈ targets k) : l ∈ targets P := by
  obtain ⟨a, rfl⟩ := h
  rw [targets_append]
  exact List.mem_append_right _ hl

/-- Executions do not get stuck at a jump. -/
theorem progress (ht : ∀ l ∈ targets P, l ∈ labels P) {c c' : Config σ Val Exc} (h : Steps P c c') :
    (∀ k m, c = .run k m → k <:+ P) → step P c' = none → c' = .failed ∨ ∃ m, c' = .run [] m := by
  induction h with
  | refl c =>
    intro hs hn
    match c, hs, hn with
    | .failed, _, _ => exact .inl rfl
    | .run [] m, _, _ => exact .inr ⟨m, rfl⟩
    | .run (.op f :: k) m, _, hn =>
      simp only [step] at hn
      split at hn <;> cases hn
    | .run (.label l :: k) m, _, hn => cases hn
    | .run (.goto l :: k) m, hs, hn =>
      have := find_isSome (ht l (suffix_target (hs _ m rfl) (by simp [targets])))
      simp only [step, Option.map_eq_none_iff] at hn
      rw [hn] at this; cases this
    | .run (.jump c u l :: k) m, hs, hn =>
      have := find_isSome (ht l (suffix_target (hs _ m rfl) (by simp [targets])))
      simp only [step] at hn
      split at hn
      · simp only [Option.map_eq_none_iff] at hn
        rw [hn] at this; cases this
      · cases hn
  | next a b c h1 _ ih =>
    intro hs hn
    refine ih ?_ hn
    intro k m hb
    subst hb
    match a, hs, h1 with
    | .run (.op f :: k') m', hs, h1 =>
      simp only [step] at h1
      split at h1
      · cases h1; exact (List.suffix_cons _ _).trans (hs _ m' rfl)
      · cases h1
    | .run (.label l :: k') m', hs, h1 => cases h1; exact (List.suffix_cons _ _).trans (hs _ m rfl)
    | .run (.goto l :: k') m', hs, h1 =>
      simp only [step, Option.map_eq_some_iff] at h1
      obtain ⟨c, h2, h3⟩ := h1
      cases h3
      exact find_suf h2
    | .run (.jump c u l :: k') m', hs, h1 =>
      simp only [step] at h1
      split at h1
      · simp only [Option.map_eq_some_iff] at h1
        obtain ⟨c, h2, h3⟩ := h1
        cases h3
        exact find_suf h2
      · cases h1; exact (List.suffix_cons _ _).trans (hs _ m rfl)

end Nagini.Cfg
