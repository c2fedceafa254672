import Verif.Spec.CfgGuard

/-! Lemmas on labels and steps of the generated control flow graph. -/
namespace Nagini.Cfg

set_option linter.unusedVariables false
set_option linter.unusedSimpArgs false

variable {σ Val Exc Ty : Type} {P : List (Instr σ Val Exc)}

theorem Steps.trans {a b c : Config σ Val Exc} (h : Steps P a b) (h' : Steps P b c) : Steps P a c := by
  induction h with
  | refl => exact h'
  | next a b c h1 _ ih => exact .next _ _ _ h1 (ih h')

theorem Steps.one {a b : Config σ Val Exc} (h : step P a = some b) : Steps P a b := .next _ _ _ h (.refl _)

theorem Steps.det {a b c : Config σ Val Exc} (h : Steps P a b) (h' : Steps P a c) (hb : step P b = none) (hc : step P c = none) :
    b = c := by
  induction h with
  | refl =>
    cases h' with
    | refl => rfl
    | next _ _ _ h1 _ => rw [hb] at h1; cases h1
  | next a x b h1 _ ih =>
    cases h' with
    | refl => rw [hc] at h1; cases h1
    | next _ _ _ h2 h3 =>
      rw [h1] at h2
      cases h2
      exact ih h3 hb

/-- Labels defined in code. -/
def labels : List (Instr σ Val Exc) → List Label
  | [] => []
  | .label l :: r => l :: labels r
  | _ :: r => labels r

theorem labels_append (a b : List (Instr σ Val Exc)) : labels (a ++ b) = labels a ++ labels b := by
  induction a with
  | nil => rfl
  | cons x a ih => cases x <;> simp [labels, ih]

theorem find_append (l : Label) (a b : List (Instr σ Val Exc)) (h : l ∉ labels a) : find l (a ++ b) = find l b := by
  induction a with
  | nil => rfl
  | cons x a ih =>
    cases x with
    | label l' =>
      simp only [labels, List.mem_cons, not_or] at h
      simp only [List.cons_append, find, ih h.2]
      rw [if_neg (fun h' => h.1 h'.symm)]
    | _ => simp only [labels] at h; simp only [List.cons_append, find, ih h]

theorem find_suffix (hP : (labels P).Nodup) {l : Label} {r : List (Instr σ Val Exc)} (h : (.label l :: r) <:+ P) :
    find l P = some (.label l :: r) := by
  obtain ⟨a, rfl⟩ := h
  rw [labels_append, List.nodup_append] at hP
  rw [find_append]
  · simp [find]
  · intro hl
    exact hP.2.2 l hl l (by simp [labels]) rfl

theorem find_infix (hP : (labels P).Nodup) {l : Label} {r : List (Instr σ Val Exc)} (h : (.label l :: r) <:+: P) :
    ∃ B, find l P = some (.label l :: (r ++ B)) ∧ (.label l :: (r ++ B)) <:+ P := by
  obtain ⟨a, b, h⟩ := h
  have : (.label l :: (r ++ b)) <:+ P := ⟨a, by rw [← h]; simp⟩
  exact ⟨b, find_suffix hP this, this⟩

def Label.id : Label → Nat
  | .endL => 0
  | .post i => i
  | .handler i _ => i
  | .elseL i => i
  | .finL i => i
  | .loopPost i => i
  | .loopEnd i => i
  | .head i => i
  | .loopElse i => i
  | .els i => i
  | .endif i => i

section
variable (isinst : Exc → Ty → Bool)

theorem labels_tested (g : Nat × Nat × Ty → Instr σ Val Exc) (hg : ∀ h, labels [g h] = []) (ts : List (Nat × Nat × Ty)) :
    labels (ts.map g) = [] := by
  induction ts with
  | nil => rfl
  | cons t ts ih =>
    rw [List.map_cons, ← List.singleton_append, labels_append, hg, ih]; rfl

theorem labels_catchers (fs : List (Frame Ty)) : labels (catchers isinst fs : List (Instr σ Val Exc)) = [] := by
  unfold catchers
  simp only [labels_append]
  rw [labels_tested _ (fun _ => rfl)]
  cases firstFinally (surrounding fs) <;> rfl

theorem labels_returnJump (fs : List (Frame Ty)) : labels (returnJump fs : List (Instr σ Val Exc)) = [] := by
  unfold returnJump
  cases firstFinally (surrounding fs) <;> rfl

theorem labels_loopJump (c l) (fs : List (Frame Ty)) : labels (loopJump c l fs : List (Instr σ Val Exc)) = [] := by
  unfold loopJump
  cases parentLoop fs <;> cases firstFinally (surrounding fs) <;> rfl

theorem labels_loopDispatch (i c l) (fs : List (Frame Ty)) : labels (loopDispatch i c l fs : List (Instr σ Val Exc)) = [] := by
  unfold loopDispatch
  cases parentLoop fs with
  | none => rfl
  | some j => simp only; cases firstTryFinally _ <;> rfl

theorem labels_dispatch (i) (fs : List (Frame Ty)) : labels (dispatch isinst i fs : List (Instr σ Val Exc)) = [] := by
  unfold dispatch
  simp only [labels_append, labels_loopDispatch]
  rw [labels_tested _ (fun _ => rfl)]
  cases firstTryFinally (surrounding fs) <;> rfl

theorem labels_handlerEnd (i f) : labels (handlerEnd i f : List (Instr σ Val Exc)) = [] := by
  unfold handlerEnd
  cases f <;> rfl

abbrev cnt (l : Label) (c : List (Instr σ Val Exc)) : Nat := (labels c).count l

theorem cnt_append (l : Label) (a b : List (Instr σ Val Exc)) : cnt l (a ++ b) = cnt l a + cnt l b := by
  simp [cnt, labels_append]

end

/-- Number of times `l` is the label of an except clause of block i from number k on. -/
def ownH (l : Label) (i k : Nat) : Nat :=
  match l with
  | .handler j k' => if j = i ∧ k ≤ k' then 1 else 0
  | _ => 0

theorem ownH_le (l : Label) (i k : Nat) :
    (if Label.handler i k = l then 1 else 0) + ownH l i (k + 1) ≤ ownH l i k := by
  cases l <;> simp [ownH]
  grind

mutual

theorem cnt_stmt (isinst : Exc → Ty → Bool) (l : Label) (hl : l ≠ .endL) (s : Stmt σ Val Exc Ty) : ∀ fs,
    cnt l (code isinst fs s) + cnt l (blocks isinst fs s) ≤ s.ids.count l.id :=
  match s with
  | .act f => fun fs => by simp [code, blocks, cnt, labels]
  | .call f => fun fs => by simp [code, blocks, cnt, labels, labels_catchers]
  | .ret none => fun fs => by simp [code, blocks, cnt, labels, labels_returnJump]
  | .ret (some v) => fun fs => by simp [code, blocks, cnt, labels, labels_returnJump]
  | .brk => fun fs => by simp [code, blocks, cnt, labels, labels_loopJump]
  | .cont => fun fs => by simp [code, blocks, cnt, labels, labels_loopJump]
  | .seq s t => fun fs => by
    have h1 := cnt_stmt isinst l hl s fs
    have h2 := cnt_stmt isinst l hl t fs
    simp only [code, blocks, cnt_append, Stmt.ids, List.count_append]
    omega
  | .ite i c s t => fun fs => by
    have h1 := cnt_stmt isinst l hl s fs
    have h2 := cnt_stmt isinst l hl t fs
    simp only [code, blocks, cnt_append, Stmt.ids, List.count_append, List.count_cons]
    have : cnt l ([.jump (fun m => !c m.user) id (.els i)] : List (Instr σ Val Exc)) = 0 := rfl
    have h3 : cnt l ([.goto (.endif i), .label (.els i)] : List (Instr σ Val Exc)) + cnt l ([.label (.endif i)] : List (Instr σ Val Exc))
        ≤ if (i == l.id) = true then 1 else 0 := by
      simp only [cnt, labels, List.count_cons, List.count_nil]
      cases l <;> simp [Label.id]
    omega
  | .loop i c s t => fun fs => by
    have h1 := cnt_stmt isinst l hl s (.loop i :: fs)
    have h2 := cnt_stmt isinst l hl t (.loopElse i :: fs)
    simp only [code, blocks, cnt_append, Stmt.ids, List.count_append, List.count_cons]
    have h3 : cnt l ([.label (.head i), .jump (fun m => !c m.user) id (.loopElse i)] : List (Instr σ Val Exc)) +
        cnt l ([.label (.loopEnd i), .goto (.head i), .label (.loopElse i)] : List (Instr σ Val Exc)) +
        cnt l ([.label (.loopPost i), .op fun m => some m.resetResult] : List (Instr σ Val Exc))
        ≤ if (i == l.id) = true then 1 else 0 := by
      simp only [cnt, labels, List.count_cons, List.count_nil]
      cases l <;> simp [Label.id]
    omega
  | .withS i en s ex => fun fs => by
    have h1 := cnt_stmt isinst l hl s (.withB i :: fs)
    simp only [code, blocks, exitCode, cnt_append, Stmt.ids, List.count_append, List.count_cons]
    have h4 : cnt l (dispatch isinst i fs : List (Instr σ Val Exc)) = 0 := by simp [cnt, labels_dispatch]
    have h3 : cnt l ([.op fun m => some { m with user := en m.user }, .op fun m => some (m.setFin i 0)] : List (Instr σ Val Exc)) +
        cnt l ([.goto (.finL i), .label (.post i)] : List (Instr σ Val Exc)) +
        cnt l ([.label (.finL i), .op fun m => some { m with user := ex (if m.fin i > 1 then m.err (some i) else none) m.user }] : List (Instr σ Val Exc))
        ≤ if (i == l.id) = true then 1 else 0 := by
      simp only [cnt, labels, List.count_cons, List.count_nil]
      cases l <;> simp [Label.id]
    omega
  | .tryS i s hs u t f F => fun fs => by
    have h1 := cnt_stmt isinst l hl s (.body i f hs.heads :: fs)
    have h2 := cnt_handlers isinst l hl hs i f fs 0
    have h3 := cnt_stmt isinst l hl t (.other i f :: fs)
    have h4 := cnt_stmt isinst l hl F (.final i :: fs)
    have h5 : cnt l (dispatch isinst i fs : List (Instr σ Val Exc)) = 0 := by simp [cnt, labels_dispatch]
    have h6 : cnt l (handlerEnd i f : List (Instr σ Val Exc)) = 0 := by simp [cnt, labels_handlerEnd]
    have h7 : cnt l (if u then [.label (.elseL i)] ++ code isinst (.other i f :: fs) t ++ handlerEnd i f else []) +
        cnt l (if u then blocks isinst (.other i f :: fs) t else []) ≤ (if Label.elseL i = l then 1 else 0) + t.ids.count l.id := by
      cases u
      · simp [cnt, labels]
      · simp only [if_true, cnt_append]
        have : cnt l ([.label (.elseL i)] : List (Instr σ Val Exc)) = if Label.elseL i = l then 1 else 0 := by
          simp [cnt, labels, List.count_cons]
        omega
    have h8 : cnt l (if f then finallyCode isinst i fs F else []) +
        cnt l (if f then blocks isinst (.final i :: fs) F else []) ≤ (if Label.finL i = l then 1 else 0) + F.ids.count l.id := by
      cases f
      · simp [cnt, labels]
      · simp only [if_true, finallyCode, cnt_append]
        have : cnt l ([.label (.finL i)] : List (Instr σ Val Exc)) = if Label.finL i = l then 1 else 0 := by
          simp [cnt, labels, List.count_cons]
        omega
    simp only [code, blocks, cnt_append, Stmt.ids, List.count_append, List.count_cons]
    have h9 : cnt l ([.op fun m => some (m.setFin i 0)] : List (Instr σ Val Exc)) = 0 := rfl
    have h10 : cnt l (if u then [.goto (.elseL i)] else if f then [.goto (.finL i)] else [] : List (Instr σ Val Exc)) = 0 := by
      cases u <;> cases f <;> rfl
    have h11 : cnt l ([.label (.post i)] : List (Instr σ Val Exc)) = if Label.post i = l then 1 else 0 := by
      simp [cnt, labels, List.count_cons]
    have h12 : (if Label.post i = l then 1 else 0) + (if Label.elseL i = l then 1 else 0) + (if Label.finL i = l then 1 else 0) +
        ownH l i 0 ≤ if (i == l.id) = true then 1 else 0 := by
      cases l <;> simp [Label.id, ownH]
      grind
    omega

theorem cnt_handlers (isinst : Exc → Ty → Bool) (l : Label) (hl : l ≠ .endL) (hs : Handlers σ Val Exc Ty) : ∀ i f fs k,
    cnt l (handlersCode isinst i f fs k hs) + cnt l (handlerBlocks isinst i f fs hs) ≤ ownH l i k + hs.ids.count l.id :=
  match hs with
  | .nil => fun i f fs k => by simp [handlersCode, handlerBlocks, cnt, labels]
  | .cons ty b s r => fun i f fs k => by
    have h1 := cnt_stmt isinst l hl s (.other i f :: fs)
    have h2 := cnt_handlers isinst l hl r i f fs (k + 1)
    have h6 : cnt l (handlerEnd i f : List (Instr σ Val Exc)) = 0 := by simp [cnt, labels_handlerEnd]
    simp only [handlersCode, handlerBlocks, handlerCode, cnt_append, Handlers.ids, List.count_append]
    have h3 := ownH_le l i k
    have h4 : cnt l ([.label (.handler i k), .op fun m => some (bindOp i b m)] : List (Instr σ Val Exc))
        = if Label.handler i k = l then 1 else 0 := by
      simp [cnt, labels, List.count_cons]
    omega

end

mutual

theorem cnt_end (isinst : Exc → Ty → Bool) (s : Stmt σ Val Exc Ty) : ∀ fs, cnt .endL (code isinst fs s) + cnt .endL (blocks isinst fs s) = 0 :=
  match s with
  | .act f => fun fs => by simp [code, blocks, cnt, labels]
  | .call f => fun fs => by simp [code, blocks, cnt, labels, labels_catchers]
  | .ret none => fun fs => by simp [code, blocks, cnt, labels, labels_returnJump]
  | .ret (some v) => fun fs => by simp [code, blocks, cnt, labels, labels_returnJump]
  | .brk => fun fs => by simp [code, blocks, cnt, labels, labels_loopJump]
  | .cont => fun fs => by simp [code, blocks, cnt, labels, labels_loopJump]
  | .seq s t => fun fs => by
    have h1 := cnt_end isinst s fs
    have h2 := cnt_end isinst t fs
    simp only [code, blocks, cnt_append]
    omega
  | .ite i c s t => fun fs => by
    have h1 := cnt_end isinst s fs
    have h2 := cnt_end isinst t fs
    simp only [code, blocks, cnt_append]
    simp only [cnt, labels, List.count_cons, List.count_nil] at h1 h2 ⊢
    simp
    omega
  | .loop i c s t => fun fs => by
    have h1 := cnt_end isinst s (.loop i :: fs)
    have h2 := cnt_end isinst t (.loopElse i :: fs)
    simp only [code, blocks, cnt_append]
    simp only [cnt, labels, List.count_cons, List.count_nil] at h1 h2 ⊢
    simp
    omega
  | .withS i en s ex => fun fs => by
    have h1 := cnt_end isinst s (.withB i :: fs)
    simp only [code, blocks, exitCode, cnt_append]
    simp only [cnt, labels, List.count_cons, List.count_nil, labels_dispatch] at h1 ⊢
    simp
    omega
  | .tryS i s hs u t f F => fun fs => by
    have h1 := cnt_end isinst s (.body i f hs.heads :: fs)
    have h2 := cnt_endH isinst hs i f fs 0
    have h3 := cnt_end isinst t (.other i f :: fs)
    have h4 := cnt_end isinst F (.final i :: fs)
    cases u <;> cases f <;>
    · simp only [code, blocks, finallyCode, handlerEnd, cnt_append, if_true, if_false, Bool.false_eq_true]
      simp only [cnt, labels, List.count_cons, List.count_nil, labels_dispatch] at h1 h2 h3 h4 ⊢
      simp
      omega

theorem cnt_endH (isinst : Exc → Ty → Bool) (hs : Handlers σ Val Exc Ty) : ∀ i f fs k,
    cnt .endL (handlersCode isinst i f fs k hs) + cnt .endL (handlerBlocks isinst i f fs hs) = 0 :=
  match hs with
  | .nil => fun i f fs k => by simp [handlersCode, handlerBlocks, cnt, labels]
  | .cons ty b s r => fun i f fs k => by
    have h1 := cnt_end isinst s (.other i f :: fs)
    have h2 := cnt_endH isinst r i f fs (k + 1)
    simp only [handlersCode, handlerBlocks, handlerCode, cnt_append]
    simp only [cnt, labels, List.count_cons, List.count_nil, labels_handlerEnd] at h1 h2 ⊢
    simp
    omega

end

/-- The labels of a program are distinct. -/
theorem labels_nodup (isinst : Exc → Ty → Bool) (s : Stmt σ Val Exc Ty) (h : s.ids.Nodup) : (labels (program isinst s)).Nodup := by
  rw [List.nodup_iff_count]
  intro l
  have e : cnt l (program isinst s) = (cnt l (code isinst [] s) + cnt l (blocks isinst [] s)) + if Label.endL = l then 1 else 0 := by
    simp only [program, cnt_append]
    have h1 : cnt l ([.goto .endL] : List (Instr σ Val Exc)) = 0 := rfl
    have h2 : cnt l ([.label .endL] : List (Instr σ Val Exc)) = if Label.endL = l then 1 else 0 := by
      simp [cnt, labels, List.count_cons]
    omega
  show cnt l _ ≤ 1
  rw [e]
  by_cases hl : l = .endL
  · subst hl
    rw [cnt_end]; simp
  · have := cnt_stmt isinst l hl s []
    have := List.nodup_iff_count.1 h l.id
    rw [if_neg (fun h => hl h.symm)]
    omega

end Nagini.Cfg
