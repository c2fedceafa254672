import Verif.Lemmas.CfgSim

/-! The simulation, by induction on Python's execution. -/
namespace Nagini.Cfg

set_option linter.unusedVariables false
set_option linter.unusedSimpArgs false

variable {σ Val Exc Ty : Type} {P : List (Instr σ Val Exc)} {isinst : Exc → Ty → Bool}

theorem nd_sub {A S T : List Nat} (h : (A ++ S).Nodup) (hs : T.Sublist S) : (A ++ T).Nodup :=
  h.sublist (List.Sublist.append (List.Sublist.refl A) hs)

theorem nd_cons {A S T : List Nat} {i : Nat} (h : (A ++ i :: S).Nodup) (hs : T.Sublist S) : (i :: A ++ T).Nodup := by
  have h2 : (A ++ i :: T).Nodup := nd_sub h (hs.cons_cons i)
  have : (A ++ i :: T).Perm (i :: A ++ T) := by simp
  exact this.nodup_iff.1 h2

theorem nd_notin {A S : List Nat} {i : Nat} (h : (A ++ i :: S).Nodup) : i ∉ A ∧ i ∉ S := by
  have := nd_cons h (List.Sublist.refl S)
  simp at this
  grind

def innerDest (isinst : Exc → Ty → Bool) (i : Nat) (f : Bool) (fs : List (Frame Ty)) (o : Outcome Val Exc) : Dest :=
  if f then .fin i (codeOf o) else dest isinst fs o

def innerGuard (f : Bool) (fs : List (Frame Ty)) (o : Outcome Val Exc) : Bool :=
  if f then after fs o else guardO fs o

def Sim (isinst : Exc → Ty → Bool) (P : List (Instr σ Val Exc)) (j : Job σ Val Exc Ty) (a : σ) (o : Outcome Val Exc) (b : σ) : Prop :=
  match j with
  | .stmt s => ∀ fs k m, Wf isinst P fs s k → m.user = a → m.res = none → m.err none = none →
      Concl P s.ids (errorVar fs) k (.run (code isinst fs s ++ k) m) o b m (dest isinst fs o) (guardO fs o)
  | .inner i s hs u t f F => ∀ fs k m, Wf isinst P fs (.tryS i s hs u t f F) k → m.user = a → m.res = none → m.err none = none →
      Concl P (Stmt.tryS i s hs u t f F).ids (errorVar fs) (.label (.post i) :: k)
        (.run (code isinst fs (.tryS i s hs u t f F) ++ k) m) o b m (innerDest isinst i f fs o) (innerGuard f fs o)

/-- The parts of a try statement. -/
structure TryParts (isinst : Exc → Ty → Bool) (P : List (Instr σ Val Exc)) (fs : List (Frame Ty)) (i : Nat) (s : Stmt σ Val Exc Ty) (hs : Handlers σ Val Exc Ty)
    (u : Bool) (t : Stmt σ Val Exc Ty) (f : Bool) (F : Stmt σ Val Exc Ty) (k : List (Instr σ Val Exc)) : Prop where
  body : Wf isinst P (.body i f hs.heads :: fs) s
    ((if u then [.goto (.elseL i)] else if f then [.goto (.finL i)] else []) ++ (.label (.post i) :: k))
  post : find (.post i) P = some (.label (.post i) :: k)
  orelse : u = true → ∃ B, find (.elseL i) P = some (.label (.elseL i) :: (code isinst (.other i f :: fs) t ++ (handlerEnd i f ++ B))) ∧
    Wf isinst P (.other i f :: fs) t (handlerEnd i f ++ B)
  handler : ∀ e g h, hs.find isinst e = some (g, h) → ∃ n B, firstH isinst e 0 hs.heads = some (n, g.isSome) ∧
    find (.handler i n) P = some (.label (.handler i n) :: .op (fun m => some (bindOp i g m)) ::
      (code isinst (.other i f :: fs) h ++ (handlerEnd i f ++ B))) ∧
    Wf isinst P (.other i f :: fs) h (handlerEnd i f ++ B)
  final : f = true → ∃ B, find (.finL i) P = some (.label (.finL i) :: (code isinst (.final i :: fs) F ++ (dispatch isinst i fs ++ B))) ∧
    Wf isinst P (.final i :: fs) F (dispatch isinst i fs ++ B) ∧
    (F.simple = true ∨ (Job.inner i s hs u t f F).hasRet = false)

theorem Wf.tryParts (hP : (labels P).Nodup) {fs : List (Frame Ty)} {i : Nat} {s : Stmt σ Val Exc Ty} {hs : Handlers σ Val Exc Ty}
    {u : Bool} {t : Stmt σ Val Exc Ty} {f : Bool} {F : Stmt σ Val Exc Ty} {k : List (Instr σ Val Exc)}
    (w : Wf isinst P fs (.tryS i s hs u t f F) k) : TryParts isinst P fs i s hs u t f F k := by
  obtain ⟨okk, nd, suf, blk, env⟩ := w
  simp only [ok, Bool.and_eq_true] at okk
  obtain ⟨⟨⟨ok1, ok2⟩, ok3⟩, ok4⟩ := okk
  simp only [Stmt.ids] at nd
  simp only [code, List.append_assoc, List.cons_append, List.nil_append] at suf
  simp only [blocks, List.append_assoc] at blk
  have suf1 := (List.suffix_cons _ _).trans suf
  have suf2 : (.label (.post i) :: k) <:+ P := (List.suffix_append _ _).trans ((List.suffix_append _ _).trans suf1)
  have b1 : handlersCode isinst i f fs 0 hs <:+: P := (List.prefix_append _ _).isInfix.trans blk
  have r1 := (List.suffix_append _ _).isInfix.trans blk
  have b2 := (List.prefix_append _ _).isInfix.trans r1
  have r2 := (List.suffix_append _ _).isInfix.trans r1
  have b3 := (List.prefix_append _ _).isInfix.trans r2
  have r3 := (List.suffix_append _ _).isInfix.trans r2
  have b4 := (List.prefix_append _ _).isInfix.trans r3
  have r4 := (List.suffix_append _ _).isInfix.trans r3
  have b5 := (List.prefix_append _ _).isInfix.trans r4
  have r5 := (List.suffix_append _ _).isInfix.trans r4
  have b6 := (List.prefix_append _ _).isInfix.trans r5
  have b7 := (List.suffix_append _ _).isInfix.trans r5
  clear r1 r2 r3 r4 r5 blk
  have fin : f = true → ∃ B, find (.finL i) P = some (.label (.finL i) :: (code isinst (.final i :: fs) F ++ (dispatch isinst i fs ++ B))) ∧
      (.label (.finL i) :: (code isinst (.final i :: fs) F ++ (dispatch isinst i fs ++ B))) <:+ P := by
    intro hf
    rw [hf, if_pos rfl] at b3
    simp only [finallyCode, List.append_assoc, List.cons_append, List.nil_append] at b3
    obtain ⟨B, h1, h2⟩ := find_infix hP b3
    simp only [List.append_assoc] at h1 h2
    exact ⟨B, h1, h2⟩
  refine ⟨⟨ok1, nd_cons nd (by simp), by simpa using suf1, b4, env.endL, ?_⟩, find_suffix hP suf2, ?_, ?_, ?_⟩
  · intro g hg
    rcases List.mem_cons.1 hg with rfl | hg
    · refine ⟨fun n hn => ?_, fun hf => ?_⟩
      · have := handler_labels (isinst := isinst) (i := i) (f := f) (fs := fs) (hs := hs) 0 n hn
        rw [Nat.zero_add] at this
        exact infix_label b1 this
      · obtain ⟨B, h1, _⟩ := fin hf
        rw [h1]; rfl
    · exact env.labs g hg
  · intro hu
    subst hu
    simp only [if_true, List.append_assoc, List.cons_append, List.nil_append] at b2 b6
    obtain ⟨B, h1, h2⟩ := find_infix hP b2
    simp only [List.append_assoc] at h1 h2
    refine ⟨B, h1, by simpa using ok3, nd_cons nd ?_, (List.suffix_cons _ _).trans h2, b6, env.endL, ?_⟩
    · exact ((List.sublist_append_left t.ids F.ids).trans (List.sublist_append_right _ _)).trans (List.sublist_append_right _ _)
    · intro g hg
      rcases List.mem_cons.1 hg with rfl | hg
      · trivial
      · exact env.labs g hg
  · intro e g h hfind
    obtain ⟨n, a1, a2, a3, a4, a5⟩ := handler_found (i := i) (f := f) (fs := fs) hfind 0
    have a2 := a2.trans b1
    simp only [handlerCode, List.append_assoc, List.cons_append, List.nil_append] at a2
    obtain ⟨B, h1, h2⟩ := find_infix hP a2
    simp only [List.append_assoc, List.cons_append] at h1 h2
    refine ⟨n, B, a1, h1, a4 ok2, nd_cons nd ?_, (List.suffix_cons _ _).trans ((List.suffix_cons _ _).trans h2), a3.trans b5, env.endL, ?_⟩
    · exact (a5.trans (List.sublist_append_left _ _)).trans (List.sublist_append_right _ _)
    · intro g hg
      rcases List.mem_cons.1 hg with rfl | hg
      · trivial
      · exact env.labs g hg
  · intro hf
    obtain ⟨B, h1, h2⟩ := fin hf
    subst hf
    simp only [Bool.not_true, Bool.false_or, Bool.and_eq_true, Bool.or_eq_true] at ok4
    rw [if_pos rfl] at b7
    refine ⟨B, h1, ⟨ok4.1, nd_cons nd ?_, (List.suffix_cons _ _).trans h2, b7, env.endL, ?_⟩, ?_⟩
    · exact ((List.sublist_append_right t.ids F.ids).trans (List.sublist_append_right _ _)).trans (List.sublist_append_right _ _)
    · intro g hg
      rcases List.mem_cons.1 hg with rfl | hg
      · trivial
      · exact env.labs g hg
    · rcases ok4.2 with h | h
      · exact .inl h
      · right
        simpa [Job.hasRet] using h

/-- The end of an except clause or else suite. -/
theorem suite_end {S S2 : List Nat} {ev : Option Nat} {i : Nat} {f : Bool} {fs : List (Frame Ty)} {k rest : List (Instr σ Val Exc)}
    {st st2 : Config σ Val Exc} {o : Outcome Val Exc} {b : σ} {m m2 : M σ Val Exc}
    (h : Concl P S2 ev (handlerEnd i f ++ rest) st2 o b m2 (dest isinst (.other i f :: fs) o) (guardO (.other i f :: fs) o))
    (hst : Steps P st st2) (hpost : find (.post i) P = some (.label (.post i) :: k)) (hfin : f = true → (find (.finL i) P).isSome)
    (hi : i ∈ S)
    (hp : ∀ j, j ∉ S → j ∉ S2 ∧ m2.fin j = m.fin j ∧ (ev ≠ some j → m2.err (some j) = m.err (some j))) :
    Concl P S ev (.label (.post i) :: k) st o b m (innerDest isinst i f fs o) (innerGuard f fs o) := by
  cases f with
  | false =>
    have hd : dest isinst (.other i false :: fs) o = dest isinst fs o := by cases o <;> rfl
    have hg : guardO (.other i false :: fs) o = guardO fs o := by cases o <;> simp [guardO, retOk, raiseOk, preOk]
    rw [hd, hg] at h
    simp only [innerDest, innerGuard, Bool.false_eq_true, if_false]
    refine h.mono hst (fun _ h => h) (fun hl hf m' _ _ => ?_) (fun j hj => ?_)
    · exact st_goto hpost
    · obtain ⟨a, b, c⟩ := hp j hj
      exact ⟨a, b, fun hev => ⟨hev, c hev⟩⟩
  | true =>
    simp only [innerDest, innerGuard, if_true]
    refine ⟨fun hf => hst.trans (h.1 hf), fun hf => ?_⟩
    obtain ⟨hg, c, m', h1, h2, h3, h4⟩ := h.2 hf
    have ho : o = .normal := by
      cases o with
      | normal => rfl
      | fail => exact absurd rfl hf
      | _ => simp [guardO, retOk, raiseOk, preOk] at hg
    subst ho
    obtain ⟨cf, hcf⟩ := Option.isSome_iff_exists.1 (hfin rfl)
    have hc : c = handlerEnd i true ++ rest := h2
    subst hc
    refine ⟨rfl, cf, m'.setFin i 0, (hst.trans h1).trans (.trans (b := .run (.goto (.finL i) :: rest) (m'.setFin i 0)) (st_op rfl) (st_goto hcf)), hcf, ?_, ?_⟩
    · refine ⟨h3.user, h3.res, ?_, ?_, fun e he => (by cases he), fun e he => (by cases he)⟩
      · have := h3.merr
        simp [dest] at this
        simpa [M.setFin] using this
      · intro i' c' he
        cases he
        simp [M.setFin, codeOf]
    · intro j hj hd
      obtain ⟨a1, a2, a3⟩ := hp j hj
      obtain ⟨b1, b2⟩ := h4 j a1 (fun c h => by cases h)
      have : j ≠ i := fun h => hj (h ▸ hi)
      refine ⟨?_, fun hev => (b2 hev).trans (a3 hev)⟩
      simp [M.setFin, this]
      exact b1.trans a2

/-- Behind clean-up code that completed normally. -/
theorem cleanup_end {S : List Nat} {ev : Option Nat} {i : Nat} {fs : List (Frame Ty)} {k K : List (Instr σ Val Exc)}
    {st : Config σ Val Exc} {o : Outcome Val Exc} {b : σ} {m m2 : M σ Val Exc} (hE : Env P fs) (ho : o ≠ .fail)
    (hst : Steps P st (.run (dispatch isinst i fs ++ K) m2)) (h : after fs o = true) (hn : (fs.map Frame.id).Nodup)
    (hpost : find (.post i) P = some (.label (.post i) :: k)) (hf : m2.fin i = codeOf o)
    (he : ∀ e, o = .exc e → m2.err (some i) = some e) (hm : m2.err none = none) (hu : m2.user = b) (hr : m2.res = o.value)
    (hp : ∀ j, j ∉ S → m2.fin j = m.fin j ∧ (ev ≠ some j → m2.err (some j) = m.err (some j))) :
    Concl P S ev k st o b m (dest isinst fs o) (guardO fs o) := by
  refine ⟨fun h => absurd h ho, fun _ => ⟨after_guard fs o h, ?_⟩⟩
  obtain ⟨c, m', h1, h2, h3, h4⟩ := dispatch_run isinst i fs o m2 K k (.label (.post i) :: k) hE ho h hn hf he hm hpost
  have facts : Facts (dest isinst fs o) o b m' := by
    refine ⟨h3.user.trans hu, h3.res.trans hr, h3.merr, h3.fin, ?_, ?_⟩
    · intro e he' i' c' hd; exact absurd hd ((h4 e he').1 i' c')
    · intro e he' i' c' hd; exact absurd hd ((h4 e he').2 i' c')
  have pres : Pres S ev (dest isinst fs o) m m' := by
    intro j hj hd
    obtain ⟨a1, a2⟩ := hp j hj
    exact ⟨(h3.fins j hd).trans a1, fun hev => (h3.errs j).trans (a2 hev)⟩
  cases hl : (dest isinst fs o).lab with
  | some l =>
    refine ⟨c, m', hst.trans h1, ?_, facts, pres⟩
    simp only [At, hl] at h2 ⊢
    exact h2
  | none =>
    have hc : c = .label (.post i) :: k := by simpa [At, hl] using h2
    subst hc
    refine ⟨k, m', (hst.trans h1).trans st_label, ?_, facts, pres⟩
    simp [At, hl]

theorem reset_id {m : M σ Val Exc} (h1 : m.res = none) (h2 : m.err none = none) : m.resetResult = m := by
  cases m with
  | mk u r e f =>
    simp only at h1 h2
    subst h1
    simp only [M.resetResult, M.setErr]
    congr
    funext j
    by_cases hj : j = none
    · subst hj; simp [h2]
    · simp [hj]

/-! ### Parts of the other statements -/

theorem Wf.seq {fs : List (Frame Ty)} {s t : Stmt σ Val Exc Ty} {k : List (Instr σ Val Exc)} (w : Wf isinst P fs (.seq s t) k) :
    Wf isinst P fs s (code isinst fs t ++ k) ∧ Wf isinst P fs t k := by
  obtain ⟨okk, nd, suf, blk, env⟩ := w
  simp only [ok, Bool.and_eq_true] at okk
  simp only [Stmt.ids] at nd
  simp only [code, List.append_assoc] at suf
  simp only [blocks] at blk
  exact ⟨⟨okk.1, nd_sub nd (by simp), suf, (List.prefix_append _ _).isInfix.trans blk, env⟩,
    ⟨okk.2, nd_sub nd (by simp), (List.suffix_append _ _).trans suf, (List.suffix_append _ _).isInfix.trans blk, env⟩⟩

theorem code_ite (fs : List (Frame Ty)) (i c) (s t : Stmt σ Val Exc Ty) (k : List (Instr σ Val Exc)) : code isinst fs (.ite i c s t) ++ k =
    .jump (fun m => !c m.user) id (.els i) :: (code isinst fs s ++ (.goto (.endif i) :: .label (.els i) ::
      (code isinst fs t ++ (.label (.endif i) :: k)))) := by
  simp [code]

theorem Wf.ite (hP : (labels P).Nodup) {fs : List (Frame Ty)} {i c} {s t : Stmt σ Val Exc Ty} {k : List (Instr σ Val Exc)} (w : Wf isinst P fs (.ite i c s t) k) :
    Wf isinst P fs s (.goto (.endif i) :: .label (.els i) :: (code isinst fs t ++ (.label (.endif i) :: k))) ∧
    Wf isinst P fs t (.label (.endif i) :: k) ∧ find (.endif i) P = some (.label (.endif i) :: k) ∧
    find (.els i) P = some (.label (.els i) :: (code isinst fs t ++ (.label (.endif i) :: k))) := by
  obtain ⟨okk, nd, suf, blk, env⟩ := w
  simp only [ok, Bool.and_eq_true] at okk
  simp only [Stmt.ids] at nd
  rw [code_ite] at suf
  simp only [blocks] at blk
  have s1 := (List.suffix_cons _ _).trans suf
  have s2 := (List.suffix_cons _ _).trans ((List.suffix_append _ _).trans s1)
  have s3 := (List.suffix_cons _ _).trans s2
  have s4 := (List.suffix_append _ _).trans s3
  have n : (s.ids ++ t.ids).Sublist (i :: (s.ids ++ t.ids)) := List.sublist_cons_self _ _
  exact ⟨⟨okk.1, nd_sub nd ((List.sublist_append_left _ _).trans n), s1, (List.prefix_append _ _).isInfix.trans blk, env⟩,
    ⟨okk.2, nd_sub nd ((List.sublist_append_right _ _).trans n), s3, (List.suffix_append _ _).isInfix.trans blk, env⟩,
    find_suffix hP s4, find_suffix hP s2⟩

def loopK2 (i : Nat) (k : List (Instr σ Val Exc)) : List (Instr σ Val Exc) :=
  .label (.loopPost i) :: .op (fun m => some m.resetResult) :: k

def loopK1 (isinst : Exc → Ty → Bool) (fs : List (Frame Ty)) (i : Nat) (t : Stmt σ Val Exc Ty) (k : List (Instr σ Val Exc)) : List (Instr σ Val Exc) :=
  .label (.loopEnd i) :: .goto (.head i) :: .label (.loopElse i) :: (code isinst (.loopElse i :: fs) t ++ loopK2 i k)

theorem code_loop (fs : List (Frame Ty)) (i c) (s t : Stmt σ Val Exc Ty) (k : List (Instr σ Val Exc)) : code isinst fs (.loop i c s t) ++ k =
    .label (.head i) :: .jump (fun m => !c m.user) id (.loopElse i) :: (code isinst (.loop i :: fs) s ++ loopK1 isinst fs i t k) := by
  simp [code, loopK1, loopK2]

structure LoopParts (isinst : Exc → Ty → Bool) (P : List (Instr σ Val Exc)) (fs : List (Frame Ty)) (i : Nat) (c : σ → Bool) (s t : Stmt σ Val Exc Ty)
    (k : List (Instr σ Val Exc)) : Prop where
  body : Wf isinst P (.loop i :: fs) s (loopK1 isinst fs i t k)
  orelse : Wf isinst P (.loopElse i :: fs) t (loopK2 i k)
  head : find (.head i) P = some (code isinst fs (.loop i c s t) ++ k)
  els : find (.loopElse i) P = some (.label (.loopElse i) :: (code isinst (.loopElse i :: fs) t ++ loopK2 i k))
  post : find (.loopPost i) P = some (loopK2 i k)
  endl : find (.loopEnd i) P = some (loopK1 isinst fs i t k)

theorem Wf.loopParts (hP : (labels P).Nodup) {fs : List (Frame Ty)} {i c} {s t : Stmt σ Val Exc Ty} {k : List (Instr σ Val Exc)} (w : Wf isinst P fs (.loop i c s t) k) :
    LoopParts isinst P fs i c s t k := by
  obtain ⟨okk, nd, suf, blk, env⟩ := w
  simp only [ok, Bool.and_eq_true] at okk
  simp only [Stmt.ids] at nd
  have hhead : find (.head i) P = some (code isinst fs (.loop i c s t) ++ k) := by
    rw [code_loop] at suf ⊢
    exact find_suffix hP suf
  rw [code_loop] at suf
  simp only [blocks] at blk
  have s1 := (List.suffix_cons _ _).trans ((List.suffix_cons _ _).trans suf)
  have s2 : loopK1 isinst fs i t k <:+ P := (List.suffix_append _ _).trans s1
  have s3 : (.label (.loopElse i) :: (code isinst (.loopElse i :: fs) t ++ loopK2 i k)) <:+ P :=
    (List.suffix_cons _ _).trans ((List.suffix_cons _ _).trans s2)
  have s4 := (List.suffix_cons _ _).trans s3
  have s5 : loopK2 i k <:+ P := (List.suffix_append _ _).trans s4
  have p := find_suffix hP s5
  have e := find_suffix hP s2
  refine ⟨⟨okk.1, nd_cons nd (by simp), s1, (List.prefix_append _ _).isInfix.trans blk, env.endL, ?_⟩,
    ⟨okk.2, nd_cons nd (by simp), s4, (List.suffix_append _ _).isInfix.trans blk, env.endL, ?_⟩, hhead, find_suffix hP s3, p, e⟩
  · intro g hg
    rcases List.mem_cons.1 hg with rfl | hg
    · exact ⟨by rw [e]; rfl, by rw [p]; rfl⟩
    · exact env.labs g hg
  · intro g hg
    rcases List.mem_cons.1 hg with rfl | hg
    · trivial
    · exact env.labs g hg

theorem code_with (fs : List (Frame Ty)) (i en ex) (s : Stmt σ Val Exc Ty) (k : List (Instr σ Val Exc)) : code isinst fs (.withS i en s ex) ++ k =
    .op (fun m => some { m with user := en m.user }) :: .op (fun m => some (m.setFin i 0)) ::
      (code isinst (.withB i :: fs) s ++ (.goto (.finL i) :: .label (.post i) :: k)) := by
  simp [code]

theorem code_try (fs : List (Frame Ty)) (i s hs u t f F) (k : List (Instr σ Val Exc)) : code isinst fs (.tryS i s hs u t f F) ++ k =
    .op (fun m => some (m.setFin i 0)) :: (code isinst (.body i f hs.heads :: fs) s ++
      ((if u then [.goto (.elseL i)] else if f then [.goto (.finL i)] else []) ++ (.label (.post i) :: k))) := by
  simp [code]

theorem Wf.withParts (hP : (labels P).Nodup) {fs : List (Frame Ty)} {i en ex} {s : Stmt σ Val Exc Ty} {k : List (Instr σ Val Exc)} (w : Wf isinst P fs (.withS i en s ex) k) :
    Wf isinst P (.withB i :: fs) s (.goto (.finL i) :: .label (.post i) :: k) ∧ find (.post i) P = some (.label (.post i) :: k) ∧
    ∃ B, find (.finL i) P = some (.label (.finL i) ::
      .op (fun m => some { m with user := ex (if m.fin i > 1 then m.err (some i) else none) m.user }) :: (dispatch isinst i fs ++ B)) := by
  obtain ⟨okk, nd, suf, blk, env⟩ := w
  simp only [ok] at okk
  simp only [Stmt.ids] at nd
  rw [code_with] at suf
  simp only [blocks] at blk
  have s1 := (List.suffix_cons _ _).trans ((List.suffix_cons _ _).trans suf)
  have s2 := (List.suffix_cons _ _).trans ((List.suffix_append _ _).trans s1)
  have b2 := (List.suffix_append _ _).isInfix.trans blk
  simp only [exitCode, List.cons_append, List.nil_append] at b2
  obtain ⟨B, h1, h2⟩ := find_infix hP b2
  refine ⟨⟨okk, nd_cons nd (List.Sublist.refl _), s1, (List.prefix_append _ _).isInfix.trans blk, env.endL, ?_⟩, find_suffix hP s2, B, by simpa using h1⟩
  intro g hg
  rcases List.mem_cons.1 hg with rfl | hg
  · show (find (.finL i) P).isSome
    rw [h1]; rfl
  · exact env.labs g hg

/-! ### Jumps of statements -/

theorem jumped_concl {S : List Nat} {ev : Option Nat} {k c : List (Instr σ Val Exc)} {st : Config σ Val Exc} {o : Outcome Val Exc} {b : σ}
    {m m1 m' : M σ Val Exc} {d : Dest} {g : Bool} (ho : o ≠ .fail) (hg : g = true) (hx : ∀ e, o ≠ .exc e) (hs : Steps P st (.run c m')) (hat : At P k d c)
    (hj : Jumped d o m1 m') (hu : m1.user = b) (hr : m1.res = o.value) (h1 : m1.fin = m.fin) (h2 : m1.err = m.err) :
    Concl P S ev k st o b m d g := by
  refine ⟨fun h => absurd h ho, fun _ => ⟨hg, c, m', hs, hat, ⟨hj.user.trans hu, hj.res.trans hr, hj.merr, hj.fin, ?_, ?_⟩, ?_⟩⟩
  · intro e he; exact absurd he (hx e)
  · intro e he; exact absurd he (hx e)
  · intro j _ hd
    refine ⟨(hj.fins j hd).trans (by rw [h1]), fun _ => (hj.errs j).trans (by rw [h2])⟩

theorem ret_run (fs : List (Frame Ty)) (v : Option Val) (m : M σ Val Exc) (k : List (Instr σ Val Exc)) (hE : Env P fs) (hm : m.err none = none) :
    ∃ c m', Steps P (.run (returnJump fs ++ k) m) (.run c m') ∧ At P k (destRet fs) c ∧
      Jumped (destRet fs) (.ret v : Outcome Val Exc) m m' := by
  obtain ⟨c, hat⟩ := dest_exists (isinst := fun (_ : Exc) (_ : Ty) => false) (.ret v : Outcome Val Exc) fs hE k
  simp only [dest] at hat
  have h := firstFinally_ret fs
  unfold returnJump
  cases hf : firstFinally (surrounding fs) with
  | some b =>
    rw [hf] at h
    simp only at h
    rw [h] at hat ⊢
    exact ⟨c, m.setFin b.i 1, .trans (b := .run (.goto (.finL b.i) :: k) (m.setFin b.i 1)) (st_op rfl) (st_goto hat), hat, jumped_fin hm⟩
  | none =>
    rw [hf] at h
    simp only at h
    rw [h] at hat ⊢
    exact ⟨c, m, st_goto hat, hat, jumped_id (fun _ _ h => by cases h) (by simpa [Outcome.exitArg] using hm)⟩

theorem loop_run (isinst : Exc → Ty → Bool) (cc : Nat) (l : Nat → Label) (D : Nat → Dest) (o : Outcome Val Exc) (fs : List (Frame Ty)) (m : M σ Val Exc)
    (k : List (Instr σ Val Exc)) (hE : Env P fs) (hm : m.err none = none) (ho : dest isinst fs o = destLoop cc D fs) (hD : ∀ j, (D j).lab = some (l j))
    (hx : ∀ j, D j ≠ .endD) (hx2 : ∀ j i c, D j ≠ .fin i c) (h : loopOk fs = true) :
    ∃ c m', Steps P (.run (loopJump cc l fs ++ k) m) (.run c m') ∧ At P k (dest isinst fs o) c ∧ Jumped (dest isinst fs o) o m m' := by
  obtain ⟨c, hat⟩ := dest_exists isinst o fs hE k
  rw [ho] at hat ⊢
  rcases loopJump_dest (σ := σ) (Val := Val) (Exc := Exc) cc l D fs h with ⟨i, h1, h2⟩ | ⟨j, h1, h2⟩
  · rw [h1] at hat ⊢; rw [h2]
    exact ⟨c, m.setFin i cc, .trans (b := .run (.goto (.finL i) :: k) (m.setFin i cc)) (st_op rfl) (st_goto hat), hat, jumped_fin hm⟩
  · rw [h1] at hat ⊢; rw [h2]
    have hat' : find (l j) P = some c := by simpa [At, hD j] using hat
    exact ⟨c, m, st_goto hat', hat, jumped_id (hx2 j) (by rw [if_neg (hx j)]; exact hm)⟩

/-! ### The simulation -/

theorem notin_errorVar {fs : List (Frame Ty)} {i : Nat} {S : List Nat} (h : (fs.map Frame.id ++ i :: S).Nodup) : errorVar fs ≠ some i :=
  fun he => (nd_notin h).1 (errorVar_cases fs i he)

theorem nd_pos {fs : List (Frame Ty)} {S : List Nat} (h : (fs.map Frame.id ++ S).Nodup) : (fs.map Frame.id).Nodup :=
  (List.nodup_append.1 h).1

theorem sim (hP : (labels P).Nodup) {j : Job σ Val Exc Ty} {a b : σ} {o : Outcome Val Exc} (h : Exec isinst j a o b) : Sim isinst P j a o b := by
  induction h with
  | act f a b h1 =>
    intro fs k m w hu hr he
    subst hu
    refine jumped_concl (m1 := { m with user := b }) (m' := { m with user := b }) (by simp) rfl (by simp) (st_op (by simp [h1])) rfl
      (jumped_id (by simp [dest]) (by simpa [dest] using he)) rfl hr rfl rfl
  | actFail f a h1 =>
    intro fs k m w hu hr he
    subst hu
    exact ⟨fun _ => st_fail (by simp [h1]), fun h => absurd rfl h⟩
  | callFail f a h1 =>
    intro fs k m w hu hr he
    subst hu
    exact ⟨fun _ => st_fail (by simp [callOp, h1]), fun h => absurd rfl h⟩
  | call f a b h1 =>
    intro fs k m w hu hr he
    subst hu
    refine ⟨fun h => (by cases h), fun _ => ⟨rfl, k, ({ m with user := b } : M σ Val Exc).setErr (errorVar fs) none, ?_, rfl, ⟨rfl, hr, ?_, ?_, ?_, ?_⟩, ?_⟩⟩
    · refine .trans (b := .run (catchers isinst fs ++ k) (({ m with user := b } : M σ Val Exc).setErr (errorVar fs) none))
        (st_op (by simp [callOp, h1])) ?_
      unfold catchers
      simp only [List.append_assoc]
      refine (st_tested_skip (fun m ty => (m.err (errorVar fs)).isSome && hasType isinst (m.err (errorVar fs)) ty) _ _ _ ?_).trans ?_
      · intro h hh; simp [M.setErr]
      · cases firstFinally (surrounding fs) <;> exact st_skip (by simp [M.setErr])
    · by_cases hv : none = errorVar fs <;> simp [M.setErr, hv, dest]
      exact he
    · intro i c h; cases h
    · intro e h; cases h
    · intro e h; cases h
    · intro j hj hd
      refine ⟨rfl, fun hev => ?_⟩
      simp [M.setErr, Ne.symm hev]
  | callExc f a b e h1 =>
    intro fs k m w hu hr he
    subst hu
    have hok : raiseOk fs = true := w.okk
    obtain ⟨c, m', s1, s2, s3, s4, s5⟩ := catchers_run isinst fs e (({ m with user := b } : M σ Val Exc).setErr (errorVar fs) (some e)) k k w.env hok
      (by simp [M.setErr]) (by intro h; simp [M.setErr, Ne.symm h, he])
    refine ⟨fun h => (by cases h), fun _ => ⟨hok, c, m', ?_, s2, ⟨s3.user, s3.res.trans hr, s3.merr, s3.fin, ?_, ?_⟩, ?_⟩⟩
    · exact .trans (st_op (by simp [callOp, h1])) s1
    · intro e' h i c hd
      cases h
      exact (s3.errs i).trans (s4 i c hd)
    · intro e' h i c hd
      cases h
      exact (s3.errs i).trans (s5 i c hd)
    · intro j hj hd
      refine ⟨s3.fins j hd, fun hev => (s3.errs j).trans ?_⟩
      simp [M.setErr, Ne.symm hev]
  | seq s t a b c o _ _ ih1 ih2 =>
    intro fs k m w hu hr he
    obtain ⟨w1, w2⟩ := w.seq
    obtain ⟨_, c1, m1, q1, q2, q3, q4⟩ := (ih1 fs _ m w1 hu hr he).2 (by simp)
    have hc : c1 = code isinst fs t ++ k := q2
    subst hc
    simp only [code, List.append_assoc]
    refine (ih2 fs k m1 w2 q3.user q3.res (by simpa [dest] using q3.merr)).mono q1 (fun _ h => h) (fun _ _ _ _ _ => .refl _) ?_
    intro j hj
    simp only [Stmt.ids, List.mem_append, not_or] at hj
    obtain ⟨p1, p2⟩ := q4 j hj.1 (by simp [dest])
    exact ⟨hj.2, p1, fun h => ⟨h, p2 h⟩⟩
  | seqStop s t a b o _ hne ih =>
    intro fs k m w hu hr he
    obtain ⟨w1, w2⟩ := w.seq
    simp only [code, List.append_assoc]
    refine (ih fs _ m w1 hu hr he).mono (.refl _) (fun _ h => h) ?_ ?_
    · intro hl hf
      rcases dest_lab _ _ _ hl with h | h
      · exact absurd h hne
      · exact absurd h hf
    · intro j hj
      simp only [Stmt.ids, List.mem_append, not_or] at hj
      exact ⟨hj.1, rfl, fun h => ⟨h, rfl⟩⟩
  | iteTrue i c s t a b o hc _ ih =>
    intro fs k m w hu hr he
    subst hu
    obtain ⟨w1, w2, f1, f2⟩ := w.ite hP
    rw [code_ite]
    refine (ih fs _ m w1 rfl hr he).mono (st_skip (by simp [hc])) (fun _ h => h) ?_ ?_
    · intro hl hf m' _ _
      exact (st_goto f1).trans st_label
    · intro j hj
      simp only [Stmt.ids, List.mem_cons, List.mem_append, not_or] at hj
      exact ⟨hj.2.1, rfl, fun h => ⟨h, rfl⟩⟩
  | iteFalse i c s t a b o hc _ ih =>
    intro fs k m w hu hr he
    subst hu
    obtain ⟨w1, w2, f1, f2⟩ := w.ite hP
    rw [code_ite]
    refine (ih fs _ m w2 rfl hr he).mono ((st_take (u := id) (by simp [hc]) f2).trans st_label) (fun _ h => h) ?_ ?_
    · intro hl hf m' _ _
      exact st_label
    · intro j hj
      simp only [Stmt.ids, List.mem_cons, List.mem_append, not_or] at hj
      exact ⟨hj.2.2, rfl, fun h => ⟨h, rfl⟩⟩
  | loopElse i c s t a b o hc _ ih =>
    intro fs k m w hu hr he
    subst hu
    have L := w.loopParts hP
    have hd : dest isinst (.loopElse i :: fs) o = dest isinst fs o := by cases o <;> rfl
    have ih := ih (.loopElse i :: fs) _ m L.orelse rfl hr he
    rw [hd] at ih
    rw [code_loop]
    refine ih.mono (st_label.trans ((st_take (u := id) (by simp [hc]) L.els).trans st_label)) ?_ ?_ ?_
    · intro _ hg
      cases o <;> first | exact hg | (simp [guardO, preOk] at hg)
    · intro hl hf m' h1 h2
      have h1 : m'.res = none := by
        rcases dest_lab _ _ _ hl with h | h
        · subst h; exact h1
        · exact absurd h hf
      exact st_label.trans (st_op (by rw [reset_id h1 h2]))
    · intro j hj
      simp only [Stmt.ids, List.mem_cons, List.mem_append, not_or] at hj
      exact ⟨hj.2.2, rfl, fun h => ⟨h, rfl⟩⟩
  | loopBrk i c s t a b hc _ ih =>
    intro fs k m w hu hr he
    subst hu
    have L := w.loopParts hP
    obtain ⟨_, c1, m1, q1, q2, q3, q4⟩ := (ih (.loop i :: fs) _ m L.body rfl hr he).2 (by simp)
    have q2 : find (.loopPost i) P = some c1 := q2
    rw [L.post] at q2
    cases q2
    have e1 : m1.res = none := q3.res
    have e2 : m1.err none = none := by simpa [dest, destLoop] using q3.merr
    rw [code_loop]
    refine ⟨fun h => (by cases h), fun _ => ⟨rfl, k, m1, ?_, rfl, ⟨q3.user, e1, by simpa [dest] using e2, ?_, ?_, ?_⟩, ?_⟩⟩
    · exact st_label.trans ((st_skip (by simp [hc])).trans (q1.trans (st_label.trans (st_op (by rw [reset_id e1 e2])))))
    · intro i c h; cases h
    · intro e h; cases h
    · intro e h; cases h
    · intro j hj _
      simp only [Stmt.ids, List.mem_cons, List.mem_append, not_or] at hj
      exact q4 j hj.2.1 (by simp [dest, destLoop])
  | loopNext i c s t a b o' d o hc _ ho' _ ih1 ih2 =>
    intro fs k m w hu hr he
    subst hu
    have L := w.loopParts hP
    obtain ⟨_, c1, m1, q1, q2, q3, q4⟩ := (ih1 (.loop i :: fs) _ m L.body rfl hr he).2 (by rcases ho' with h | h <;> simp [h])
    have hc1 : c1 = loopK1 isinst fs i t k := by
      rcases ho' with rfl | rfl
      · exact q2
      · have q2 : find (.loopEnd i) P = some c1 := q2
        rw [L.endl] at q2
        exact (Option.some.inj q2).symm
    subst hc1
    have e1 : m1.res = none := by rcases ho' with rfl | rfl <;> exact q3.res
    have e2 : m1.err none = none := by rcases ho' with rfl | rfl <;> simpa [dest, destLoop] using q3.merr
    refine (ih2 fs k m1 w q3.user e1 e2).mono ?_ (fun _ h => h) (fun _ _ _ _ _ => .refl _) ?_
    · rw [code_loop]
      refine st_label.trans ((st_skip (by simp [hc])).trans (q1.trans (st_label.trans (st_goto ?_))))
      rw [L.head, code_loop]
    · intro j hj
      have hj' := hj
      simp only [Stmt.ids, List.mem_cons, List.mem_append, not_or] at hj'
      obtain ⟨p1, p2⟩ := q4 j hj'.2.1 (by rcases ho' with rfl | rfl <;> simp [dest, destLoop])
      exact ⟨hj, p1, fun h => ⟨h, p2 h⟩⟩
  | loopStop i c s t a b o hc _ n1 n2 n3 ih =>
    intro fs k m w hu hr he
    subst hu
    have L := w.loopParts hP
    have hd : dest isinst (.loop i :: fs) o = dest isinst fs o := by cases o <;> first | rfl | contradiction
    have hg : guardO (.loop i :: fs) o = guardO fs o := by cases o <;> first | rfl | contradiction
    have ih := ih (.loop i :: fs) _ m L.body rfl hr he
    rw [hd, hg] at ih
    rw [code_loop]
    refine ih.mono (st_label.trans (st_skip (by simp [hc]))) (fun _ h => h) ?_ ?_
    · intro hl hf
      rcases dest_lab _ _ _ hl with h | h <;> contradiction
    · intro j hj
      simp only [Stmt.ids, List.mem_cons, List.mem_append, not_or] at hj
      exact ⟨hj.2.1, rfl, fun h => ⟨h, rfl⟩⟩
  | retNone a =>
    intro fs k m w hu hr he
    obtain ⟨c, m', s1, s2, s3⟩ := ret_run fs none m k w.env he
    exact jumped_concl (m1 := m) (by simp) w.okk (by simp) s1 s2 s3 hu hr rfl rfl
  | ret v a =>
    intro fs k m w hu hr he
    subst hu
    obtain ⟨c, m', s1, s2, s3⟩ := ret_run fs (v m.user) ({ m with res := v m.user } : M σ Val Exc) k w.env he
    exact jumped_concl (m1 := { m with res := v m.user }) (by simp) w.okk (by simp) (.trans (st_op rfl) s1) s2 s3 rfl rfl rfl rfl
  | brk a =>
    intro fs k m w hu hr he
    have hok : loopOk fs = true := w.okk
    obtain ⟨c, m', s1, s2, s3⟩ := loop_run isinst 3 .loopPost .loopPost (.brk : Outcome Val Exc) fs m k w.env he rfl (fun _ => rfl) (by simp) (by simp) hok
    refine jumped_concl (m1 := m) (by simp) ?_ (by simp) s1 s2 s3 hu hr rfl rfl
    simp only [loopOk, Bool.and_eq_true] at hok
    exact hok.1
  | cont a =>
    intro fs k m w hu hr he
    have hok : loopOk fs = true := w.okk
    obtain ⟨c, m', s1, s2, s3⟩ := loop_run isinst 4 .loopEnd .loopEnd (.cont : Outcome Val Exc) fs m k w.env he rfl (fun _ => rfl) (by simp) (by simp) hok
    refine jumped_concl (m1 := m) (by simp) ?_ (by simp) s1 s2 s3 hu hr rfl rfl
    simp only [loopOk, Bool.and_eq_true] at hok
    exact hok.1
  | innerEnd i s hs t u f F a b _ hu' ih =>
    intro fs k m w hu hr he
    subst hu'
    have T := w.tryParts hP
    have ni := nd_notin w.nd
    obtain ⟨_, c1, m1, q1, q2, q3, q4⟩ := (ih _ _ (m.setFin i 0) T.body hu hr he).2 (by simp)
    have hc : c1 = _ := q2
    subst hc
    simp only [List.mem_append, not_or] at ni
    have hfin : m1.fin i = 0 := by
      rw [(q4 i ni.2.1 (by simp [dest])).1]
      simp [M.setFin]
    have e2 : m1.err none = none := by simpa [dest] using q3.merr
    rw [code_try]
    have pres : ∀ d, Pres (Stmt.tryS i s hs false t f F).ids (errorVar fs) d m m1 := by
      intro d j hj _
      simp only [Stmt.ids, List.mem_cons, List.mem_append, not_or] at hj
      obtain ⟨p1, p2⟩ := q4 j hj.2.1 (by simp [dest])
      refine ⟨p1.trans (by simp [M.setFin, hj.1]), fun _ => p2 ?_⟩
      simp [errorVar, surrounding]
      exact fun h => hj.1 h.symm
    cases f with
    | false =>
      refine ⟨fun h => (by cases h), fun _ => ⟨rfl, _, m1, .trans (st_op rfl) q1, rfl, ⟨q3.user, q3.res, by simpa [innerDest, dest] using e2, ?_, ?_, ?_⟩, pres _⟩⟩
      · intro i c h; cases h
      · intro e h; cases h
      · intro e h; cases h
    | true =>
      obtain ⟨B, f1, _⟩ := T.final rfl
      refine ⟨fun h => (by cases h), fun _ => ⟨rfl, _, m1, .trans (st_op rfl) (q1.trans (st_goto f1)), f1, ⟨q3.user, q3.res, by simpa [innerDest, dest] using e2, ?_, ?_, ?_⟩, pres _⟩⟩
      · intro i c h; cases h; exact hfin
      · intro e h; cases h
      · intro e h; cases h
  | innerElse i s hs t u f F a b c o _ hu' _ ih1 ih2 =>
    intro fs k m w hu hr he
    subst hu'
    have T := w.tryParts hP
    obtain ⟨_, c1, m1, q1, q2, q3, q4⟩ := (ih1 _ _ (m.setFin i 0) T.body hu hr he).2 (by simp)
    have hc : c1 = _ := q2
    subst hc
    obtain ⟨B, f1, w2⟩ := T.orelse rfl
    rw [code_try]
    refine suite_end (ih2 _ _ m1 w2 q3.user q3.res (by simpa [dest] using q3.merr)) ?_ T.post ?_ (by simp [Stmt.ids]) ?_
    · exact .trans (st_op rfl) (q1.trans ((st_goto f1).trans st_label))
    · intro hf
      obtain ⟨B, f1, _⟩ := T.final hf
      rw [f1]; rfl
    · intro j hj
      simp only [Stmt.ids, List.mem_cons, List.mem_append, not_or] at hj
      obtain ⟨p1, p2⟩ := q4 j hj.2.1 (by simp [dest])
      refine ⟨hj.2.2.2.1, p1.trans (by simp [M.setFin, hj.1]), fun _ => p2 ?_⟩
      simp [errorVar, surrounding]
      exact fun h => hj.1 h.symm
  | innerCatch i s hs t u f F a b c e g h o _ hfind _ ih1 ih2 =>
    intro fs k m w hu hr he
    have T := w.tryParts hP
    obtain ⟨n, B, f1, f2, w2⟩ := T.handler e g h hfind
    have hd : dest isinst (.body i f hs.heads :: fs) (.exc e : Outcome Val Exc) = .handler i n g.isSome := by simp [dest, destExc, f1]
    obtain ⟨_, c1, m1, q1, q2, q3, q4⟩ := (ih1 _ _ (m.setFin i 0) T.body hu hr he).2 (by simp)
    rw [hd] at q2 q3 q4
    have q2 : find (.handler i n) P = some c1 := q2
    rw [f2] at q2
    cases q2
    have e2 : m1.err none = none := by simpa using q3.merr
    have eb : (bindOp i g m1).user = bound g e b := by
      cases g with
      | none => exact q3.user
      | some g =>
        simp only [bindOp, bound]
        rw [q3.excH e rfl i n rfl, q3.user]
    have er : (bindOp i g m1).res = none := by cases g <;> exact q3.res
    have ee : (bindOp i g m1).err = m1.err := by cases g <;> rfl
    have ef : (bindOp i g m1).fin = m1.fin := by cases g <;> rfl
    rw [code_try]
    refine suite_end (ih2 _ _ (bindOp i g m1) w2 eb er (by rw [ee]; exact e2)) ?_ T.post ?_ (by simp [Stmt.ids]) ?_
    · exact .trans (st_op rfl) (q1.trans (st_label.trans (st_op rfl)))
    · intro hf
      obtain ⟨B, f1, _⟩ := T.final hf
      rw [f1]; rfl
    · intro j hj
      simp only [Stmt.ids, List.mem_cons, List.mem_append, not_or] at hj
      obtain ⟨p1, p2⟩ := q4 j hj.2.1 (by simp)
      have hh : h.ids.Sublist hs.ids := (handler_found (i := i) (f := f) (fs := fs) hfind 0).choose_spec.2.2.2.2
      refine ⟨fun hh' => hj.2.2.1 (hh.subset hh'), ?_, fun _ => ?_⟩
      · rw [ef]; exact p1.trans (by simp [M.setFin, hj.1])
      · rw [ee]
        refine p2 ?_
        simp [errorVar, surrounding]
        exact fun h => hj.1 h.symm
  | innerUncaught i s hs t u f F a b e _ hfind ih =>
    intro fs k m w hu hr he
    have T := w.tryParts hP
    have hn := handler_none hfind 0
    have hd : dest isinst (.body i f hs.heads :: fs) (.exc e : Outcome Val Exc) = innerDest isinst i f fs (.exc e : Outcome Val Exc) := by
      simp [dest, destExc, hn, innerDest, codeOf]
    have ih := ih _ _ (m.setFin i 0) T.body hu hr he
    rw [hd] at ih
    rw [code_try]
    refine ih.mono (st_op rfl) ?_ ?_ ?_
    · intro _ hg
      have hg : fs.all Frame.outerOk = true := hg
      cases f
      · exact raiseOk_of_outer fs hg
      · exact hg
    · intro hl
      cases f with
      | false => rcases dest_lab isinst fs (.exc e : Outcome Val Exc) hl with h | h <;> cases h
      | true => cases hl
    · intro j hj
      simp only [Stmt.ids, List.mem_cons, List.mem_append, not_or] at hj
      refine ⟨hj.2.1, by simp [M.setFin, hj.1], fun _ => ⟨?_, rfl⟩⟩
      simp [errorVar, surrounding]
      exact fun h => hj.1 h.symm
  | innerJump i s hs t u f F a b o _ hne hx ih =>
    intro fs k m w hu hr he
    have T := w.tryParts hP
    have ih := ih _ _ (m.setFin i 0) T.body hu hr he
    rw [code_try]
    by_cases hf : o = .fail
    · subst hf
      exact ⟨fun _ => .trans (st_op rfl) (ih.1 rfl), fun h => absurd rfl h⟩
    have hd : dest isinst (.body i f hs.heads :: fs) o = innerDest isinst i f fs o := by
      cases o <;> first | contradiction | (exact absurd rfl (hx _)) | rfl
    rw [hd] at ih
    refine ih.mono (st_op rfl) ?_ ?_ ?_
    · intro _ hg
      cases o with
      | normal => contradiction
      | fail => contradiction
      | exc e => exact absurd rfl (hx e)
      | ret v => cases f <;> exact hg
      | brk => cases f <;> exact hg
      | cont => cases f <;> exact hg
    · intro hl hf'
      cases f with
      | false => rcases dest_lab isinst fs o hl with h | h <;> contradiction
      | true => cases hl
    · intro j hj
      simp only [Stmt.ids, List.mem_cons, List.mem_append, not_or] at hj
      refine ⟨hj.2.1, by simp [M.setFin, hj.1], fun _ => ⟨?_, rfl⟩⟩
      simp [errorVar, surrounding]
      exact fun h => hj.1 h.symm
  | tryNoFin i s hs t u f F a b o _ hf ih =>
    intro fs k m w hu hr he
    subst hf
    exact (ih fs k m w hu hr he).mono (.refl _) (fun _ h => h) (fun _ _ _ _ _ => st_label) (fun j hj => ⟨hj, rfl, fun h => ⟨h, rfl⟩⟩)
  | tryFail i s hs t u f F a b _ hf ih =>
    intro fs k m w hu hr he
    exact ⟨(ih fs k m w hu hr he).1, fun h => absurd rfl h⟩
  | tryFin i s hs t u f F a b c o hin hf hof hF ih1 ih2 =>
    intro fs k m w hu hr he
    subst hf
    have T := w.tryParts hP
    have nv := notin_errorVar w.nd
    have ni := (nd_notin w.nd).2
    simp only [List.mem_append, not_or] at ni
    obtain ⟨hg, c1, m1, q1, q2, q3, q4⟩ := (ih1 fs k m w hu hr he).2 hof
    obtain ⟨B, f1, w2, hsim⟩ := T.final rfl
    have q2 : find (.finL i) P = some c1 := q2
    rw [f1] at q2
    cases q2
    have hfin : m1.fin i = codeOf o := q3.fin i _ rfl
    have hexc : ∀ e, o = .exc e → m1.err (some i) = some e := fun e he => q3.excFin e he i _ rfl
    have e2 : m1.err none = none := by simpa [innerDest] using q3.merr
    have key : ∃ m2, Steps P (.run (code isinst (.final i :: fs) F ++ (dispatch isinst i fs ++ B)) m1) (.run (dispatch isinst i fs ++ B) m2) ∧
        m2.user = c ∧ m2.res = o.value ∧ m2.err none = none ∧
        ∀ j, j ∉ F.ids → m2.fin j = m1.fin j ∧ (errorVar fs ≠ some j → m2.err (some j) = m1.err (some j)) := by
      by_cases hr1 : m1.res = none
      · obtain ⟨_, c2, m2, r1, r2, r3, r4⟩ := (ih2 _ _ m1 w2 q3.user hr1 e2).2 (by simp)
        have hc : c2 = _ := r2
        subst hc
        refine ⟨m2, r1, r3.user, ?_, by simpa [dest] using r3.merr, fun j hj => ?_⟩
        · rw [← q3.res, hr1]; exact r3.res
        · exact r4 j hj (by simp [dest])
      · have hret : ∃ v, o = .ret v := by
          cases o with
          | ret v => exact ⟨v, rfl⟩
          | _ => exact absurd q3.res hr1
        obtain ⟨v, hv⟩ := hret
        have := exec_ret hin v hv
        have hsim : F.simple = true := by
          rcases hsim with h | h
          · exact h
          · rw [h] at this; cases this
        rcases simple_run hP hF F rfl hsim (.final i :: fs) _ m1 w2.suf q3.user with ⟨_, r⟩ | ⟨r, _⟩
        · exact ⟨_, r, rfl, q3.res, e2, fun j _ => ⟨rfl, fun _ => rfl⟩⟩
        · cases r
    obtain ⟨m2, r1, r2, r3, r4, r5⟩ := key
    obtain ⟨r6, r7⟩ := r5 i ni.2.2.2
    refine cleanup_end w.env hof (q1.trans (st_label.trans r1)) hg (nd_pos w.nd) T.post (r6.trans hfin) (fun e h => (r7 nv).trans (hexc e h)) r4 r2 r3 ?_
    intro j hj
    have hj' := hj
    simp only [Stmt.ids, List.mem_cons, List.mem_append, not_or] at hj'
    obtain ⟨p1, p2⟩ := q4 j hj (by intro c h; simp [innerDest] at h; exact hj'.1 h.1.symm)
    obtain ⟨p3, p4⟩ := r5 j hj'.2.2.2.2
    exact ⟨p3.trans p1, fun h => (p4 h).trans (p2 h)⟩
  | tryOver i s hs t u f F a b c o o' hin hf hof hF hne ih1 ih2 =>
    intro fs k m w hu hr he
    subst hf
    have T := w.tryParts hP
    obtain ⟨hg, c1, m1, q1, q2, q3, q4⟩ := (ih1 fs k m w hu hr he).2 hof
    obtain ⟨B, f1, w2, hsim⟩ := T.final rfl
    have q2 : find (.finL i) P = some c1 := q2
    rw [f1] at q2
    cases q2
    have e2 : m1.err none = none := by simpa [innerDest] using q3.merr
    by_cases hr1 : m1.res = none
    · have ih2 := ih2 _ _ m1 w2 q3.user hr1 e2
      have hd : dest isinst (.final i :: fs) o' = dest isinst fs o' := by cases o' <;> rfl
      have hg : guardO (.final i :: fs) o' = guardO fs o' := by cases o' <;> rfl
      rw [hd, hg] at ih2
      refine ih2.mono (q1.trans st_label) (fun _ h => h) ?_ ?_
      · intro hl hf
        rcases dest_lab _ _ _ hl with h | h <;> contradiction
      · intro j hj
        have hj' := hj
        simp only [Stmt.ids, List.mem_cons, List.mem_append, not_or] at hj'
        obtain ⟨p1, p2⟩ := q4 j hj (by intro c h; simp [innerDest] at h; exact hj'.1 h.1.symm)
        exact ⟨hj'.2.2.2.2, p1, fun h => ⟨h, p2 h⟩⟩
    · have hret : ∃ v, o = .ret v := by
        cases o with
        | ret v => exact ⟨v, rfl⟩
        | _ => exact absurd q3.res hr1
      obtain ⟨v, hv⟩ := hret
      have := exec_ret hin v hv
      have hsim : F.simple = true := by
        rcases hsim with h | h
        · exact h
        · rw [h] at this; cases this
      rcases simple_run hP hF F rfl hsim (.final i :: fs) _ m1 w2.suf q3.user with ⟨r, _⟩ | ⟨r, r2⟩
      · exact absurd r hne
      · subst r
        exact ⟨fun _ => q1.trans (st_label.trans r2), fun h => absurd rfl h⟩
  | withFail i en s ex a b _ ih =>
    intro fs k m w hu hr he
    subst hu
    obtain ⟨w1, f1, B, f2⟩ := w.withParts hP
    rw [code_with]
    refine ⟨fun _ => ?_, fun h => absurd rfl h⟩
    exact .trans (b := .run (.op (fun m => some (m.setFin i 0)) :: (code isinst (.withB i :: fs) s ++ (.goto (.finL i) :: .label (.post i) :: k)))
        ({ m with user := en m.user } : M σ Val Exc)) (st_op rfl)
      (.trans (st_op rfl) ((ih _ _ (({ m with user := en m.user } : M σ Val Exc).setFin i 0) w1 rfl hr he).1 rfl))
  | withS i en s ex a b o _ hof ih =>
    intro fs k m w hu hr he
    subst hu
    have nv := notin_errorVar w.nd
    have ni := (nd_notin w.nd).2
    obtain ⟨w1, f1, B, f2⟩ := w.withParts hP
    obtain ⟨hg, c1, m1, q1, q2, q3, q4⟩ := (ih _ _ (({ m with user := en m.user } : M σ Val Exc).setFin i 0) w1 rfl hr he).2 hof
    have start : Steps P (.run (code isinst fs (.withS i en s ex) ++ k) m) (.run c1 m1) := by
      rw [code_with]
      exact .trans (b := .run (.op (fun m => some (m.setFin i 0)) :: (code isinst (.withB i :: fs) s ++ (.goto (.finL i) :: .label (.post i) :: k)))
        ({ m with user := en m.user } : M σ Val Exc)) (st_op rfl) (.trans (st_op rfl) q1)
    have hpres : ∀ j, j ∉ (Stmt.withS i en s ex).ids → m1.fin j = m.fin j ∧ (errorVar fs ≠ some j → m1.err (some j) = m.err (some j)) := by
      intro j hj
      simp only [Stmt.ids, List.mem_cons, not_or] at hj
      have hne : ∀ c, dest isinst (.withB i :: fs) o ≠ .fin j c := by
        intro c h
        cases o with
        | normal => cases h
        | fail => cases h
        | ret v => simp [dest, destRet] at h; exact hj.1 h.1.symm
        | exc e => simp [dest, destExc] at h; exact hj.1 h.1.symm
        | brk => cases hg
        | cont => cases hg
      obtain ⟨p1, p2⟩ := q4 j hj.2 hne
      refine ⟨p1.trans (by simp [M.setFin, hj.1]), fun _ => p2 ?_⟩
      simp [errorVar, surrounding]
      exact fun h => hj.1 h.symm
    have haf : after fs o = true := by
      cases o with
      | exc e => exact outer_of_inert fs hg
      | brk => cases hg
      | cont => cases hg
      | _ => exact hg
    have key : Steps P (.run c1 m1) (.run (.label (.finL i) ::
        .op (fun m => some { m with user := ex (if m.fin i > 1 then m.err (some i) else none) m.user }) :: (dispatch isinst i fs ++ B)) m1) ∧
        m1.fin i = codeOf o ∧ m1.err none = none ∧ (∀ e, o = .exc e → m1.err (some i) = some e) := by
      cases o with
      | fail => contradiction
      | brk => cases hg
      | cont => cases hg
      | normal =>
        have hc : c1 = _ := q2
        subst hc
        refine ⟨st_goto f2, ?_, by simpa [dest] using q3.merr, fun e h => by cases h⟩
        rw [(q4 i ni (by simp [dest])).1]
        simp [M.setFin, codeOf]
      | ret v =>
        have q2 : find (.finL i) P = some c1 := q2
        rw [f2] at q2
        cases q2
        exact ⟨.refl _, q3.fin i 1 rfl, by simpa [dest, destRet] using q3.merr, fun e h => by cases h⟩
      | exc e =>
        have q2 : find (.finL i) P = some c1 := q2
        rw [f2] at q2
        cases q2
        exact ⟨.refl _, q3.fin i 2 rfl, by simpa [dest, destExc] using q3.merr, fun e' h => q3.excFin e' h i 2 rfl⟩
    obtain ⟨k1, k2, k3, k4⟩ := key
    have harg : (if m1.fin i > 1 then m1.err (some i) else none) = o.exitArg := by
      rw [k2]
      cases o with
      | exc e => simpa [codeOf, Outcome.exitArg] using k4 e rfl
      | brk => cases hg
      | cont => cases hg
      | _ => simp [codeOf, Outcome.exitArg]
    refine cleanup_end (m2 := { m1 with user := ex o.exitArg b }) w.env hof (start.trans (k1.trans (st_label.trans (st_op ?_)))) haf (nd_pos w.nd) f1 k2 k4 k3 rfl q3.res hpres
    simp only [harg, q3.user]

/-! ### Whole methods -/

theorem program_end (isinst : Exc → Ty → Bool) (s : Stmt σ Val Exc Ty) (h : s.ids.Nodup) :
    find .endL (program isinst s) = some [.label .endL] :=
  find_suffix (labels_nodup isinst s h) (List.suffix_append _ _)

theorem method_sim (s : Stmt σ Val Exc Ty) (hok : ok [] s = true) (hn : s.ids.Nodup) {a b : σ} {o : Outcome Val Exc}
    (h : Exec isinst (.stmt s) a o b) (m : M σ Val Exc) (hu : m.user = a) (hr : m.res = none) (he : m.err none = none) :
    (o = .fail → Steps (program isinst s) (.run (program isinst s) m) .failed) ∧
    (o ≠ .fail → o ≠ .brk ∧ o ≠ .cont ∧ ∃ m', Steps (program isinst s) (.run (program isinst s) m) (.run [] m') ∧
      m'.user = b ∧ m'.res = o.value ∧ m'.err none = o.exitArg) := by
  have hP := labels_nodup isinst s hn
  have hend := program_end isinst s hn
  have hp : program isinst s = code isinst [] s ++ (.goto .endL :: (blocks isinst [] s ++ [.label .endL])) := by
    simp [program]
  have w : Wf isinst (program isinst s) [] s (.goto .endL :: (blocks isinst [] s ++ [.label .endL])) := by
    refine ⟨hok, by simpa using hn, by rw [hp]; exact List.suffix_refl _, ?_, by rw [hend]; rfl, by simp⟩
    exact ⟨code isinst [] s ++ [.goto .endL], [.label .endL], by simp [program]⟩
  have c := sim hP h [] _ m w hu hr he
  rw [← hp] at c
  refine ⟨c.1, fun hf => ?_⟩
  obtain ⟨hg, c1, m1, q1, q2, q3, -⟩ := c.2 hf
  have fin : Steps (program isinst s) (.run c1 m1) (.run [] m1) := by
    cases o with
    | normal =>
      have hc : c1 = _ := q2
      subst hc
      exact (st_goto hend).trans st_label
    | fail => exact absurd rfl hf
    | brk => cases hg
    | cont => cases hg
    | ret v =>
      have q2 : find .endL (program isinst s) = some c1 := q2
      rw [hend] at q2
      cases q2
      exact st_label
    | exc e =>
      have q2 : find .endL (program isinst s) = some c1 := q2
      rw [hend] at q2
      cases q2
      exact st_label
  refine ⟨?_, ?_, m1, q1.trans fin, q3.user, q3.res, ?_⟩
  · rintro rfl; cases hg
  · rintro rfl; cases hg
  · rw [q3.merr]
    cases o with
    | brk => cases hg
    | cont => cases hg
    | _ => rfl

end Nagini.Cfg
