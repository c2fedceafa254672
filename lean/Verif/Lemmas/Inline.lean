import Verif.Spec.Inline
set_option linter.unusedVariables false
set_option linter.unusedSimpArgs false
namespace Nagini.Inline

/-- The Viper variables have the values of the variables of a call. -/
def Rel (p : List Nat) (fr : Frame) (s : Store) : Prop := ∀ x v, fr x = some v → s ⟨p, .user x⟩ = v

/-- The variable for exceptions is not one of the inlined call. -/
def ErrGood (A : Al) : Prop := A.err = ⟨A.path, .err⟩ ∨ ¬ A.path <+: A.err.path

theorem errNe {A : Al} (h : ErrGood A) (n : Name) (hn : n ≠ .err) : A.err ≠ ⟨A.path, n⟩ := by
  intro he
  rcases h with h | h
  · rw [h] at he; exact hn (by simpa using he.symm)
  · rw [he] at h; exact h (List.prefix_refl _)

theorem set_same (s : Store) (v : Var) (n : Int) : s.set v n v = n := by simp [Store.set]

theorem set_other (s : Store) {v u : Var} (n : Int) (h : u ≠ v) : s.set v n u = s u := by simp [Store.set, h]

theorem eval_ok {p : List Nat} {fr : Frame} {s : Store} (A : Al) (hp : A.path = p) (hr : Rel p fr s)
    (h₀ H₀ : Int → Nat → Int) : ∀ (e : Expr) (h : Int → Nat → Int) (v : Int), (h₀ = H₀ ∨ noOldE e) →
    eval fr h h₀ e = some v → teval s h H₀ (compE A e) = v := by
  intro e
  induction e with
  | lit n => intro h v _ he; simpa [eval, teval, compE] using he
  | var x => intro h v _ he; simp only [eval] at he; simp only [compE, teval, hp]; exact hr x v he
  | add a b iha ihb =>
    intro h v ho he
    simp only [eval] at he
    split at he
    · rename_i u v' h1 h2
      simp only [Option.some.injEq] at he
      simp only [compE, teval]
      rw [iha h u (ho.imp id (·.1)) h1, ihb h v' (ho.imp id (·.2)) h2, he]
    · simp at he
  | field a f ih =>
    intro h v ho he
    simp only [eval, Option.map_eq_some_iff] at he
    obtain ⟨o, h1, h2⟩ := he
    simp only [compE, teval]
    rw [ih h o ho h1, h2]
  | old a ih =>
    intro h v ho he
    rcases ho with rfl | ho
    · simp only [eval] at he
      simp only [compE, teval]
      exact ih h₀ v (.inl rfl) he
    · exact absurd ho id

theorem rel_set {p : List Nat} {fr : Frame} {s : Store} (hr : Rel p fr s) (x : Nat) (v : Int) :
    Rel p (fr.set x v) (s.set ⟨p, .user x⟩ v) := by
  intro y u hy
  simp only [Frame.set] at hy
  split at hy
  · rename_i h; subst h; simp only [Option.some.injEq] at hy; rw [set_same, hy]
  · rename_i h
    rw [set_other _ _ (by simp [h])]
    exact hr y u hy

/-- Stores that differ only in the variables of the program at a path. -/
def UserOnly (p : List Nat) (s s' : Store) : Prop := ∀ v, (∀ x, v ≠ ⟨p, .user x⟩) → s' v = s v

theorem simple_ok (A : Al) {fr fr' : Frame} {s : Store} (hr : Rel A.path fr s) (h₀ H₀ : Int → Nat → Int) (c : Simple)
    (w w' : World) (ho : h₀ = H₀ ∨ noOldS c) (he : execS h₀ fr w c = some (fr', w')) :
    ∃ s', trun H₀ (compS A c) s w = (.normal, s', w') ∧ Rel A.path fr' s' ∧ UserOnly A.path s s' := by
  cases c with
  | assign x e =>
    simp only [execS, Option.map_eq_some_iff, Prod.mk.injEq] at he
    obtain ⟨v, h1, rfl, rfl⟩ := he
    refine ⟨s.set ⟨A.path, .user x⟩ v, ?_, rel_set hr x v, fun u hu => set_other _ _ (hu x)⟩
    simp only [compS, trun]
    rw [eval_ok A rfl hr h₀ H₀ e w.heap v ho h1]
  | store a f e =>
    simp only [execS] at he
    split at he
    · rename_i o v h1 h2
      simp only [Option.some.injEq, Prod.mk.injEq] at he
      obtain ⟨rfl, rfl⟩ := he
      refine ⟨s, ?_, hr, fun _ _ => rfl⟩
      simp only [compS, trun]
      rw [eval_ok A rfl hr h₀ H₀ a w.heap o (ho.imp id (·.1)) h1, eval_ok A rfl hr h₀ H₀ e w.heap v (ho.imp id (·.2)) h2]
    · simp at he
  | check e =>
    simp only [execS, Option.map_eq_some_iff, Prod.mk.injEq] at he
    obtain ⟨v, h1, rfl, rfl⟩ := he
    refine ⟨s, ?_, hr, fun _ _ => rfl⟩
    simp only [compS, trun]
    rw [eval_ok A rfl hr h₀ H₀ e w.heap v ho h1]

theorem simples_ok (A : Al) (h₀ H₀ : Int → Nat → Int) : ∀ (l : List Simple) (fr fr' : Frame) (s : Store) (w w' : World),
    Rel A.path fr s → (h₀ = H₀ ∨ ∀ c ∈ l, noOldS c) → execSs h₀ l fr w = some (fr', w') →
    ∃ s', trun H₀ (compSs A l) s w = (.normal, s', w') ∧ Rel A.path fr' s' ∧ UserOnly A.path s s' := by
  intro l
  induction l with
  | nil =>
    intro fr fr' s w w' hr _ he
    simp only [execSs, Option.some.injEq, Prod.mk.injEq] at he
    obtain ⟨rfl, rfl⟩ := he
    exact ⟨s, rfl, hr, fun _ _ => rfl⟩
  | cons c l ih =>
    intro fr fr' s w w' hr ho he
    simp only [execSs] at he
    split at he
    · rename_i fr1 w1 h1
      obtain ⟨s1, a1, a2, a3⟩ := simple_ok A hr h₀ H₀ c w w1 (ho.imp id (fun h => h c (by simp))) h1
      obtain ⟨s2, b1, b2, b3⟩ := ih fr1 fr' s1 w1 w' a2 (ho.imp id (fun h c hc => h c (by simp [hc]))) he
      refine ⟨s2, ?_, b2, fun v hv => (b3 v hv).trans (a3 v hv)⟩
      simp only [compSs, trun, a1, b1]
    · simp at he

/-- The jump for an outcome. -/
def OutRel (c : Ctx) (o : Out) (t : TOut) (s : Store) : Prop :=
  match o with
  | .normal => t = .normal ∧ s c.al.err = 0
  | .ret v => s ⟨c.al.path, .res⟩ = v ∧ s c.al.err = 0 ∧
      (match firstFin c.tries with
      | none => t = .toEnd
      | some j => t = .toFin ∧ s ⟨c.al.path, .fin j⟩ = 1)
  | .exc n =>
    match c.tries with
    | [] => t = .toEnd ∧ s c.al.err = n + 1
    | (false, _) :: _ => t = .toTry ∧ s c.al.err = 0
    | (true, i) :: _ => t = .toFin ∧ s ⟨c.al.path, .fin i⟩ = 2 ∧ s ⟨c.al.path, .errOf i⟩ = n + 1 ∧ s c.al.err = 0

/-- The code of a statement does what the statement does. -/
structure Sim (c : Ctx) (blk : List Nat) (o : Out) (fr : Frame) (w : World) (s : Store) (r : TOut × Store × World) :
    Prop where
  world : r.2.2 = w
  rel : Rel c.al.path fr r.2.1
  out : OutRel c o r.1 r.2.1
  frame : ∀ v, ¬ c.al.path <+: v.path → v ≠ c.al.err → r.2.1 v = s v
  fin : ∀ j, j ∉ blk → (∀ v, o = .ret v → firstFin c.tries ≠ some j) → (∀ n, o = .exc n → c.tries.head? ≠ some (true, j)) →
    r.2.1 ⟨c.al.path, .fin j⟩ = s ⟨c.al.path, .fin j⟩

theorem firstFin_false (i : Nat) (t : List (Bool × Nat)) : firstFin ((false, i) :: t) = firstFin t := by
  simp [firstFin]

theorem firstFin_true (i : Nat) (t : List (Bool × Nat)) : firstFin ((true, i) :: t) = some i := by
  simp [firstFin]

/-- Statements for which the code is right. -/
theorem ret_ok (c : Ctx) (hg : ErrGood c.al) (h₀ H₀ : Int → Nat → Int) (e : Expr) (fr : Frame) (w : World) (v : Int)
    (s : Store) (blk : List Nat)
    (ho : h₀ = H₀ ∨ noOldE e) (he : eval fr w.heap h₀ e = some v) (hok : retOk c.al c.tries = true)
    (hr : Rel c.al.path fr s) (hs : s c.al.err = 0) :
    Sim c blk (.ret v) fr w s (trun H₀ (compRet c.al c.tries e) s w) := by
  have hv := eval_ok c.al rfl hr h₀ H₀ e w.heap v ho he
  have hr1 : Rel c.al.path fr (s.set ⟨c.al.path, .res⟩ v) := fun x u hx => by
    rw [set_other _ _ (by simp)]; exact hr x u hx
  cases hf : firstFin c.tries with
  | none =>
    have : trun H₀ (compRet c.al c.tries e) s w = (.toEnd, s.set ⟨c.al.path, .res⟩ v, w) := by
      simp only [compRet, hf, trun, hv]
    rw [this]
    refine ⟨rfl, hr1, ?_, ?_, ?_⟩
    · simp only [OutRel, hf]
      exact ⟨set_same _ _ _, by rw [set_other _ _ (errNe hg _ (by simp))]; exact hs, trivial⟩
    · intro u hu _
      exact set_other _ _ (fun he => hu (by rw [he]; exact List.prefix_refl _))
    · intro j _ _ _
      exact set_other _ _ (by simp)
  | some i =>
    have hp : c.al.path = [] := by simpa [retOk, hf] using hok
    have : trun H₀ (compRet c.al c.tries e) s w =
        (.toFin, (s.set ⟨c.al.path, .res⟩ v).set ⟨c.al.path, .fin i⟩ 1, w) := by
      simp only [compRet, hf, trun, hv, teval, hp]
    rw [this]
    refine ⟨rfl, ?_, ?_, ?_, ?_⟩
    · intro x u hx
      show Store.set _ _ _ _ = u
      rw [set_other _ _ (by simp)]; exact hr1 x u hx
    · simp only [OutRel, hf]
      refine ⟨?_, ?_, trivial, set_same _ _ _⟩
      · rw [set_other _ _ (by simp), set_same]
      · rw [set_other _ _ (errNe hg _ (by simp)), set_other _ _ (errNe hg _ (by simp))]; exact hs
    · intro u hu _
      show Store.set _ _ _ _ = s u
      rw [set_other _ _ (fun he => hu (by rw [he]; exact List.prefix_refl _)), set_other _ _ (fun he => hu (by rw [he]; exact List.prefix_refl _))]
    · intro j _ h1 _
      have hj : i ≠ j := by
        intro h; subst h; exact h1 v rfl hf
      show Store.set _ _ _ _ = s _
      rw [set_other _ _ (by simpa using Ne.symm hj), set_other _ _ (by simp)]

/-- Checks for exceptions, if there is one. -/
theorem throw_ok (c : Ctx) (hg : ErrGood c.al) (H₀ : Int → Nat → Int) (n : Nat) (fr : Frame) (w : World) (s s' : Store)
    (blk : List Nat) (hr : Rel c.al.path fr s') (hp : s' (errPlace c) = n + 1)
    (hs : c.tries ≠ [] → s' c.al.err = 0)
    (hfr : ∀ v, ¬ c.al.path <+: v.path → v ≠ c.al.err → s' v = s v)
    (hfin : ∀ j, s' ⟨c.al.path, .fin j⟩ = s ⟨c.al.path, .fin j⟩) :
    Sim c blk (.exc n) fr w s (trun H₀ (catchers c) s' w) := by
  have hne : (n : Int) + 1 ≠ 0 := by omega
  have h0 : trun H₀ (catchers c) s' w = trun H₀ (throw c) s' w := by
    simp only [catchers, trun, teval, hp, hne, ne_eq, not_false_eq_true, if_true]
  rw [h0]
  cases ht : c.tries with
  | nil =>
    have hq : errPlace c = c.al.err := by simp only [errPlace, ht]
    have hset : s'.set c.al.err (s' (errPlace c)) = s' := by
      funext u
      by_cases hu : u = c.al.err
      · subst hu; rw [set_same, hq]
      · rw [set_other _ _ hu]
    have : trun H₀ (throw c) s' w = (.toEnd, s', w) := by
      simp only [throw, ht, trun, teval, hset]
    rw [this]
    exact ⟨rfl, hr, by simp only [OutRel, ht]; exact ⟨trivial, by rw [← hq]; exact hp⟩, hfr, fun j _ _ _ => hfin j⟩
  | cons q t =>
    have h1 := hs (by simp [ht])
    obtain ⟨b, i⟩ := q
    cases b with
    | false =>
      have : trun H₀ (throw c) s' w = (.toTry, s', w) := by simp only [throw, ht, trun]
      rw [this]
      exact ⟨rfl, hr, by simp only [OutRel, ht]; exact ⟨trivial, h1⟩, hfr, fun j _ _ _ => hfin j⟩
    | true =>
      have hq : errPlace c = ⟨c.al.path, .errOf i⟩ := by simp only [errPlace, ht]
      have : trun H₀ (throw c) s' w = (.toFin, s'.set ⟨c.al.path, .fin i⟩ 2, w) := by
        simp only [throw, ht, trun, teval]
      rw [this]
      refine ⟨rfl, ?_, ?_, ?_, ?_⟩
      · intro x u hx
        show Store.set _ _ _ _ = u
        rw [set_other _ _ (by simp)]; exact hr x u hx
      · simp only [OutRel, ht]
        refine ⟨trivial, set_same _ _ _, ?_, ?_⟩
        · rw [set_other _ _ (by simp), ← hq]; exact hp
        · rw [set_other _ _ (errNe hg _ (by simp))]; exact h1
      · intro u hu hu2
        show Store.set _ _ _ _ = s u
        rw [set_other _ _ (fun he => hu (by rw [he]; exact List.prefix_refl _))]; exact hfr u hu hu2
      · intro j _ _ h2
        have hj : i ≠ j := by
          intro h; subst h; exact h2 n rfl (by simp [ht])
        show Store.set _ _ _ _ = s _
        rw [set_other _ _ (by simpa using Ne.symm hj)]; exact hfin j

/-- Assignments to parameters. -/
theorem bind_ok (A : Al) (p : List Nat) (hp : p ≠ A.path) (H₀ h₀ : Int → Nat → Int) (fr : Frame) (w : World) :
    ∀ (ps : List Nat) (es : List Expr) (vs : List Int) (fr0 : Frame) (s : Store), Rel A.path fr s → Rel p fr0 s →
    (h₀ = H₀ ∨ ∀ e ∈ es, noOldE e) → evals fr w.heap h₀ es = some vs →
    ∃ s', trun H₀ (bind A p ps es) s w = (.normal, s', w) ∧ Rel p (enter ps vs fr0) s' ∧ UserOnly p s s' := by
  intro ps
  induction ps with
  | nil =>
    intro es vs fr0 s hr h0 ho he
    refine ⟨s, by simp [bind, trun], ?_, fun _ _ => rfl⟩
    simpa [enter] using h0
  | cons x ps ih =>
    intro es vs fr0 s hr h0 ho he
    cases es with
    | nil =>
      simp only [evals, Option.some.injEq] at he
      subst he
      exact ⟨s, by simp [bind, trun], by simpa [enter] using h0, fun _ _ => rfl⟩
    | cons e es =>
      simp only [evals] at he
      split at he
      · rename_i v vs' h1 h2
        simp only [Option.some.injEq] at he
        subst he
        have hv := eval_ok A rfl hr h₀ H₀ e w.heap v (ho.imp id (fun h => h e (by simp))) h1
        have hr1 : Rel A.path fr (s.set ⟨p, .user x⟩ v) := fun y u hy => by
          rw [set_other _ _ (by simp; intro h; exact absurd h.symm hp)]; exact hr y u hy
        obtain ⟨s', a1, a2, a3⟩ := ih es vs' (fr0.set x v) (s.set ⟨p, .user x⟩ v) hr1 (rel_set h0 x v)
          (ho.imp id (fun h e he => h e (by simp [he]))) h2
        refine ⟨s', ?_, a2, fun u hu => (a3 u hu).trans (set_other _ _ (hu x))⟩
        simp only [bind, trun, hv, a1]
      · simp at he

theorem not_prefix_append (p : List Nat) (x : Nat) : ¬ (p ++ [x]) <+: p := by
  intro h
  have := h.length_le
  simp at this
  omega

theorem errGood_callee (P : Prog) (c : Ctx) (hg : ErrGood c.al) (site m : Nat) (args : List Expr) :
    ErrGood (calleeCtx P c site m args).al := by
  right
  show ¬ (c.al.path ++ [site]) <+: (errPlace c).path
  simp only [errPlace]
  split
  · rcases hg with hg | hg
    · rw [hg]; exact not_prefix_append _ _
    · intro h
      exact hg ((List.prefix_append _ _).trans h)
  · exact not_prefix_append _ _

/-- What is required of programs. -/
structure Fine (P : Prog) : Prop where
  nested : ∀ m, Nested false (P m).body
  noObj : ∀ m, noObj (P m).body
  typed : ∀ m, Typed P (P m).params.head? (P m).body
  noOld : ∀ m, ∀ m' ∈ calls (P m).body, noOld (P m').body

/-- The code of statements is right if that of called methods is. -/
def CodeOk (P : Prog) (T : Nat × Nat → Al) (H₀ : Int → Nat → Int) (d' : Nat) : Prop :=
  ∀ (d : Nat) (stk : List Nat) (c : Ctx) (m : Nat) (vs : List Int) (w w' : World) (o : Out) (s : Store),
    c.meth = m → c.tries = [] → c.al.unbound = [] → ErrGood c.al → noOld (P m).body →
    accept P T d stk c (P m).body = true → (∀ e ∈ writes P d c (P m).body, T e.1 = e.2) →
    Rel c.al.path (enter (P m).params vs (fun _ => none)) s → s c.al.err = 0 →
    callM P d' m vs w = some (o, w') →
    ∃ fr', Sim c (blocks (P m).body) o fr' w' s (trun H₀ (comp P T d c (P m).body) s w)

theorem sim_stmt (P : Prog) (hF : Fine P) (T : Nat × Nat → Al) (H₀ : Int → Nat → Int) (d' : Nat)
    (hk : CodeOk P T H₀ d') (h₀ : Int → Nat → Int) (d : Nat) (stk : List Nat) : ∀ (st : Stmt) (c : Ctx) (fr fr' : Frame)
    (w w' : World) (o : Out) (s : Store),
    c.al.unbound = [] → ErrGood c.al → (h₀ = H₀ ∨ noOld st) → (∀ m ∈ calls st, noOld (P m).body) →
    Nested ((c.tries.head?.map (·.1)).getD false) st → noObj st → Typed P (P c.meth).params.head? st →
    accept P T d stk c st = true → (∀ e ∈ writes P d c st, T e.1 = e.2) →
    Rel c.al.path fr s → s c.al.err = 0 →
    execWith (callM P d') (P c.meth).params.head? h₀ st fr w = some (o, fr', w') →
    Sim c (blocks st) o fr' w' s (trun H₀ (comp P T d c st) s w) := by
  have hcw : ∀ (c : Ctx) (st : Stmt), ∃ k, comp P T d c st = compWith P T k c st := by
    intro c st; cases d <;> exact ⟨_, rfl⟩
  intro st
  induction st with
  | skip =>
    intro c fr fr' w w' o s hu hg ho hc hn hob ht ha hw hr hs he
    simp only [execWith, Option.some.injEq, Prod.mk.injEq] at he
    obtain ⟨rfl, rfl, rfl⟩ := he
    have : trun H₀ (comp P T d c .skip) s w = (.normal, s, w) := by cases d <;> rfl
    rw [this]
    exact ⟨rfl, hr, ⟨rfl, hs⟩, fun _ _ _ => rfl, fun _ _ _ _ => rfl⟩
  | simple cm =>
    intro c fr fr' w w' o s hu hg ho hc hn hob ht ha hw hr hs he
    simp only [execWith] at he
    split at he
    · rename_i fr1 w1 h1
      simp only [Option.some.injEq, Prod.mk.injEq] at he
      obtain ⟨rfl, rfl, rfl⟩ := he
      obtain ⟨s', a1, a2, a3⟩ := simple_ok c.al hr h₀ H₀ cm w w1 ho h1
      have : trun H₀ (comp P T d c (.simple cm)) s w = (.normal, s', w1) := by
        rw [← a1]; cases d <;> rfl
      rw [this]
      refine ⟨rfl, a2, ⟨rfl, ?_⟩, ?_, ?_⟩
      · show s' _ = 0
        rw [a3 _ (fun x => errNe hg _ (by simp))]; exact hs
      · intro v hv _
        exact a3 v (fun x he => hv (by rw [he]; exact List.prefix_refl _))
      · intro j _ _ _
        exact a3 _ (fun x => by simp)
    · simp at he
  | seq a b iha ihb =>
    intro c fr fr' w w' o s hu hg ho hc hn hob ht ha hw hr hs he
    have ha' : accept P T d stk c a = true ∧ accept P T d stk c b = true := by
      cases d <;> simpa [accept, acceptWith, Bool.and_eq_true] using ha
    have hw' : (∀ e ∈ writes P d c a, T e.1 = e.2) ∧ (∀ e ∈ writes P d c b, T e.1 = e.2) := by
      have : writes P d c (.seq a b) = writes P d c a ++ writes P d c b := by cases d <;> rfl
      rw [this] at hw
      exact ⟨fun e h => hw e (List.mem_append_left _ h), fun e h => hw e (List.mem_append_right _ h)⟩
    have hcode : trun H₀ (comp P T d c (.seq a b)) s w = trun H₀ (.seq (comp P T d c a) (comp P T d c b)) s w := by
      cases d <;> rfl
    simp only [execWith] at he
    rw [hcode]
    have ho1 : h₀ = H₀ ∨ noOld a := ho.imp id (·.1)
    have ho2 : h₀ = H₀ ∨ noOld b := ho.imp id (·.2)
    have hc1 : ∀ m ∈ calls a, noOld (P m).body := fun m hm => hc m (List.mem_append_left _ hm)
    have hc2 : ∀ m ∈ calls b, noOld (P m).body := fun m hm => hc m (List.mem_append_right _ hm)
    cases hx : execWith (callM P d') (P c.meth).params.head? h₀ a fr w with
    | none => rw [hx] at he; simp at he
    | some q =>
      obtain ⟨o1, fr1, w1⟩ := q
      have S1 := iha c fr fr1 w w1 o1 s hu hg ho1 hc1 hn.1 hob.1 ht.1 ha'.1 hw'.1 hr hs hx
      rw [hx] at he
      cases hq : trun H₀ (comp P T d c a) s w with
      | mk t1 q1 =>
      obtain ⟨s1, w2⟩ := q1
      rw [hq] at S1
      have hw12 : w2 = w1 := S1.world
      subst hw12
      cases o1 with
      | normal =>
        simp only at he
        have h1 : t1 = .normal := S1.out.1
        subst h1
        have S2 := ihb c fr1 fr' w2 w' o s1 hu hg ho2 hc2 hn.2 hob.2 ht.2 ha'.2 hw'.2 S1.rel S1.out.2 he
        simp only [trun, hq]
        refine ⟨S2.world, S2.rel, S2.out, ?_, ?_⟩
        · intro v h1 h2
          exact (S2.frame v h1 h2).trans (S1.frame v h1 h2)
        · intro j hj h1 h2
          simp only [blocks, List.mem_append, not_or] at hj
          exact (S2.fin j hj.2 h1 h2).trans (S1.fin j hj.1 (by simp) (by simp))
      | ret v =>
        simp only [Option.some.injEq, Prod.mk.injEq] at he
        obtain ⟨rfl, rfl, rfl⟩ := he
        have h1 : t1 ≠ .normal := by
          have := S1.out
          simp only [OutRel] at this
          intro h; subst h
          split at this <;> simp at this
        have : trun H₀ (.seq (comp P T d c a) (comp P T d c b)) s w = (t1, s1, w2) := by
          simp only [trun, hq]
          cases t1 <;> first | rfl | exact absurd rfl h1
        rw [this]
        refine ⟨rfl, S1.rel, S1.out, S1.frame, ?_⟩
        intro j hj h1 h2
        simp only [blocks, List.mem_append, not_or] at hj
        exact S1.fin j hj.1 h1 h2
      | exc n =>
        simp only [Option.some.injEq, Prod.mk.injEq] at he
        obtain ⟨rfl, rfl, rfl⟩ := he
        have h1 : t1 ≠ .normal := by
          have := S1.out
          simp only [OutRel] at this
          intro h; subst h
          split at this <;> simp at this
        have : trun H₀ (.seq (comp P T d c a) (comp P T d c b)) s w = (t1, s1, w2) := by
          simp only [trun, hq]
          cases t1 <;> first | rfl | exact absurd rfl h1
        rw [this]
        refine ⟨rfl, S1.rel, S1.out, S1.frame, ?_⟩
        intro j hj h1 h2
        simp only [blocks, List.mem_append, not_or] at hj
        exact S1.fin j hj.1 h1 h2
  | ite e a b iha ihb =>
    intro c fr fr' w w' o s hu hg ho hc hn hob ht ha hw hr hs he
    have ha' : accept P T d stk c a = true ∧ accept P T d stk c b = true := by
      cases d <;> (simp only [accept, acceptWith, Bool.and_eq_true] at ha; exact ha.2)
    have hw' : (∀ e ∈ writes P d c a, T e.1 = e.2) ∧ (∀ e ∈ writes P d c b, T e.1 = e.2) := by
      have : writes P d c (.ite e a b) = writes P d c a ++ writes P d c b := by cases d <;> rfl
      rw [this] at hw
      exact ⟨fun e h => hw e (List.mem_append_left _ h), fun e h => hw e (List.mem_append_right _ h)⟩
    have hcode : trun H₀ (comp P T d c (.ite e a b)) s w =
        trun H₀ (.ite (compE c.al e) (comp P T d c a) (comp P T d c b)) s w := by cases d <;> rfl
    have hc1 : ∀ m ∈ calls a, noOld (P m).body := fun m hm => hc m (List.mem_append_left _ hm)
    have hc2 : ∀ m ∈ calls b, noOld (P m).body := fun m hm => hc m (List.mem_append_right _ hm)
    simp only [execWith] at he
    split at he
    · rename_i v hv
      have hv' := eval_ok c.al rfl hr h₀ H₀ e w.heap v (ho.imp id (·.1)) hv
      rw [hcode]
      simp only [trun, hv']
      by_cases h : v ≠ 0
      · rw [if_pos h] at he ⊢
        have S := iha c fr fr' w w' o s hu hg (ho.imp id (·.2.1)) hc1 hn.1 hob.1 ht.1 ha'.1 hw'.1 hr hs he
        exact ⟨S.world, S.rel, S.out, S.frame, fun j hj => S.fin j (fun h => hj (List.mem_append_left _ h))⟩
      · rw [if_neg h] at he ⊢
        have S := ihb c fr fr' w w' o s hu hg (ho.imp id (·.2.2)) hc2 hn.2 hob.2 ht.2 ha'.2 hw'.2 hr hs he
        exact ⟨S.world, S.rel, S.out, S.frame, fun j hj => S.fin j (fun h => hj (List.mem_append_right _ h))⟩
    · simp at he
  | ret e =>
    intro c fr fr' w w' o s hu hg ho hc hn hob ht ha hw hr hs he
    have ha' : retOk c.al c.tries = true := by
      cases d <;> (simp only [accept, acceptWith, Bool.and_eq_true] at ha; exact ha.2)
    have hcode : comp P T d c (.ret e) = compRet c.al c.tries e := by cases d <;> rfl
    simp only [execWith] at he
    split at he
    · rename_i v hv
      simp only [Option.some.injEq, Prod.mk.injEq] at he
      obtain ⟨rfl, rfl, rfl⟩ := he
      rw [hcode]
      exact ret_ok c hg h₀ H₀ e fr w v s _ ho hv ha' hr hs
    · simp at he
  | raise n =>
    intro c fr fr' w w' o s hu hg ho hc hn hob ht ha hw hr hs he
    simp only [execWith, Option.some.injEq, Prod.mk.injEq] at he
    obtain ⟨rfl, rfl, rfl⟩ := he
    have hcode : trun H₀ (comp P T d c (.raise n)) s w =
        trun H₀ (catchers c) (s.set (errPlace c) (n + 1)) w := by
      cases d <;> rfl
    rw [hcode]
    have hpl : errPlace c = c.al.err ∨ ∃ i, errPlace c = ⟨c.al.path, .errOf i⟩ := by
      simp only [errPlace]; split
      · exact .inl rfl
      · exact .inr ⟨_, rfl⟩
    have hne : ∀ nm, nm ≠ .err → (∀ i, nm ≠ .errOf i) → (⟨c.al.path, nm⟩ : Var) ≠ errPlace c := by
      intro nm h1 h2
      rcases hpl with h | ⟨i, h⟩ <;> rw [h]
      · exact (errNe hg nm h1).symm
      · intro h; exact h2 i (by simpa using h)
    refine throw_ok c hg H₀ n fr w s _ _ ?_ (set_same _ _ _) ?_ ?_ ?_
    · intro x v hx
      rw [set_other _ _ (hne _ (by simp) (by simp))]; exact hr x v hx
    · intro hne2
      cases ht2 : c.tries with
      | nil => exact absurd ht2 hne2
      | cons q t =>
        have : errPlace c = ⟨c.al.path, .errOf q.2⟩ := by simp only [errPlace, ht2]
        rw [this, set_other _ _ (errNe hg _ (by simp))]; exact hs
    · intro v h1 h2
      refine set_other _ _ ?_
      rcases hpl with h | ⟨i, h⟩ <;> rw [h]
      · exact h2
      · intro he; exact h1 (by rw [he]; exact List.prefix_refl _)
    · intro j
      exact set_other _ _ (hne _ (by simp) (by simp))
  | tryEx i b h r ih =>
    intro c fr fr' w w' o s hu hg ho hc hn hob ht ha hw hr hs he
    have hT : T (c.meth, i) = c.al := by
      have hx : writes P d c (.tryEx i b h r) =
        writes P d ⟨c.meth, c.al, (false, i) :: c.tries⟩ b ++ [((c.meth, i), c.al)] := by cases d <;> rfl
      rw [hx] at hw
      exact hw ((c.meth, i), c.al) (by simp)
    have hwb : ∀ e ∈ writes P d ⟨c.meth, c.al, (false, i) :: c.tries⟩ b, T e.1 = e.2 := by
      have hx : writes P d c (.tryEx i b h r) =
        writes P d ⟨c.meth, c.al, (false, i) :: c.tries⟩ b ++ [((c.meth, i), c.al)] := by cases d <;> rfl
      rw [hx] at hw
      exact fun e he => hw e (List.mem_append_left _ he)
    have ha' : accept P T d stk ⟨c.meth, c.al, (false, i) :: c.tries⟩ b = true ∧
        (∀ e, r = some e → retOk c.al c.tries = true) := by
      have : accept P T d stk ⟨c.meth, c.al, (false, i) :: c.tries⟩ b = true ∧
        handlerOk (T (c.meth, i)) c.tries h r = true := by
        cases d <;> (simp only [accept, acceptWith] at ha; exact Bool.and_eq_true_iff.1 ha)
      refine ⟨this.1, ?_⟩
      rintro e rfl
      have h2 := this.2
      rw [hT] at h2
      simp only [handlerOk, Bool.and_eq_true] at h2
      exact h2.2.2
    have hcode : comp P T d c (.tryEx i b h r) = .tryEx (comp P T d ⟨c.meth, c.al, (false, i) :: c.tries⟩ b)
      (compHandler (T (c.meth, i)) c.tries h r) := by cases d <;> rfl
    rw [hcode, hT]
    have hne : ∀ n : Nat, (some (false, i) : Option (Bool × Nat)) ≠ some (true, n) := by simp
    simp only [execWith] at he
    cases hx : execWith (callM P d') (P c.meth).params.head? h₀ b fr w with
    | none => rw [hx] at he; simp at he
    | some q =>
      obtain ⟨o1, fr1, w1⟩ := q
      have S1 := ih ⟨c.meth, c.al, (false, i) :: c.tries⟩ fr fr1 w w1 o1 s hu hg (ho.imp id (·.1)) hc hn hob ht ha'.1 hwb
        hr hs hx
      rw [hx] at he
      cases hq : trun H₀ (comp P T d ⟨c.meth, c.al, (false, i) :: c.tries⟩ b) s w with
      | mk t1 q1 =>
      obtain ⟨s1, w2⟩ := q1
      rw [hq] at S1
      have hw12 : w2 = w1 := S1.world
      subst hw12
      cases o1 with
      | normal =>
        simp only [Option.some.injEq, Prod.mk.injEq] at he
        obtain ⟨rfl, rfl, rfl⟩ := he
        have h1 : t1 = .normal := S1.out.1
        subst h1
        simp only [trun, hq]
        exact ⟨rfl, S1.rel, ⟨rfl, S1.out.2⟩, S1.frame, fun j hj _ _ =>
          S1.fin j (fun h => hj (List.mem_cons_of_mem _ h)) (by simp) (by simp)⟩
      | ret v =>
        simp only [Option.some.injEq, Prod.mk.injEq] at he
        obtain ⟨rfl, rfl, rfl⟩ := he
        have hout : OutRel c (.ret v) t1 s1 := by
          have := S1.out
          simp only [OutRel, firstFin_false] at this ⊢
          exact this
        have h1 : t1 ≠ .toTry := by
          intro h; subst h
          simp only [OutRel] at hout
          split at hout <;> simp at hout
        have : trun H₀ (.tryEx (comp P T d ⟨c.meth, c.al, (false, i) :: c.tries⟩ b) (compHandler c.al c.tries h r)) s w =
            (t1, s1, w2) := by
          simp only [trun, hq]
          cases t1 <;> first | rfl | exact absurd rfl h1
        rw [this]
        exact ⟨rfl, S1.rel, hout, S1.frame, fun j hj h1 _ =>
          S1.fin j (fun h => hj (List.mem_cons_of_mem _ h)) (fun v hv => by rw [firstFin_false]; exact h1 v hv) (by simp)⟩
      | exc n =>
        have h1 : t1 = .toTry := S1.out.1
        subst h1
        have hs1 : s1 c.al.err = 0 := S1.out.2
        simp only at he
        cases hh : execSs h₀ h fr1 w2 with
        | none => rw [hh] at he; simp at he
        | some q2 =>
        obtain ⟨fr2, w3⟩ := q2
        rw [hh] at he
        simp only at he
        obtain ⟨s2, a1, a2, a3⟩ := simples_ok c.al h₀ H₀ h fr1 fr2 s1 w2 w3 S1.rel (ho.imp id (·.2.1)) hh
        have hs2 : s2 c.al.err = 0 := by rw [a3 _ (fun x => errNe hg _ (by simp))]; exact hs1
        have hfr2 : ∀ v, ¬ c.al.path <+: v.path → v ≠ c.al.err → s2 v = s v := fun v h1 h2 =>
          (a3 v (fun x he => h1 (by rw [he]; exact List.prefix_refl _))).trans (S1.frame v h1 h2)
        have hfin2 : ∀ j, j ∉ i :: blocks b → s2 ⟨c.al.path, .fin j⟩ = s ⟨c.al.path, .fin j⟩ := fun j hj =>
          (a3 _ (fun x => by simp)).trans
            (S1.fin j (fun h => hj (List.mem_cons_of_mem _ h)) (by simp) (fun n hn => by simp))
        cases r with
        | none =>
          simp only [Option.some.injEq, Prod.mk.injEq] at he
          obtain ⟨rfl, rfl, rfl⟩ := he
          have : trun H₀ (.tryEx (comp P T d ⟨c.meth, c.al, (false, i) :: c.tries⟩ b) (compHandler c.al c.tries h none)) s w =
            (.normal, s2, w3) := by
            simp only [trun, hq, compHandler, a1]
          rw [this]
          exact ⟨rfl, a2, ⟨rfl, hs2⟩, hfr2, fun j hj _ _ => hfin2 j hj⟩
        | some e =>
          simp only at he
          cases hv : eval fr2 w3.heap h₀ e with
          | none => rw [hv] at he; simp at he
          | some v =>
          rw [hv] at he
          simp only [Option.some.injEq, Prod.mk.injEq] at he
          obtain ⟨rfl, rfl, rfl⟩ := he
          have : trun H₀ (.tryEx (comp P T d ⟨c.meth, c.al, (false, i) :: c.tries⟩ b) (compHandler c.al c.tries h (some e))) s w =
            trun H₀ (compRet c.al c.tries e) s2 w3 := by
            simp only [trun, hq, compHandler, a1]
          rw [this]
          have S3 := ret_ok c hg h₀ H₀ e fr2 w3 v s2 (i :: blocks b) (ho.imp id (fun h => h.2.2 e rfl)) hv (ha'.2 e rfl)
            a2 hs2
          exact ⟨S3.world, S3.rel, S3.out, fun u h1 h2 => (S3.frame u h1 h2).trans (hfr2 u h1 h2), fun j hj h1 h2 =>
            (S3.fin j hj h1 h2).trans (hfin2 j hj)⟩
  | tryFin i b f ih =>
    intro c fr fr' w w' o s hu hg ho hc hn hob ht ha hw hr hs he
    obtain ⟨hhead, hib, hnb⟩ := hn
    have hwb : ∀ e ∈ writes P d ⟨c.meth, c.al, (true, i) :: c.tries⟩ b, T e.1 = e.2 := by
      have hx : writes P d c (.tryFin i b f) = writes P d ⟨c.meth, c.al, (true, i) :: c.tries⟩ b := by cases d <;> rfl
      rw [hx] at hw; exact hw
    have ha' : accept P T d stk ⟨c.meth, c.al, (true, i) :: c.tries⟩ b = true := by
      cases d <;> (simp only [accept, acceptWith] at ha; exact (Bool.and_eq_true_iff.1 ha).1)
    have hcode : trun H₀ (comp P T d c (.tryFin i b f)) s w =
      trun H₀ (.tryFin (comp P T d ⟨c.meth, c.al, (true, i) :: c.tries⟩ b) (.seq (compSs c.al f) (dispatch c i)))
        (s.set ⟨c.al.path, .fin i⟩ 0) w := by cases d <;> rfl
    rw [hcode]
    have hr0 : Rel c.al.path fr (s.set ⟨c.al.path, .fin i⟩ 0) := fun x v hx => by
      rw [set_other _ _ (by simp)]; exact hr x v hx
    have hs0 : (s.set ⟨c.al.path, .fin i⟩ 0) c.al.err = 0 := by
      rw [set_other _ _ (errNe hg _ (by simp))]; exact hs
    simp only [execWith] at he
    cases hx : execWith (callM P d') (P c.meth).params.head? h₀ b fr w with
    | none => rw [hx] at he; simp at he
    | some q =>
    obtain ⟨o1, fr1, w1⟩ := q
    rw [hx] at he
    simp only at he
    cases hh : execSs h₀ f fr1 w1 with
    | none => rw [hh] at he; simp at he
    | some q2 =>
    obtain ⟨fr2, w3⟩ := q2
    rw [hh] at he
    simp only [Option.some.injEq, Prod.mk.injEq] at he
    obtain ⟨rfl, rfl, rfl⟩ := he
    have S1 := ih ⟨c.meth, c.al, (true, i) :: c.tries⟩ fr fr1 w w1 o1 (s.set ⟨c.al.path, .fin i⟩ 0) hu hg
      (ho.imp id (·.1)) hc hnb hob ht ha' hwb hr0 hs0 hx
    cases hq : trun H₀ (comp P T d ⟨c.meth, c.al, (true, i) :: c.tries⟩ b) (s.set ⟨c.al.path, .fin i⟩ 0) w with
    | mk t1 q1 =>
    obtain ⟨s1, w2⟩ := q1
    rw [hq] at S1
    have hw12 : w2 = w1 := S1.world
    subst hw12
    obtain ⟨s2, a1, a2, a3⟩ := simples_ok c.al h₀ H₀ f fr1 fr2 s1 w2 w3 S1.rel (ho.imp id (·.2)) hh
    have hfr2 : ∀ v, ¬ c.al.path <+: v.path → v ≠ c.al.err → s2 v = s v := fun v h1 h2 =>
      ((a3 v (fun x he => h1 (by rw [he]; exact List.prefix_refl _))).trans (S1.frame v h1 h2)).trans
        (set_other _ _ (fun he => h1 (by rw [he]; exact List.prefix_refl _)))
    have hfin1 : ∀ j, j ∉ blocks b → (∀ v, o1 = .ret v → firstFin ((true, i) :: c.tries) ≠ some j) →
        (∀ n, o1 = .exc n → ((true, i) :: c.tries).head? ≠ some (true, j)) →
        s1 ⟨c.al.path, .fin j⟩ = (s.set ⟨c.al.path, .fin i⟩ 0) ⟨c.al.path, .fin j⟩ := S1.fin
    have hout1 : OutRel ⟨c.meth, c.al, (true, i) :: c.tries⟩ o1 t1 s1 := S1.out
    have hj0 : ∀ j, j ∉ i :: blocks b → s2 ⟨c.al.path, .fin j⟩ = s ⟨c.al.path, .fin j⟩ := by
      intro j hj
      simp only [List.mem_cons, not_or] at hj
      rw [a3 _ (fun x => by simp), hfin1 j hj.2 ?_ ?_]
      · exact set_other _ _ (by simpa using hj.1)
      · intro v _; rw [firstFin_true]; simpa using Ne.symm hj.1
      · intro n _; simpa using Ne.symm hj.1
    have hnotEnd : t1 ≠ .toEnd := by
      intro h
      have := hout1
      cases o1 with
      | normal => rw [this.1] at h; cases h
      | ret v =>
        simp only [OutRel, firstFin_true] at this
        rw [this.2.2.1] at h; cases h
      | exc n =>
        simp only [OutRel] at this
        rw [this.1] at h; cases h
    have hrun : trun H₀ (.tryFin (comp P T d ⟨c.meth, c.al, (true, i) :: c.tries⟩ b) (.seq (compSs c.al f) (dispatch c i)))
        (s.set ⟨c.al.path, .fin i⟩ 0) w = trun H₀ (dispatch c i) s2 w3 := by
      simp only [trun, hq]
      cases t1 <;> simp_all
    rw [hrun]
    have herr2 : s2 c.al.err = s1 c.al.err := a3 _ (fun x => errNe hg _ (by simp))
    have hfi : s2 ⟨c.al.path, .fin i⟩ = s1 ⟨c.al.path, .fin i⟩ := a3 _ (fun x => by simp)
    cases o1 with
    | normal =>
      have hz : s2 ⟨c.al.path, .fin i⟩ = 0 := by
        rw [hfi, hfin1 i hib (by simp) (by simp)]; exact set_same _ _ _
      have hd : trun H₀ (dispatch c i) s2 w3 = (.normal, s2, w3) := by
        simp [dispatch, trun, teval, hz]
      rw [hd]
      exact ⟨rfl, a2, ⟨rfl, herr2.trans hout1.2⟩, hfr2, fun j hj _ _ => hj0 j hj⟩
    | ret v =>
      have hout := hout1
      simp only [OutRel, firstFin_true] at hout
      have hz : s2 ⟨c.al.path, .fin i⟩ = 1 := by rw [hfi]; exact hout.2.2.2
      have hres : s2 ⟨c.al.path, .res⟩ = v := by rw [a3 _ (fun x => by simp)]; exact hout.1
      have hd : trun H₀ (dispatch c i) s2 w3 = trun H₀ (finRet c i) s2 w3 := by
        simp [dispatch, trun, teval, hz]
      rw [hd]
      cases hf : firstFin c.tries with
      | none =>
        have : trun H₀ (finRet c i) s2 w3 = (.toEnd, s2, w3) := by simp only [finRet, hf, trun]
        rw [this]
        exact ⟨rfl, a2, by simp only [OutRel, hf]; exact ⟨hres, herr2.trans hout.2.1, trivial⟩, hfr2,
          fun j hj _ _ => hj0 j hj⟩
      | some k =>
        have : trun H₀ (finRet c i) s2 w3 = (.toFin, s2.set ⟨c.al.path, .fin k⟩ 1, w3) := by
          simp only [finRet, hf, trun, teval, hz]
        rw [this]
        refine ⟨rfl, ?_, ?_, ?_, ?_⟩
        · intro x u hx
          show Store.set _ _ _ _ = u
          rw [set_other _ _ (by simp)]; exact a2 x u hx
        · simp only [OutRel, hf]
          refine ⟨?_, ?_, trivial, set_same _ _ _⟩
          · rw [set_other _ _ (by simp)]; exact hres
          · rw [set_other _ _ (errNe hg _ (by simp)), herr2]; exact hout.2.1
        · intro u h1 h2
          show Store.set _ _ _ _ = s u
          rw [set_other _ _ (fun he => h1 (by rw [he]; exact List.prefix_refl _))]; exact hfr2 u h1 h2
        · intro j hj h1 _
          have hkj : j ≠ k := by
            intro h; subst h; exact h1 v rfl hf
          show Store.set _ _ _ _ = s _
          rw [set_other _ _ (by simpa using hkj)]; exact hj0 j hj
    | exc n =>
      have hout := hout1
      simp only [OutRel] at hout
      have hz : s2 ⟨c.al.path, .fin i⟩ = 2 := by rw [hfi]; exact hout.2.1
      have heo : s2 ⟨c.al.path, .errOf i⟩ = n + 1 := by rw [a3 _ (fun x => by simp)]; exact hout.2.2.1
      have hd : trun H₀ (dispatch c i) s2 w3 = trun H₀ (finThrow c i) s2 w3 := by
        simp [dispatch, trun, teval, hz]
      rw [hd]
      cases htr : c.tries with
      | nil =>
        have : trun H₀ (finThrow c i) s2 w3 = (.toEnd, s2.set c.al.err (n + 1), w3) := by
          simp only [finThrow, htr, trun, teval, heo]
        rw [this]
        refine ⟨rfl, ?_, ?_, ?_, ?_⟩
        · intro x u hx
          show Store.set _ _ _ _ = u
          rw [set_other _ _ (errNe hg _ (by simp)).symm]; exact a2 x u hx
        · simp only [OutRel, htr]; exact ⟨trivial, set_same _ _ _⟩
        · intro u h1 h2
          show Store.set _ _ _ _ = s u
          rw [set_other _ _ h2]; exact hfr2 u h1 h2
        · intro j hj _ _
          show Store.set _ _ _ _ = s _
          rw [set_other _ _ (errNe hg _ (by simp)).symm]; exact hj0 j hj
      | cons q t =>
        obtain ⟨bq, k⟩ := q
        cases bq with
        | true => simp [htr] at hhead
        | false =>
          have : trun H₀ (finThrow c i) s2 w3 = (.toTry, s2, w3) := by simp only [finThrow, htr, trun]
          rw [this]
          exact ⟨rfl, a2, by simp only [OutRel, htr]; exact ⟨trivial, herr2.trans hout.2.2.2⟩, hfr2,
            fun j hj _ _ => hj0 j hj⟩
  | call site x m recv args =>
    intro c fr fr' w w' o s hu hg ho hc hn hob ht ha hw hr hs he
    cases d with
    | zero => simp [accept, acceptWith] at ha
    | succ d =>
    have hargs : allArgs (P c.meth).params.head? recv args = callArgs P c recv args := by
      cases recv with
      | none => rfl
      | obj e => exact absurd rfl (hob e)
      | super => rfl
    simp only [execWith, hargs] at he
    have hlen : (callArgs P c recv args).length = (P m).params.length := by
      have := ht; simp only [Typed, hargs] at this; exact this
    have ho' : h₀ = H₀ ∨ ∀ e ∈ callArgs P c recv args, noOldE e := by
      refine ho.imp id (fun h => ?_)
      intro e he
      cases recv with
      | none => exact h.1 e he
      | obj q => exact absurd rfl (hob q)
      | super =>
        simp only [callArgs, List.mem_append, Option.mem_toList, Option.map_eq_some_iff] at he
        rcases he with ⟨y, _, rfl⟩ | he
        · trivial
        · exact h.1 e he
    generalize hA : callArgs P c recv args = as at *
    have haccept : accept P T d (m :: stk) (calleeCtx P c site m as) (P m).body = true := by
      simp only [accept, acceptWith, hA, Bool.and_eq_true] at ha
      exact ha.2.2
    have hwr : ∀ e ∈ writes P d (calleeCtx P c site m as) (P m).body, T e.1 = e.2 := by
      simp only [writes, writesWith, hA] at hw; exact hw
    have hcode : comp P T (d + 1) c (.call site x m recv args) =
      .seq (bind c.al (c.al.path ++ [site]) (P m).params as)
        (.seq (.assign (errPlace c) (.lit 0))
          (.seq (.scope (comp P T d (calleeCtx P c site m as) (P m).body))
            (.seq (catchers c) (result c site x)))) := by rw [← hA]; rfl
    rw [hcode]
    cases hev : evals fr w.heap h₀ as with
    | none => rw [hev] at he; simp at he
    | some vs =>
    rw [hev] at he
    simp only at he
    have hpne : c.al.path ++ [site] ≠ c.al.path := by simp
    obtain ⟨s1, b1, b2, b3⟩ := bind_ok c.al (c.al.path ++ [site]) hpne H₀ h₀ fr w (P m).params as vs (fun _ => none) s hr
      (fun _ _ h => by simp at h) ho' hev
    have hpl : errPlace c = c.al.err ∨ ∃ i, errPlace c = ⟨c.al.path, .errOf i⟩ := by
      simp only [errPlace]; split
      · exact .inl rfl
      · exact .inr ⟨_, rfl⟩
    have hne : ∀ nm, nm ≠ .err → (∀ i, nm ≠ .errOf i) → (⟨c.al.path, nm⟩ : Var) ≠ errPlace c := by
      intro nm h1 h2
      rcases hpl with h | ⟨i, h⟩ <;> rw [h]
      · exact (errNe hg nm h1).symm
      · intro h; exact h2 i (by simpa using h)
    have hgc := errGood_callee P c hg site m as
    have hnp : ¬ (c.al.path ++ [site]) <+: (errPlace c).path := by
      rcases hgc with h | h
      · have h' : errPlace c = ⟨c.al.path ++ [site], .err⟩ := h
        exfalso
        rcases hpl with h2 | ⟨i, h2⟩
        · rcases hg with h3 | h3
          · rw [h2, h3] at h'; simp at h'
          · rw [h2] at h'; exact h3 (by rw [h']; exact List.prefix_append _ _)
        · rw [h2] at h'; simp at h'
      · exact h
    -- the store when the body starts
    have hrel2 : Rel (c.al.path ++ [site]) (enter (P m).params vs (fun _ => none)) (s1.set (errPlace c) 0) := by
      intro y u hy
      rw [set_other _ _ (fun he => hnp (by rw [← he]; exact List.prefix_refl _))]
      exact b2 y u hy
    have hout : ∀ v : Var, ¬ (c.al.path ++ [site]) <+: v.path → v ≠ errPlace c → (s1.set (errPlace c) 0) v = s v := by
      intro v h1 h2
      rw [set_other _ _ h2]
      exact b3 v (fun y he => h1 (by rw [he]; exact List.prefix_refl _))
    cases hcall : callM P d' m vs w with
    | none => rw [hcall] at he; simp [leave] at he
    | some q =>
    obtain ⟨o1, w1⟩ := q
    rw [hcall] at he
    have hub : (calleeCtx P c site m as).al.unbound = [] := by
      simp only [calleeCtx, hlen]; simp
    obtain ⟨frc, S⟩ := hk d (m :: stk) (calleeCtx P c site m as) m vs w w1 o1 (s1.set (errPlace c) 0) rfl rfl hub hgc
      (hc m (by simp [calls])) haccept hwr hrel2 (set_same _ _ _) hcall
    cases hq : trun H₀ (comp P T d (calleeCtx P c site m as) (P m).body) (s1.set (errPlace c) 0) w with
    | mk t1 q1 =>
    obtain ⟨s2, w2⟩ := q1
    rw [hq] at S
    have hw12 : w2 = w1 := S.world
    subst hw12
    have hstart : trun H₀ (.seq (bind c.al (c.al.path ++ [site]) (P m).params as)
        (.seq (.assign (errPlace c) (.lit 0))
          (.seq (.scope (comp P T d (calleeCtx P c site m as) (P m).body))
            (.seq (catchers c) (result c site x))))) s w =
        (match (match (t1, s2, w2) with | (.toEnd, s, w) => (TOut.normal, s, w) | r => r) with
          | (.normal, s, w) => trun H₀ (.seq (catchers c) (result c site x)) s w
          | r => r) := by
      simp only [trun, b1, teval, hq]
      cases t1 <;> rfl
    rw [hstart]
    have hfr : ∀ v : Var, ¬ (c.al.path ++ [site]) <+: v.path → v ≠ errPlace c → s2 v = s v := fun v h1 h2 =>
      (S.frame v h1 h2).trans (hout v h1 h2)
    have hcal : ∀ nm, nm ≠ .err → (∀ i, nm ≠ .errOf i) → s2 ⟨c.al.path, nm⟩ = s ⟨c.al.path, nm⟩ := fun nm h1 h2 =>
      hfr _ (not_prefix_append _ _) (hne nm h1 h2)
    have hrel3 : Rel c.al.path fr s2 := fun y u hy => by
      rw [hcal _ (by simp) (by simp)]; exact hr y u hy
    have herr3 : errPlace c ≠ c.al.err → s2 c.al.err = 0 := by
      intro h
      rw [hfr _ ?_ h.symm]; exact hs
      rcases hg with h3 | h3
      · rw [h3]; exact not_prefix_append _ _
      · intro h4; exact h3 ((List.prefix_append _ _).trans h4)
    have hfr3 : ∀ v : Var, ¬ c.al.path <+: v.path → v ≠ c.al.err → s2 v = s v := by
      intro v h1 h2
      refine hfr v (fun h4 => h1 ((List.prefix_append _ _).trans h4)) ?_
      rcases hpl with h | ⟨i, h⟩ <;> rw [h]
      · exact h2
      · intro he; exact h1 (by rw [he]; exact List.prefix_refl _)
    -- no exception
    have hnoexc : t1 = .normal ∨ t1 = .toEnd → s2 (errPlace c) = 0 → ∀ o fr', o = .normal →
        (x = none ∧ fr' = fr ∨ ∃ y, x = some y ∧ fr' = fr.set y (s2 ⟨c.al.path ++ [site], .res⟩)) →
        Sim c (blocks (.call site x m recv args)) o fr' w2 s
        (match (match (t1, s2, w2) with | (.toEnd, s, w) => (TOut.normal, s, w) | r => r) with
          | (.normal, s, w) => trun H₀ (.seq (catchers c) (result c site x)) s w
          | r => r) := by
      intro ht1 hz o fr' ho hfr'
      subst ho
      have herr4 : s2 c.al.err = 0 := by
        by_cases h : errPlace c = c.al.err
        · rw [← h]; exact hz
        · exact herr3 h
      have hc0 : trun H₀ (catchers c) s2 w2 = (.normal, s2, w2) := by
        simp [catchers, trun, teval, hz]
      have : (match (match (t1, s2, w2) with | (.toEnd, s, w) => (TOut.normal, s, w) | r => r) with
          | (.normal, s, w) => trun H₀ (.seq (catchers c) (result c site x)) s w
          | r => r) = trun H₀ (result c site x) s2 w2 := by
        rcases ht1 with rfl | rfl <;> simp only [trun, hc0]
      rw [this]
      rcases hfr' with ⟨rfl, rfl⟩ | ⟨y, rfl, rfl⟩
      · exact ⟨rfl, hrel3, ⟨rfl, herr4⟩, hfr3, fun j _ _ _ => hcal _ (by simp) (by simp)⟩
      · refine ⟨rfl, rel_set hrel3 _ _, ⟨rfl, ?_⟩, ?_, ?_⟩
        · show Store.set _ _ _ _ = 0
          rw [set_other _ _ (errNe hg _ (by simp))]; exact herr4
        · intro v h1 h2
          show Store.set _ _ _ _ = _
          rw [set_other _ _ (fun he => h1 (by rw [he]; exact List.prefix_refl _))]; exact hfr3 v h1 h2
        · intro j _ _ _
          show Store.set _ _ _ _ = _
          rw [set_other _ _ (by simp)]; exact hcal _ (by simp) (by simp)
    have hout2 := S.out
    cases o1 with
    | normal =>
      have h1 : t1 = .normal := hout2.1
      have h2 : s2 (errPlace c) = 0 := hout2.2
      simp only [leave] at he
      cases x with
      | some y => simp at he
      | none =>
        simp only [Option.some.injEq, Prod.mk.injEq] at he
        obtain ⟨rfl, rfl, rfl⟩ := he
        exact hnoexc (.inl h1) h2 _ _ rfl (.inl ⟨rfl, rfl⟩)
    | ret v =>
      have h1 : t1 = .toEnd := hout2.2.2
      have h2 : s2 (errPlace c) = 0 := hout2.2.1
      have h3 : s2 ⟨c.al.path ++ [site], .res⟩ = v := hout2.1
      simp only [leave] at he
      cases x with
      | some y =>
        simp only [Option.some.injEq, Prod.mk.injEq] at he
        obtain ⟨rfl, rfl, rfl⟩ := he
        exact hnoexc (.inr h1) h2 _ _ rfl (.inr ⟨y, rfl, by rw [h3]⟩)
      | none =>
        simp only [Option.some.injEq, Prod.mk.injEq] at he
        obtain ⟨rfl, rfl, rfl⟩ := he
        exact hnoexc (.inr h1) h2 _ _ rfl (.inl ⟨rfl, rfl⟩)
    | exc n =>
      have h1 : t1 = .toEnd := hout2.1
      have h2 : s2 (errPlace c) = n + 1 := hout2.2
      subst h1
      simp only [leave, Option.some.injEq, Prod.mk.injEq] at he
      obtain ⟨rfl, rfl, rfl⟩ := he
      have S3 := throw_ok c hg H₀ n fr w2 s s2 (blocks (.call site x m recv args)) hrel3 h2 (fun hne2 => by
        refine herr3 ?_
        cases ht2 : c.tries with
        | nil => exact absurd ht2 hne2
        | cons q t =>
          have : errPlace c = ⟨c.al.path, .errOf q.2⟩ := by simp only [errPlace, ht2]
          rw [this]; exact (errNe hg _ (by simp)).symm) hfr3 (fun j => hcal _ (by simp) (by simp))
      have hnn : (trun H₀ (catchers c) s2 w2).1 ≠ .normal := by
        have := S3.out
        simp only [OutRel] at this
        intro h
        split at this <;> simp [h] at this
      simp only [trun]
      cases hq3 : trun H₀ (catchers c) s2 w2 with
      | mk t3 q3 =>
      rw [hq3] at S3 hnn
      cases t3 <;> first | exact S3 | exact absurd rfl hnn

theorem code_ok (P : Prog) (hF : Fine P) (T : Nat × Nat → Al) (H₀ : Int → Nat → Int) : ∀ d', CodeOk P T H₀ d' := by
  intro d'
  induction d' with
  | zero => intro d stk c m vs w w' o s _ _ _ _ _ _ _ _ _ h; simp [callM] at h
  | succ d' ih =>
    intro d stk c m vs w w' o s hm ht hu hg hno ha hw hr hs he
    subst hm
    simp only [callM] at he
    split at he
    · rename_i o1 fr1 w1 h1
      simp only [Option.some.injEq, Prod.mk.injEq] at he
      obtain ⟨rfl, rfl⟩ := he
      exact ⟨fr1, sim_stmt P hF T H₀ d' ih w.heap d stk (P c.meth).body c _ fr1 w w1 o1 s hu hg (.inr hno)
        (hF.noOld c.meth) (by rw [ht]; exact hF.nested c.meth) (hF.noObj c.meth) (hF.typed c.meth) ha hw hr hs h1⟩
    · simp at he

end Nagini.Inline
