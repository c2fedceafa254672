import Verif.Lemmas.Inline

/-! C104: inlined calls do what calls do. -/
set_option linter.unusedVariables false
set_option linter.unusedSimpArgs false
namespace Nagini.Inline

/-- The generated method does what a call of the method does: the same assignments to fields and the same observations,
the same result and the same exceptions (0 stands for `null`). -/
def Agrees (P : Prog) (d m : Nat) (s : Store) (w : World) (o : Out) (w' : World) : Prop :=
  (trun w.heap (compile P d m) s w).2.2 = w' ∧
  match o with
  | .normal => (trun w.heap (compile P d m) s w).1 = .normal ∧ (trun w.heap (compile P d m) s w).2.1 ⟨[], .err⟩ = 0
  | .ret v => (trun w.heap (compile P d m) s w).1 = .toEnd ∧ (trun w.heap (compile P d m) s w).2.1 ⟨[], .res⟩ = v ∧
      (trun w.heap (compile P d m) s w).2.1 ⟨[], .err⟩ = 0
  | .exc n => (trun w.heap (compile P d m) s w).1 = .toEnd ∧ (trun w.heap (compile P d m) s w).2.1 ⟨[], .err⟩ = n + 1

/-- The variables at the beginning of the generated method. -/
def Initial (P : Prog) (m : Nat) (vs : List Int) (s : Store) : Prop :=
  (∀ x v, enter (P m).params vs (fun _ => none) x = some v → s ⟨[], .user x⟩ = v) ∧ s ⟨[], .err⟩ = 0

/-- Programs with the right number of arguments, whose blocks are not nested in the ways of C08. -/
structure Legal (P : Prog) : Prop where
  nested : ∀ m, Nested false (P m).body
  typed : ∀ m, Typed P (P m).params.head? (P m).body

/-- **C104** (full claim): for every accepted method, whatever a call of the method does is what the generated method
does. -/
def C104 : Prop :=
  ∀ (P : Prog) (d m : Nat), Legal P → accepts P d m = true →
    ∀ (d' : Nat) (vs : List Int) (w w' : World) (o : Out), callM P d' m vs w = some (o, w') →
    ∀ s, Initial P m vs s → Agrees P d m s w o w'

/-- No method with an `except` clause is inlined twice. -/
def Once (P : Prog) (d m : Nat) : Prop := ((writes P d (top m) (P m).body).map (·.1)).Nodup

theorem table_of_nodup (w : List ((Nat × Nat) × Al)) (h : (w.map (·.1)).Nodup) : ∀ e ∈ w, table w e.1 = e.2 := by
  intro e he
  have hs : (w.reverse.find? (fun x => decide (x.1 = e.1))).isSome := by
    rw [List.find?_isSome]; exact ⟨e, List.mem_reverse.2 he, by simp⟩
  obtain ⟨x, hx⟩ := Option.isSome_iff_exists.1 hs
  have h1 : x.1 = e.1 := by simpa using List.find?_some hx
  have h2 : x ∈ w := List.mem_reverse.1 (List.mem_of_find?_eq_some hx)
  have h3 : x = e := by
    have : ∀ (l : List ((Nat × Nat) × Al)), (l.map (·.1)).Nodup → x ∈ l → e ∈ l → x = e := by
      intro l
      induction l with
      | nil => intro _ h; simp at h
      | cons q l ih =>
        intro hn ha hb
        simp only [List.map_cons, List.nodup_cons, List.mem_map, not_exists, not_and] at hn
        rcases List.mem_cons.1 ha with rfl | ha <;> rcases List.mem_cons.1 hb with rfl | hb
        · rfl
        · exact absurd h1.symm (hn.1 e hb)
        · exact absurd h1 (hn.1 x (by assumption))
        · exact ih hn.2 ha hb
    exact this w h h2 he
  simp only [table, hx, Option.map_some, Option.getD_some, h3]

/-- Inlined calls do what calls do if no method with an `except` clause is inlined twice, `Old` does not occur in
inlined methods, and no inlined method is called on an object. -/
theorem C104_partial (P : Prog) (d m : Nat) (hl : Legal P) (ha : accepts P d m = true) (hone : Once P d m)
    (hob : ∀ m, noObj (P m).body) (hold : ∀ m, ∀ m' ∈ calls (P m).body, noOld (P m').body)
    (d' : Nat) (vs : List Int) (w w' : World) (o : Out) (he : callM P d' m vs w = some (o, w'))
    (s : Store) (hs : Initial P m vs s) : Agrees P d m s w o w' := by
  have hF : Fine P := ⟨hl.nested, hob, hl.typed, hold⟩
  cases d' with
  | zero => simp [callM] at he
  | succ d' =>
  simp only [callM] at he
  split at he
  · rename_i o1 fr1 w1 h1
    simp only [Option.some.injEq, Prod.mk.injEq] at he
    obtain ⟨rfl, rfl⟩ := he
    have S := sim_stmt P hF (tableOf P d m) w.heap d' (code_ok P hF _ _ d') w.heap d [] (P m).body (top m) _ fr1 w w1 o1 s
      rfl (.inl rfl) (.inl rfl) (hold m) (hl.nested m) (hob m) (hl.typed m) ha
      (table_of_nodup _ hone) hs.1 hs.2 h1
    refine ⟨S.world, ?_⟩
    have := S.out
    cases o1 with
    | normal => exact this
    | ret v => exact ⟨this.2.2, this.1, this.2.1⟩
    | exc n => exact this
  · simp at he

/-- The translation of an accepted method does not depend on the bound for the depth of calls: the number of methods is
always enough. -/
theorem accept_depth (P : Prog) (T : Nat × Nat → Al) (N : Nat) (hN : ∀ m, ∀ m' ∈ calls (P m).body, m' < N) :
    ∀ (d : Nat) (stk : List Nat), stk.Nodup → (∀ m ∈ stk, m < N) → ∀ (st : Stmt) (c : Ctx), (∀ m ∈ calls st, m < N) →
    accept P T d stk c st = true → ∀ d₂, N ≤ d₂ + stk.length →
    comp P T d₂ c st = comp P T d c st ∧ writes P d₂ c st = writes P d c st ∧ accept P T d₂ stk c st = true := by
  intro d
  induction d with
  | zero =>
    intro stk hn hb st
    induction st with
    | skip | simple _ | ret _ | raise _ =>
      intro c _ ha d₂ _
      cases d₂ <;> exact ⟨rfl, rfl, by simpa [accept, acceptWith] using ha⟩
    | seq a b iha ihb =>
      intro c hc ha d₂ hd
      have ha' : accept P T 0 stk c a = true ∧ accept P T 0 stk c b = true := by
        simpa [accept, acceptWith, Bool.and_eq_true] using ha
      obtain ⟨a1, a2, a3⟩ := iha c (fun m hm => hc m (List.mem_append_left _ hm)) ha'.1 d₂ hd
      obtain ⟨b1, b2, b3⟩ := ihb c (fun m hm => hc m (List.mem_append_right _ hm)) ha'.2 d₂ hd
      refine ⟨?_, ?_, ?_⟩
      · have h : ∀ d, comp P T d c (.seq a b) = .seq (comp P T d c a) (comp P T d c b) := by intro d; cases d <;> rfl
        rw [h, h, a1, b1]
      · have h : ∀ d, writes P d c (.seq a b) = writes P d c a ++ writes P d c b := by intro d; cases d <;> rfl
        rw [h, h, a2, b2]
      · have h : ∀ d, accept P T d stk c (.seq a b) = (accept P T d stk c a && accept P T d stk c b) := by
          intro d; cases d <;> rfl
        rw [h, a3, b3]; rfl
    | ite e a b iha ihb =>
      intro c hc ha d₂ hd
      have h : ∀ d, accept P T d stk c (.ite e a b) =
          (declaredE c.al e && (accept P T d stk c a && accept P T d stk c b)) := by
        intro d; cases d <;> rfl
      rw [h] at ha
      simp only [Bool.and_eq_true] at ha
      obtain ⟨a1, a2, a3⟩ := iha c (fun m hm => hc m (List.mem_append_left _ hm)) ha.2.1 d₂ hd
      obtain ⟨b1, b2, b3⟩ := ihb c (fun m hm => hc m (List.mem_append_right _ hm)) ha.2.2 d₂ hd
      refine ⟨?_, ?_, ?_⟩
      · have h : ∀ d, comp P T d c (.ite e a b) = .ite (compE c.al e) (comp P T d c a) (comp P T d c b) := by
          intro d; cases d <;> rfl
        rw [h, h, a1, b1]
      · have h : ∀ d, writes P d c (.ite e a b) = writes P d c a ++ writes P d c b := by intro d; cases d <;> rfl
        rw [h, h, a2, b2]
      · rw [h, a3, b3, ha.1]; rfl
    | tryEx i b hh r ih =>
      intro c hc ha d₂ hd
      have h : ∀ d, accept P T d stk c (.tryEx i b hh r) =
          (accept P T d stk ⟨c.meth, c.al, (false, i) :: c.tries⟩ b && handlerOk (T (c.meth, i)) c.tries hh r) := by
        intro d; cases d <;> rfl
      rw [h] at ha
      simp only [Bool.and_eq_true] at ha
      obtain ⟨a1, a2, a3⟩ := ih ⟨c.meth, c.al, (false, i) :: c.tries⟩ hc ha.1 d₂ hd
      refine ⟨?_, ?_, ?_⟩
      · have h : ∀ d, comp P T d c (.tryEx i b hh r) = .tryEx (comp P T d ⟨c.meth, c.al, (false, i) :: c.tries⟩ b)
            (compHandler (T (c.meth, i)) c.tries hh r) := by intro d; cases d <;> rfl
        rw [h, h, a1]
      · have h : ∀ d, writes P d c (.tryEx i b hh r) =
            writes P d ⟨c.meth, c.al, (false, i) :: c.tries⟩ b ++ [((c.meth, i), c.al)] := by intro d; cases d <;> rfl
        rw [h, h, a2]
      · rw [h, a3, ha.2]; rfl
    | tryFin i b f ih =>
      intro c hc ha d₂ hd
      have h : ∀ d, accept P T d stk c (.tryFin i b f) =
          (accept P T d stk ⟨c.meth, c.al, (true, i) :: c.tries⟩ b && f.all (declaredS c.al)) := by
        intro d; cases d <;> rfl
      rw [h] at ha
      simp only [Bool.and_eq_true] at ha
      obtain ⟨a1, a2, a3⟩ := ih ⟨c.meth, c.al, (true, i) :: c.tries⟩ hc ha.1 d₂ hd
      refine ⟨?_, ?_, ?_⟩
      · have h : ∀ d, comp P T d c (.tryFin i b f) = .seq (.assign ⟨c.al.path, .fin i⟩ (.lit 0))
            (.tryFin (comp P T d ⟨c.meth, c.al, (true, i) :: c.tries⟩ b) (.seq (compSs c.al f) (dispatch c i))) := by
          intro d; cases d <;> rfl
        rw [h, h, a1]
      · have h : ∀ d, writes P d c (.tryFin i b f) = writes P d ⟨c.meth, c.al, (true, i) :: c.tries⟩ b := by
          intro d; cases d <;> rfl
        rw [h, h, a2]
      · rw [h, a3]; exact ha.2
    | call site x m recv args =>
      intro c _ ha d₂ _
      simp [accept, acceptWith] at ha
  | succ d ihd =>
    intro stk hn hb st
    induction st with
    | skip | simple _ | ret _ | raise _ =>
      intro c _ ha d₂ _
      cases d₂ <;> exact ⟨rfl, rfl, by simpa [accept, acceptWith] using ha⟩
    | seq a b iha ihb =>
      intro c hc ha d₂ hd
      have ha' : accept P T (d + 1) stk c a = true ∧ accept P T (d + 1) stk c b = true := by
        simpa [accept, acceptWith, Bool.and_eq_true] using ha
      obtain ⟨a1, a2, a3⟩ := iha c (fun m hm => hc m (List.mem_append_left _ hm)) ha'.1 d₂ hd
      obtain ⟨b1, b2, b3⟩ := ihb c (fun m hm => hc m (List.mem_append_right _ hm)) ha'.2 d₂ hd
      refine ⟨?_, ?_, ?_⟩
      · have h : ∀ d, comp P T d c (.seq a b) = .seq (comp P T d c a) (comp P T d c b) := by intro d; cases d <;> rfl
        rw [h, h, a1, b1]
      · have h : ∀ d, writes P d c (.seq a b) = writes P d c a ++ writes P d c b := by intro d; cases d <;> rfl
        rw [h, h, a2, b2]
      · have h : ∀ d, accept P T d stk c (.seq a b) = (accept P T d stk c a && accept P T d stk c b) := by
          intro d; cases d <;> rfl
        rw [h, a3, b3]; rfl
    | ite e a b iha ihb =>
      intro c hc ha d₂ hd
      have h : ∀ d, accept P T d stk c (.ite e a b) =
          (declaredE c.al e && (accept P T d stk c a && accept P T d stk c b)) := by
        intro d; cases d <;> rfl
      rw [h] at ha
      simp only [Bool.and_eq_true] at ha
      obtain ⟨a1, a2, a3⟩ := iha c (fun m hm => hc m (List.mem_append_left _ hm)) ha.2.1 d₂ hd
      obtain ⟨b1, b2, b3⟩ := ihb c (fun m hm => hc m (List.mem_append_right _ hm)) ha.2.2 d₂ hd
      refine ⟨?_, ?_, ?_⟩
      · have h : ∀ d, comp P T d c (.ite e a b) = .ite (compE c.al e) (comp P T d c a) (comp P T d c b) := by
          intro d; cases d <;> rfl
        rw [h, h, a1, b1]
      · have h : ∀ d, writes P d c (.ite e a b) = writes P d c a ++ writes P d c b := by intro d; cases d <;> rfl
        rw [h, h, a2, b2]
      · rw [h, a3, b3, ha.1]; rfl
    | tryEx i b hh r ih =>
      intro c hc ha d₂ hd
      have h : ∀ d, accept P T d stk c (.tryEx i b hh r) =
          (accept P T d stk ⟨c.meth, c.al, (false, i) :: c.tries⟩ b && handlerOk (T (c.meth, i)) c.tries hh r) := by
        intro d; cases d <;> rfl
      rw [h] at ha
      simp only [Bool.and_eq_true] at ha
      obtain ⟨a1, a2, a3⟩ := ih ⟨c.meth, c.al, (false, i) :: c.tries⟩ hc ha.1 d₂ hd
      refine ⟨?_, ?_, ?_⟩
      · have h : ∀ d, comp P T d c (.tryEx i b hh r) = .tryEx (comp P T d ⟨c.meth, c.al, (false, i) :: c.tries⟩ b)
            (compHandler (T (c.meth, i)) c.tries hh r) := by intro d; cases d <;> rfl
        rw [h, h, a1]
      · have h : ∀ d, writes P d c (.tryEx i b hh r) =
            writes P d ⟨c.meth, c.al, (false, i) :: c.tries⟩ b ++ [((c.meth, i), c.al)] := by intro d; cases d <;> rfl
        rw [h, h, a2]
      · rw [h, a3, ha.2]; rfl
    | tryFin i b f ih =>
      intro c hc ha d₂ hd
      have h : ∀ d, accept P T d stk c (.tryFin i b f) =
          (accept P T d stk ⟨c.meth, c.al, (true, i) :: c.tries⟩ b && f.all (declaredS c.al)) := by
        intro d; cases d <;> rfl
      rw [h] at ha
      simp only [Bool.and_eq_true] at ha
      obtain ⟨a1, a2, a3⟩ := ih ⟨c.meth, c.al, (true, i) :: c.tries⟩ hc ha.1 d₂ hd
      refine ⟨?_, ?_, ?_⟩
      · have h : ∀ d, comp P T d c (.tryFin i b f) = .seq (.assign ⟨c.al.path, .fin i⟩ (.lit 0))
            (.tryFin (comp P T d ⟨c.meth, c.al, (true, i) :: c.tries⟩ b) (.seq (compSs c.al f) (dispatch c i))) := by
          intro d; cases d <;> rfl
        rw [h, h, a1]
      · have h : ∀ d, writes P d c (.tryFin i b f) = writes P d ⟨c.meth, c.al, (true, i) :: c.tries⟩ b := by
          intro d; cases d <;> rfl
        rw [h, h, a2]
      · rw [h, a3]; exact ha.2
    | call site x m recv args =>
      intro c hc ha d₂ hd
      simp only [accept, acceptWith, Bool.and_eq_true, Bool.not_eq_true', List.contains_eq_mem,
        decide_eq_false_iff_not] at ha
      have hm : m < N := hc m (by simp [calls])
      have hn' : (m :: stk).Nodup := List.nodup_cons.2 ⟨ha.1, hn⟩
      have hb' : ∀ k ∈ m :: stk, k < N := by
        intro k hk
        rcases List.mem_cons.1 hk with rfl | hk
        · exact hm
        · exact hb k hk
      have hlen : (m :: stk).length ≤ N := by
        have := hn'.length_le_of_subset (l₂ := List.range N) (fun k hk => List.mem_range.2 (hb' k hk))
        simpa using this
      simp only [List.length_cons] at hlen
      cases d₂ with
      | zero => omega
      | succ d₂ =>
        obtain ⟨a1, a2, a3⟩ := ihd (m :: stk) hn' hb' (P m).body (calleeCtx P c site m (callArgs P c recv args)) (hN m)
          ha.2.2 d₂ (by simp only [List.length_cons]; omega)
        refine ⟨?_, ?_, ?_⟩
        · show compWith P T (comp P T d₂) c _ = compWith P T (comp P T d) c _
          simp only [compWith, a1]
        · show writesWith P (writes P d₂) c _ = writesWith P (writes P d) c _
          simp only [writesWith, a2]
        · simp only [accept, acceptWith, Bool.and_eq_true, Bool.not_eq_true', List.contains_eq_mem,
            decide_eq_false_iff_not]
          exact ⟨ha.1, ha.2.1, a3⟩

/-- The translation of an accepted method does not depend on the bound for the depth of calls: the number of methods is
always enough, because no method is inlined into itself. -/
theorem C104_depth (P : Prog) (N : Nat) (hN : ∀ m, ∀ m' ∈ calls (P m).body, m' < N) (d m : Nat)
    (ha : accepts P d m = true) (d₂ : Nat) (hd : N ≤ d₂) :
    accepts P d₂ m = true ∧ compile P d₂ m = compile P d m := by
  obtain ⟨a1, a2, a3⟩ := accept_depth P (tableOf P d m) N hN d [] (by simp) (by simp) (P m).body (top m) (hN m) ha d₂
    (by simpa using hd)
  have hT : tableOf P d₂ m = tableOf P d m := by simp only [tableOf, a2]
  exact ⟨by rw [accepts, hT]; exact a3, by rw [compile, compile, hT]; exact a1⟩

/-- A program with two methods. -/
abbrev prog (main f : Meth) : Prog := fun m => if m = 0 then main else if m = 1 then f else ⟨[], .skip⟩

/-- `x = 0; try: raise E() except E: x = 1; return x`. -/
abbrev catching : Meth := ⟨[], .seq (.simple (.assign 0 (.lit 0))) (.seq (.tryEx 0 (.raise 0) [.assign 0 (.lit 1)] none)
  (.ret (.var 0)))⟩

/-- `x = f(); y = f(); return x`. -/
abbrev twice : Meth := ⟨[], .seq (.call 0 (some 0) 1 .none []) (.seq (.call 1 (some 1) 1 .none []) (.ret (.var 0)))⟩

abbrev noWorld : World := ⟨fun _ _ => 0, []⟩

theorem legal_prog (main f : Meth) (h1 : Nested false main.body) (h2 : Nested false f.body)
    (t1 : Typed (prog main f) main.params.head? main.body) (t2 : Typed (prog main f) f.params.head? f.body) :
    Legal (prog main f) := by
  constructor
  · intro m
    by_cases h : m = 0
    · subst h; exact h1
    · by_cases h' : m = 1
      · subst h'; exact h2
      · simp only [prog, h, h', if_false]; trivial
  · intro m
    by_cases h : m = 0
    · subst h; exact t1
    · by_cases h' : m = 1
      · subst h'; exact t2
      · simp only [prog, h, h', if_false]; trivial

/-- **C104 fails** for `except` clauses: if a method is inlined twice, the `except` clause of the first call assigns to
the variables of the second one.  `twice` returns 1; the generated method returns 0. -/
theorem C104_except_fails : Legal (prog twice catching) ∧ accepts (prog twice catching) 2 0 = true ∧
    (callM (prog twice catching) 2 0 [] noWorld).map (·.1) = some (.ret 1) ∧
    (trun noWorld.heap (compile (prog twice catching) 2 0) (fun _ => 0) noWorld).2.1 ⟨[], .res⟩ = 0 := by
  refine ⟨legal_prog _ _ ?_ ?_ ?_ ?_, ?_, ?_, ?_⟩
  · simp [Nested]
  · simp [Nested]
  · simp [Typed, allArgs, prog]
  · simp [Typed]
  · rfl
  · rfl
  · rfl

/-- `o.f = 5; f(o)`, where `f` observes `Old(o.f)`. -/
abbrev setting : Meth := ⟨[0], .seq (.simple (.store (.var 0) 0 (.lit 5))) (.call 0 none 1 .none [.var 0])⟩

abbrev observing : Meth := ⟨[0], .simple (.check (.old (.field (.var 0) 0)))⟩

/-- **C104 fails** for `Old`: it refers to the beginning of the method into which a call is inlined. -/
theorem C104_old_fails : Legal (prog setting observing) ∧ accepts (prog setting observing) 2 0 = true ∧
    (callM (prog setting observing) 2 0 [7] noWorld).map (·.2.seen) = some [5] ∧
    (trun noWorld.heap (compile (prog setting observing) 2 0) (fun v => if v = ⟨[], .user 0⟩ then 7 else 0)
      noWorld).2.2.seen = [0] := by
  refine ⟨legal_prog _ _ ?_ ?_ ?_ ?_, ?_, ?_, ?_⟩
  · simp [Nested]
  · simp [Nested]
  · simp [Typed, allArgs, prog]
  · simp [Typed]
  · rfl
  · rfl
  · rfl

/-- `r = a.get(b); return r`, where `get(self, other)` returns `self.x`. -/
abbrev asking : Meth := ⟨[0, 1], .seq (.call 0 (some 2) 1 (.obj (.var 0)) [.var 1]) (.ret (.var 2))⟩

abbrev getting : Meth := ⟨[3, 4], .ret (.field (.var 3) 0)⟩

abbrev ownWorld : World := ⟨fun o _ => o, []⟩

/-- **C104 fails** for methods called on objects: the first argument becomes the receiver. -/
theorem C104_receiver_fails : Legal (prog asking getting) ∧ accepts (prog asking getting) 2 0 = true ∧
    (callM (prog asking getting) 2 0 [8, 9] ownWorld).map (·.1) = some (.ret 8) ∧
    (trun ownWorld.heap (compile (prog asking getting) 2 0)
      (fun v => if v = ⟨[], .user 0⟩ then 8 else if v = ⟨[], .user 1⟩ then 9 else 0) ownWorld).2.1 ⟨[], .res⟩ = 9 := by
  refine ⟨legal_prog _ _ ?_ ?_ ?_ ?_, ?_, ?_, ?_⟩
  · simp [Nested]
  · simp [Nested]
  · simp [Typed, allArgs, prog]
  · simp [Typed]
  · rfl
  · rfl
  · rfl

/-- A method with a parameter besides `self` that uses it cannot be inlined when called on an object, and a method that
returns in a `try` with a `finally` suite cannot be inlined at all: the generated method has variables that are not
declared. -/
theorem C104_rejected : accepts (prog asking ⟨[3, 4], .ret (.var 4)⟩) 2 0 = false ∧
    accepts (prog ⟨[], .call 0 none 1 .none []⟩ ⟨[], .tryFin 0 (.ret (.lit 1)) []⟩) 2 0 = false ∧
    accepts (prog ⟨[], .call 0 none 1 .none []⟩ ⟨[], .tryFin 0 (.ret (.lit 1)) []⟩) 2 1 = true := by
  refine ⟨rfl, rfl, rfl⟩

theorem C104_fails : ¬ C104 := by
  intro h
  obtain ⟨h1, h2, h3, h4⟩ := C104_except_fails
  cases hc : callM (prog twice catching) 2 0 [] noWorld with
  | none => rw [hc] at h3; simp at h3
  | some q =>
    obtain ⟨o, w'⟩ := q
    rw [hc] at h3
    simp only [Option.map_some, Option.some.injEq] at h3
    subst h3
    have := h _ 2 0 h1 h2 2 [] noWorld w' _ hc (fun _ => 0) ⟨by simp [enter, prog], rfl⟩
    rw [this.2.2.1] at h4
    simp at h4

/-- Non-vacuity: a method that inlines a method with an `except` clause and a `return` in it, which inlines another one
that raises. -/
abbrev deep : Prog := fun m =>
  if m = 0 then ⟨[0], .seq (.tryFin 0 (.call 0 (some 1) 1 .none [.var 0]) [.store (.var 0) 0 (.lit 2)])
    (.ret (.add (.var 1) (.old (.field (.var 0) 0))))⟩
  else if m = 1 then ⟨[5], .seq (.tryEx 0 (.call 0 none 2 .super [.lit 1]) [.store (.var 5) 1 (.lit 3)]
    (some (.field (.var 5) 1))) (.ret (.lit 0))⟩
  else if m = 2 then ⟨[6, 7], .ite (.var 7) (.raise 4) .skip⟩
  else ⟨[], .skip⟩

example : Legal deep ∧ accepts deep 3 0 = true ∧ Once deep 3 0 ∧ (∀ m, noObj (deep m).body) ∧
    (∀ m, ∀ m' ∈ calls (deep m).body, noOld (deep m').body) ∧ (∀ m, ∀ m' ∈ calls (deep m).body, m' < 3) ∧
    (callM deep 3 0 [7] noWorld).map (·.1) = some (.ret 3) ∧
    (trun noWorld.heap (compile deep 3 0) (fun v => if v = ⟨[], .user 0⟩ then 7 else 0) noWorld).2.1 ⟨[], .res⟩ = 3 := by
  have hcases : ∀ (Q : Meth → Prop), Q (deep 0) → Q (deep 1) → Q (deep 2) → Q ⟨[], .skip⟩ → ∀ m, Q (deep m) := by
    intro Q q0 q1 q2 q3 m
    by_cases h0 : m = 0
    · subst h0; exact q0
    by_cases h1 : m = 1
    · subst h1; exact q1
    by_cases h2 : m = 2
    · subst h2; exact q2
    have : deep m = ⟨[], .skip⟩ := by simp [deep, h0, h1, h2]
    rw [this]; exact q3
  refine ⟨⟨hcases (fun q => Nested false q.body) ?_ ?_ ?_ ?_, hcases (fun q => Typed deep q.params.head? q.body) ?_ ?_ ?_ ?_⟩,
    rfl, ?_, hcases (fun q => noObj q.body) ?_ ?_ ?_ ?_,
    hcases (fun q => ∀ m' ∈ calls q.body, noOld (deep m').body) ?_ ?_ ?_ ?_,
    hcases (fun q => ∀ m' ∈ calls q.body, m' < 3) ?_ ?_ ?_ ?_, rfl, rfl⟩
  all_goals first
    | (show List.Nodup _; decide)
    | simp [deep, Nested, Typed, noObj, calls, noOld, noOldE, noOldS, allArgs, blocks]

end Nagini.Inline
