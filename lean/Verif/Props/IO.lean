import Verif.Lemmas.IOTerm
import Verif.Lemmas.IOOpen
/-!
C68: IO operations that are declared to terminate do terminate.
C69: `Open` exchanges an operation for its body.
-/
set_option linter.unusedVariables false
set_option linter.unusedSimpArgs false
namespace Nagini.IO

/-! ### C68 -/

/-- A performed operation terminates: its expansion is well-founded and `gap_io` (which stands for
unknown IO) does not occur in it. -/
def Finishes {V : Type} (I : Interp V) (P : Prog) (p : Nat × List V) : Prop :=
  Acc (fun c p => Expands I P p c) p ∧ ∀ c, Relation.TransGen (Expands I P) p c → c.1 ≠ gapIO

/-- Full claim of C68: if Nagini accepts the operations of a program, then an operation terminates
whenever its `Terminates` condition holds for well-typed arguments. -/
def C68_claim : Prop :=
  ∀ (V : Type) (I : Interp V) (P : Prog), Accepted I P →
    ∀ p, Typed I P p → Terminating I P p → Finishes I P p

/-- The claim for programs in which no bound variable hides another name. -/
def C68_distinct_claim : Prop :=
  ∀ (V : Type) (I : Interp V) (P : Prog), Accepted I P →
    (∀ o op b, P o = some op → op.body = some b →
      (op.params.map (·.1) ++ op.results ++ binders b).Nodup) →
    ∀ p, Typed I P p → Terminating I P p → Finishes I P p

/-- The claim for programs in which existentials are defined unconditionally and before use. -/
def C68_scoped_claim : Prop :=
  ∀ (V : Type) (I : Interp V) (P : Prog), Accepted I P →
    (∀ o op b, P o = some op → op.body = some b →
      ∃ q, scope P b (op.params.map (·.1) ++ op.results) [] = some q) →
    ∀ p, Typed I P p → Terminating I P p → Finishes I P p

theorem finishes_aux {V : Type} {I : Interp V} {P : Prog} (ha : Accepted I P)
    (hw : ∀ o op b, P o = some op → op.body = some b → WellScoped P op b) :
    ∀ (n : Nat) (p : Nat × List V) (op : Op), P p.1 = some op → Typed I P p →
      I.truth (evE I (opEnv I p.1 op p.2) op.getTerminates) →
      (I.num (evE I (opEnv I p.1 op p.2) op.getMeasure)).toNat < n →
      Finishes I P p ∧
        ∀ c, Relation.TransGen (Expands I P) p c → Terminating I P c := by
  have hp : ∀ o op, P o = some op → propOk op = true := fun o op h => by
    obtain ⟨cs, hcs, _⟩ := ha.verifies o op h
    exact (checksOf_some hcs).1
  have hterm : ∀ (c : Nat × List V) op, P c.1 = some op →
      I.truth (evE I (opEnv I c.1 op c.2) op.getTerminates) → Terminating I P c := by
    intro c op h ht
    rw [Op.getTerminates] at ht
    split at ht
    · rename_i e he
      exact ⟨op, e, h, he, ht⟩
    · rw [evE, I.truth_boo] at ht; cases ht
  intro n
  induction n with
  | zero => intro p op _ _ _ h; exact absurd h (Nat.not_lt_zero _)
  | succ n ih =>
    intro p op hop ht hterm' hlt
    obtain ⟨cs, hcs, hver⟩ := ha.verifies _ _ hop
    obtain ⟨hpos, hgood⟩ := op_good (I := I) (vs := p.2) hop hp hcs hver (fun b hb => hw _ _ b hop hb)
      (silInj_of (ha.fresh _ _ hop) (ha.params _ _ hop) fun b hb => hw _ _ b hop hb)
      (ha.params _ _ hop) ha.inhabited ht hterm'
    have hchild : ∀ c, Expands I P p c → c.1 ≠ gapIO ∧ Terminating I P c ∧ (Finishes I P c ∧
        ∀ d, Relation.TransGen (Expands I P) c d → Terminating I P d) := by
      intro c hc
      obtain ⟨h1, op', hop', hl, ht', hm⟩ := hgood c hc
      exact ⟨h1, hterm c op' hop' ht', ih c op' hop' (ha.calls p c ht hc) ht' (by omega)⟩
    have hdesc : ∀ c, Relation.TransGen (Expands I P) p c →
        c.1 ≠ gapIO ∧ Terminating I P c := by
      intro c hc
      have : Expands I P p c ∨ ∃ d, Expands I P p d ∧ Relation.TransGen (Expands I P) d c := by
        induction hc with
        | single h => exact .inl h
        | tail h1 h2 ih' =>
          rcases ih' with h | ⟨d, h, h'⟩
          · exact .inr ⟨_, h, .single h2⟩
          · exact .inr ⟨d, h, .tail h' h2⟩
      rcases this with h | ⟨d, h, h'⟩
      · exact ⟨(hchild c h).1, (hchild c h).2.1⟩
      · exact ⟨(hchild d h).2.2.1.2 c h', (hchild d h).2.2.2 c h'⟩
    exact ⟨⟨⟨p, fun c hc => (hchild c hc).2.2.1.1⟩, fun c hc => (hdesc c hc).1⟩,
      fun c hc => (hdesc c hc).2⟩

/-- **C68, partial.**  For programs with well-formed bodies (no bound variable hides another name,
existentials are defined by an operation outside of conditions and quantifiers in their scope),
termination checks that verify imply termination, for all operations, arguments and depths of
expansion.  All operations performed on the way are also declared to terminate.
Missing: bodies excluded by `WellScoped`, for which the claim fails (see below). -/
theorem C68_io_operations_terminate_partial {V : Type} (I : Interp V) (P : Prog)
    (ha : Accepted I P)
    (hw : ∀ o op b, P o = some op → op.body = some b → WellScoped P op b)
    (p : Nat × List V) (ht : Typed I P p) (hterm : Terminating I P p) :
    Finishes I P p ∧ ∀ c, Relation.TransGen (Expands I P) p c → Terminating I P c := by
  obtain ⟨op, e, hop, he, htrue⟩ := hterm
  refine finishes_aux ha hw _ p op hop ht ?_ (Nat.lt_succ_self _)
  rw [Op.getTerminates, he]
  exact htrue

/-! #### Integers as values -/

/-- Integers, all types hold all values; operators: 0 is `max(_, 1)`, 1 is `_ > 1`, 2 is `_ - 1`,
3 is `1 < _ < _`.  Operation 2 returns its argument minus 1, the others return their argument. -/
def intI : Interp Int where
  lit k := k
  boo b := if b then 1 else 0
  bin f a b := if f = 0 then max a 1 else if f = 1 then (if a > 1 then 1 else 0)
    else if f = 2 then a - 1 else if 1 < a ∧ a < b then 1 else 0
  result o _ vs := if o = 2 then vs.headD 0 - 1 else vs.headD 0
  truth v := v ≠ 0
  num v := v
  ty _ _ := True
  truth_boo b := by cases b <;> simp
  num_lit _ := rfl

/-- A basic operation with one input and one result. -/
def basicOp : Op := ⟨[], [(10, 0)], [11], some (.bool true), none, none, id⟩

theorem intI_calls (P : Prog) (hw : ∀ o op b, P o = some op → op.body = some b →
    ∃ q, scope P b (op.params.map (·.1) ++ op.results) [] = some q) (p c : Nat × List Int)
    (h : Expands intI P p c) : Typed intI P c := by
  obtain ⟨op, b, hop, hb, _, hr⟩ := h
  obtain ⟨q, hq⟩ := hw _ _ _ hop hb
  suffices hs : ∀ (b : B) (G U : List Nat) (q : List Nat × List Def) (ρ : Nat → Int),
      scope P b G U = some q → Reach intI P ρ b c →
      ∀ op, P c.1 = some op → c.2.length = op.params.length from
    fun op' hop' => ⟨hs _ _ _ _ _ hq hr op' hop', fun _ _ => trivial⟩
  intro b
  induction b with
  | call o args rs =>
    intro G U q ρ hq hr op hop
    obtain ⟨op', h1, h2, _⟩ := scope_call hq
    rw [Reach] at hr
    subst hr
    cases h1.symm.trans hop
    simpa using h2
  | pure e => intro G U q ρ hq hr; exact hr.elim
  | and l r ihl ihr =>
    intro G U q ρ hq hr
    obtain ⟨q1, q2, h1, h2, rfl⟩ := scope_and hq
    exact hr.elim (ihl _ _ _ _ h1) (ihr _ _ _ _ h2)
  | implies e b ih =>
    intro G U q ρ hq hr
    obtain ⟨_, q1, h1, rfl⟩ := scope_implies hq
    exact ih _ _ _ _ h1 hr.2
  | ife e a b iha ihb =>
    intro G U q ρ hq hr
    obtain ⟨_, q1, q2, h1, h2, rfl⟩ := scope_ife hq
    exact hr.elim (fun h => iha _ _ _ _ h1 h.2) (fun h => ihb _ _ _ _ h2 h.2)
  | all t x b ih =>
    intro G U q ρ hq hr
    obtain ⟨q1, h1, rfl⟩ := scope_all hq
    obtain ⟨v, _, hr⟩ := hr
    exact ih _ _ _ _ h1 hr
  | ex xs b ih =>
    intro G U q ρ hq hr
    obtain ⟨q1, h1, _, rfl⟩ := scope_ex hq
    obtain ⟨vs, _, _, hr⟩ := hr
    exact ih _ _ _ _ h1 hr

/-! #### A program that meets the hypotheses -/

/-- `count(n)`: `Terminates(True)`, `TerminationMeasure(max(n, 1))`, body
`Implies(n > 1, IOExists1(..)(lambda w: read(n, w) and count(w)))`, where `read` returns `n - 1`.
With the check `n > 1 ==> max(n, 1) > max(read(n), 1)`. -/
def countOp : Op :=
  ⟨[], [(1, 0)], [], some (.bool true), some (.bin 0 (.name 1) (.const 0)),
    some (.implies (.bin 1 (.name 1) (.const 0))
      (.ex [2] (.and (.call 2 [.name 1] [2]) (.call 1 [.name 2] [])))), id⟩

/-- The program with `count` and `read`. -/
def countP : Prog := fun o => if o = 1 then some countOp else if o = 2 then some basicOp else none

theorem countP_cases {o : Nat} {op : Op} (h : countP o = some op) :
    (o = 1 ∧ op = countOp) ∨ (o = 2 ∧ op = basicOp) := by
  unfold countP at h
  split at h
  · rename_i h1; exact .inl ⟨h1, (Option.some.inj h).symm⟩
  · split at h
    · rename_i h2; exact .inr ⟨h2, (Option.some.inj h).symm⟩
    · cases h

theorem countP_scoped : ∀ o op b, countP o = some op → op.body = some b → WellScoped countP op b := by
  intro o op b h hb
  rcases countP_cases h with ⟨rfl, rfl⟩ | ⟨rfl, rfl⟩
  · cases hb
    exact ⟨by decide, _, rfl⟩
  · cases hb

theorem countP_accepted : Accepted intI countP where
  verifies o op h := by
    rcases countP_cases h with ⟨rfl, rfl⟩ | ⟨rfl, rfl⟩
    · refine ⟨[⟨[(true, .bool true)], .pos (.bin 0 (.var 1) (.const 0))⟩,
        ⟨[(true, .bool true), (true, .bin 1 (.var 1) (.const 0))], .holds (.bool true)⟩,
        ⟨[(true, .bool true), (true, .bin 1 (.var 1) (.const 0))],
          .gt (.bin 0 (.var 1) (.const 0)) (.const 1)⟩,
        ⟨[(true, .bool true), (true, .bin 1 (.var 1) (.const 0))], .holds (.bool true)⟩,
        ⟨[(true, .bool true), (true, .bin 1 (.var 1) (.const 0))],
          .gt (.bin 0 (.var 1) (.const 0)) (.bin 0 (.get 2 11 [.var 1]) (.const 0))⟩], rfl, ?_⟩
      intro σ _ c hc
      simp only [List.mem_cons, List.not_mem_nil, or_false] at hc
      rcases hc with rfl | rfl | rfl | rfl | rfl <;> intro hg <;>
        simp [evS, evSL, intI, Concl.Holds] at hg ⊢ <;> omega
    · refine ⟨_, rfl, ?_⟩
      intro σ _ c hc
      simp only [List.mem_cons, List.not_mem_nil, or_false] at hc
      subst hc
      intro _; simp [Concl.Holds, evS, intI]
  fresh o op h := by
    rcases countP_cases h with ⟨rfl, rfl⟩ | ⟨rfl, rfl⟩ <;> exact fun x _ y _ h => h
  params o op h := by
    rcases countP_cases h with ⟨rfl, rfl⟩ | ⟨rfl, rfl⟩ <;> decide
  calls p c _ h := intI_calls _ (fun o op b h hb => (countP_scoped o op b h hb).2) p c h
  inhabited t := ⟨0, trivial⟩

/-- The hypotheses of `C68_io_operations_terminate_partial` hold for a recursive operation. -/
example : Finishes intI countP (1, [5]) :=
  (C68_io_operations_terminate_partial intI countP countP_accepted countP_scoped (1, [5])
    (fun op h => by cases h; exact ⟨rfl, fun _ _ => trivial⟩)
    ⟨countOp, .bool true, rfl, rfl, by simp [evE, intI]⟩).1

/-! #### Bound variables that hide a parameter -/

/-- `op(n)`: `Terminates(True)`, `TerminationMeasure(max(n, 1))`, body
`IOForall(int, lambda n: Implies(n > 1, op(n - 1)))`.  The check is made for the parameter `n`
only. -/
def hideOp : Op :=
  ⟨[], [(1, 0)], [], some (.bool true), some (.bin 0 (.name 1) (.const 0)),
    some (.all 0 1 (.implies (.bin 1 (.name 1) (.const 0))
      (.call 1 [.bin 2 (.name 1) (.const 0)] []))), id⟩

/-- The program with this operation only. -/
def hideP : Prog := fun o => if o = 1 then some hideOp else none

theorem hideP_cases {o : Nat} {op : Op} (h : hideP o = some op) : o = 1 ∧ op = hideOp := by
  unfold hideP at h
  split at h
  · rename_i h1; exact ⟨h1, (Option.some.inj h).symm⟩
  · cases h

theorem hideP_accepted : Accepted intI hideP where
  verifies o op h := by
    obtain ⟨rfl, rfl⟩ := hideP_cases h
    refine ⟨[⟨[(true, .bool true)], .pos (.bin 0 (.var 1) (.const 0))⟩,
      ⟨[(true, .bool true), (true, .bin 1 (.var 1) (.const 0))], .holds (.bool true)⟩,
      ⟨[(true, .bool true), (true, .bin 1 (.var 1) (.const 0))],
        .gt (.bin 0 (.var 1) (.const 0)) (.bin 0 (.bin 2 (.var 1) (.const 0)) (.const 0))⟩],
      rfl, ?_⟩
    intro σ _ c hc
    simp only [List.mem_cons, List.not_mem_nil, or_false] at hc
    rcases hc with rfl | rfl | rfl <;> intro hg <;>
      simp [evS, evSL, intI, Concl.Holds] at hg ⊢ <;> omega
  fresh o op h := by obtain ⟨rfl, rfl⟩ := hideP_cases h; exact fun x _ y _ h => h
  params o op h := by obtain ⟨rfl, rfl⟩ := hideP_cases h; decide
  calls p c _ h := intI_calls _ (fun o op b h hb => by
    obtain ⟨rfl, rfl⟩ := hideP_cases h; cases hb; exact ⟨_, rfl⟩) p c h
  inhabited t := ⟨0, trivial⟩

theorem acc_irrefl {α : Type} {r : α → α → Prop} {a : α} (h : Acc r a) : ¬ r a a := by
  induction h with
  | intro a _ ih => intro hr; exact ih a hr hr

/-- C68 fails when the variable of an `IOForall` has the name of a parameter: `op(5)` contains
`op(5)`. -/
theorem C68_hiding_fails : ¬ C68_scoped_claim := by
  intro h
  have := (h Int intI hideP hideP_accepted (fun o op b h hb => by
    obtain ⟨rfl, rfl⟩ := hideP_cases h; cases hb; exact ⟨_, rfl⟩) (1, [5])
    (fun op h => by cases h; exact ⟨rfl, fun _ _ => trivial⟩)
    ⟨hideOp, .bool true, rfl, rfl, by simp [evE, intI]⟩).1
  refine acc_irrefl this ⟨hideOp, _, rfl, rfl, rfl, 6, trivial, ?_, ?_⟩
  · simp [evE, intI, upd]
  · simp [Reach, evE, intI, upd]

/-! #### Existentials defined below a condition -/

/-- `op(n)`: `Terminates(n > 1)`, `TerminationMeasure(n)`, body
`IOExists2(..)(lambda v, w: a(n, w) and Implies(False, a(n, v)) and Implies(True, c(n, v)) and
Implies(1 < w < n, op(v)))`.  In the check `v` and `w` both are the result of `a(n)`. -/
def condOp : Op :=
  ⟨[], [(1, 0)], [], some (.bin 1 (.name 1) (.const 0)), some (.name 1),
    some (.ex [2, 3] (.and (.call 2 [.name 1] [3]) (.and (.implies (.bool false) (.call 2 [.name 1] [2]))
      (.and (.implies (.bool true) (.call 3 [.name 1] [2]))
        (.implies (.bin 3 (.name 3) (.name 1)) (.call 1 [.name 2] [])))))), id⟩

/-- The program with this operation and two basic operations. -/
def condP : Prog := fun o =>
  if o = 1 then some condOp else if o = 2 ∨ o = 3 then some basicOp else none

theorem condP_cases {o : Nat} {op : Op} (h : condP o = some op) :
    (o = 1 ∧ op = condOp) ∨ ((o = 2 ∨ o = 3) ∧ op = basicOp) := by
  unfold condP at h
  split at h
  · rename_i h1; exact .inl ⟨h1, (Option.some.inj h).symm⟩
  · split at h
    · rename_i h2; exact .inr ⟨h2, (Option.some.inj h).symm⟩
    · cases h

theorem condP_accepted : Accepted intI condP where
  verifies o op h := by
    rcases condP_cases h with ⟨rfl, rfl⟩ | ⟨_, rfl⟩
    · refine ⟨[⟨[(true, .bin 1 (.var 1) (.const 0))], .pos (.var 1)⟩,
        ⟨[(true, .bin 1 (.var 1) (.const 0))], .holds (.bool true)⟩,
        ⟨[(true, .bin 1 (.var 1) (.const 0))], .gt (.var 1) (.const 1)⟩,
        ⟨[(true, .bin 1 (.var 1) (.const 0)), (true, .bool false)], .holds (.bool true)⟩,
        ⟨[(true, .bin 1 (.var 1) (.const 0)), (true, .bool false)], .gt (.var 1) (.const 1)⟩,
        ⟨[(true, .bin 1 (.var 1) (.const 0)), (true, .bool true)], .holds (.bool true)⟩,
        ⟨[(true, .bin 1 (.var 1) (.const 0)), (true, .bool true)], .gt (.var 1) (.const 1)⟩,
        ⟨[(true, .bin 1 (.var 1) (.const 0)), (true, .bin 3 (.get 2 11 [.var 1]) (.var 1))],
          .holds (.bin 1 (.get 2 11 [.var 1]) (.const 0))⟩,
        ⟨[(true, .bin 1 (.var 1) (.const 0)), (true, .bin 3 (.get 2 11 [.var 1]) (.var 1))],
          .gt (.var 1) (.get 2 11 [.var 1])⟩], rfl, ?_⟩
      intro σ _ c hc
      simp only [List.mem_cons, List.not_mem_nil, or_false] at hc
      rcases hc with rfl | rfl | rfl | rfl | rfl | rfl | rfl | rfl | rfl <;> intro hg <;>
        simp [evS, evSL, intI, Concl.Holds] at hg ⊢ <;> omega
    · refine ⟨_, rfl, ?_⟩
      intro σ _ c hc
      simp only [List.mem_cons, List.not_mem_nil, or_false] at hc
      subst hc
      intro _; simp [Concl.Holds, evS, intI]
  fresh o op h := by
    rcases condP_cases h with ⟨rfl, rfl⟩ | ⟨_, rfl⟩ <;> exact fun x _ y _ h => h
  params o op h := by
    rcases condP_cases h with ⟨rfl, rfl⟩ | ⟨_, rfl⟩ <;> decide
  calls p c _ h := by
    obtain ⟨op, b, hop, hb, _, hr⟩ := h
    rcases condP_cases hop with ⟨_, rfl⟩ | ⟨_, rfl⟩
    · cases hb
      obtain ⟨vs, _, _, hr⟩ := hr
      rcases hr with hr | hr | hr | hr
      · rw [Reach] at hr; subst hr
        intro op h; cases h; exact ⟨rfl, fun _ _ => trivial⟩
      · have hr := hr.2
        rw [Reach] at hr; subst hr
        intro op h; cases h; exact ⟨rfl, fun _ _ => trivial⟩
      · have hr := hr.2
        rw [Reach] at hr; subst hr
        intro op h; cases h; exact ⟨rfl, fun _ _ => trivial⟩
      · have hr := hr.2
        rw [Reach] at hr; subst hr
        intro op h; cases h; exact ⟨rfl, fun _ _ => trivial⟩
    · cases hb
  inhabited t := ⟨0, trivial⟩

/-- C68 fails when an existential is defined below a condition: `op(5)` contains `op(5)`. -/
theorem C68_conditional_fails : ¬ C68_distinct_claim := by
  intro h
  have := (h Int intI condP condP_accepted (fun o op b h hb => by
    rcases condP_cases h with ⟨_, rfl⟩ | ⟨_, rfl⟩
    · cases hb; decide
    · cases hb) (1, [5])
    (fun op h => by cases h; exact ⟨rfl, fun _ _ => trivial⟩)
    ⟨condOp, _, rfl, rfl, by simp [evE, intI, opEnv, condOp, Op.params, updL, upd]⟩).1
  refine acc_irrefl this ⟨condOp, _, rfl, rfl, rfl, [5, 4], rfl, ?_, ?_⟩
  · refine ⟨(), (), rfl, ⟨rfl, basicOp, rfl, rfl, ?_⟩, (), (), rfl, ⟨?_, fun _ => rfl⟩, (), (), rfl,
      ⟨fun _ => ⟨rfl, basicOp, rfl, rfl, ?_⟩, fun _ => rfl⟩, fun _ => ⟨rfl, condOp, rfl, rfl, ?_⟩, fun _ => rfl⟩
    · simp [basicOp, evE, intI, opEnv, condOp, Op.params, updL, upd]
    · intro h; simp [evE, intI] at h
    · simp [basicOp, evE, intI, opEnv, condOp, Op.params, updL, upd]
    · simp [condOp]
  · refine .inr (.inr (.inr ⟨?_, ?_⟩))
    · simp [evE, intI, opEnv, condOp, Op.params, updL, upd]
    · simp [Reach, evE, intI, opEnv, condOp, Op.params, updL, upd]

/-- The full claim fails. -/
theorem C68_fails : ¬ C68_claim := fun h =>
  C68_hiding_fails fun V I P ha _ => h V I P ha

/-! ### C69 -/

/-- Full claim of C69: for an operation that the checks of bodies accept, `Open(o(args))` inhales an
assertion that says exactly that the body holds, for the values of the arguments and the results
of the operation; the order in which existentials are eliminated does not matter. -/
def C69_claim : Prop :=
  ∀ (V H : Type) (I : Interp V) (A : Res H V) (P : Prog) (o : Nat) (op : Op) (b : B) (al : Nat → Nat)
    (order : List Nat) (args : List S), op.body = some b →
    (op.params.map (·.1) ++ op.results ++ binders b).Nodup →
    (∃ cs, checksOf P op = some cs) → args.length = op.params.length → order.Perm (exis b) →
    FreshNames op b al args →
    ∃ sb, openOp P o op al order args = some sb ∧
      ∀ σ h, Sat I A P (opEnv I o op (evSL I σ args)) h b ↔ SatS I A σ h sb

/-- **C69, partial.**  The claim for well-formed bodies (existentials are defined by an operation
outside of conditions and quantifiers in their scope, names are used after their definition).
Missing: existentials defined below a condition, for which the claim fails (see below). -/
theorem C69_open_is_body_partial {V H : Type} (I : Interp V) (A : Res H V) (P : Prog) (o : Nat)
    (op : Op) (b : B) (al : Nat → Nat) (order : List Nat) (args : List S) (hb : op.body = some b)
    (hw : WellScoped P op b) (hc : ∃ cs, checksOf P op = some cs)
    (hl : args.length = op.params.length) (hord : order.Perm (exis b))
    (hf : FreshNames op b al args) :
    ∃ sb, openOp P o op al order args = some sb ∧
      ∀ σ h, Sat I A P (opEnv I o op (evSL I σ args)) h b ↔ SatS I A σ h sb := by
  refine open_spec A hb hw ?_ hl hord hf.own hf.opened (fun x hx => ⟨hf.inArgs x hx, hf.quantified x hx⟩)
    hf.outside
  obtain ⟨cs, hcs⟩ := hc
  obtain ⟨_, look, _, _, hlook, _⟩ := checksOf_some hcs
  rw [lookOf, hb] at hlook
  simp only at hlook
  cases h : checkBody P op b with
  | none => rw [h] at hlook; cases hlook
  | some ds => rfl

/-- An operation with two existentials, one of which is defined by the other, a result, and a
quantifier: `op(n, Result r)` with body `IOExists2(..)(lambda v, w: read(n, v) and read(v, w) and
read(n, r) and IOForall(int, lambda k: Implies(k > 1, count(w))))`. -/
def openEx : Op :=
  ⟨[], [(1, 0)], [9], none, none,
    some (.ex [2, 3] (.and (.call 2 [.name 1] [2]) (.and (.call 2 [.name 2] [3])
      (.and (.call 2 [.name 1] [9])
        (.all 0 4 (.implies (.bin 1 (.name 4) (.const 0)) (.call 1 [.name 3] []))))))), id⟩

/-- The program with `count`, `read` and this operation (named 4). -/
def openP : Prog := fun o => if o = 4 then some openEx else countP o

/-- The hypotheses of `C69_open_is_body_partial` hold for `Open(op(x))` with a variable `x`; opened
variables are `100 + _`. -/
example : ∃ sb, openOp openP 4 openEx (fun x => 100 + x) [3, 2] [.var 50] = some sb ∧
    ∀ σ h, Sat intI unitRes openP (opEnv intI 4 openEx [σ 50]) h
      (.ex [2, 3] (.and (.call 2 [.name 1] [2]) (.and (.call 2 [.name 2] [3])
      (.and (.call 2 [.name 1] [9])
        (.all 0 4 (.implies (.bin 1 (.name 4) (.const 0)) (.call 1 [.name 3] [])))))))
      ↔ SatS intI unitRes σ h sb := by
  obtain ⟨sb, h1, h2⟩ := C69_open_is_body_partial intI unitRes openP 4 openEx _ (fun x => 100 + x) [3, 2]
    [.var 50] rfl ⟨by decide, _, rfl⟩ ⟨_, rfl⟩ rfl (List.Perm.swap _ _ _)
    { own := fun x _ y _ h => h
      opened := fun x _ y _ h => by omega
      inArgs := fun x _ => by simp [S.fvL, S.fv]; omega
      quantified := fun x _ u hu => by
        simp [unis] at hu; subst hu; simp [openEx]; omega
      outside := fun u hu => by
        simp [unis] at hu; subst hu; simp [openEx, S.fvL, S.fv] }
  refine ⟨sb, h1, fun σ h => ?_⟩
  rw [← h2 σ h]
  simp only [evSL, evS]

/-- The assertion inhaled in this case: the opened variables are replaced by the getters, and the
result is equated with the getter of `op`. -/
example : openOp openP 4 openEx (fun x => 100 + x) [3, 2] [.var 50] = some
    (.and (.acc 2 [.var 50]) (.and (.acc 2 [.get 2 11 [.var 50]])
      (.and (.and (.acc 2 [.var 50]) (.eq (.get 2 11 [.var 50]) (.get 4 9 [.var 50])))
        (.all 0 0 4 (.implies (.bin 1 (.var 4) (.const 0))
          (.acc 1 [.get 2 11 [.get 2 11 [.var 50]]])))))) := rfl

/-- `op(n)` with body
`IOExists1(..)(lambda v: Implies(False, a(n, v)) and Implies(True, c(n, v)))`. -/
def splitOp : Op :=
  ⟨[], [(1, 0)], [], none, none,
    some (.ex [2] (.and (.implies (.bool false) (.call 2 [.name 1] [2]))
      (.implies (.bool true) (.call 3 [.name 1] [2])))), id⟩

/-- The program with `a`, `c` and this operation. -/
def splitP : Prog := fun o =>
  if o = 1 then some splitOp else if o = 2 ∨ o = 3 then some basicOp else none

/-- C69 fails when an existential is defined below a condition: `Open` assumes that the results of
`a` and `c` are equal. -/
theorem C69_conditional_fails : ¬ C69_claim := by
  intro h
  obtain ⟨sb, h1, h2⟩ := h Int Unit intI unitRes splitP 1 splitOp _ (fun x => 100 + x) [2]
    [.var 50] rfl (by decide) ⟨_, rfl⟩ rfl (List.Perm.refl _)
    { own := fun x _ y _ h => h
      opened := fun x _ y _ h => by omega
      inArgs := fun x _ => by simp [S.fvL, S.fv]; omega
      quantified := fun x _ u hu => by simp [unis] at hu
      outside := fun u hu => by simp [unis] at hu }
  have h3 : openOp splitP 1 splitOp (fun x => 100 + x) [2] [.var 50] = some
      (.and (.implies (.bool false) (.acc 2 [.var 50]))
        (.implies (.bool true) (.and (.acc 3 [.var 50])
          (.eq (.get 3 11 [.var 50]) (.get 2 11 [.var 50]))))) := rfl
  cases h1.symm.trans h3
  have h4 := (h2 (fun _ => 5) ()).1 ⟨[5], rfl, (), (), rfl,
    ⟨fun hc => by simp [evE, intI] at hc, fun _ => rfl⟩,
    ⟨fun _ => ⟨rfl, basicOp, rfl, rfl, by
      simp [basicOp, evE, intI, opEnv, splitOp, Op.params, updL, upd, evSL, evS]⟩, fun _ => rfl⟩⟩
  obtain ⟨_, _, _, _, h5, _⟩ := h4
  obtain ⟨_, _, _, _, h6, _⟩ := h5 (by simp [evS, intI])
  simp [evS, evSL, intI] at h6

end Nagini.IO
