import Verif.Lemmas.Unwind

/-!
C08, C09: exceptions, return, break and continue through try, with and loops.
-/
namespace Nagini.Unwind

variable {Ty : Type}

/-! ### Order of the surrounding blocks (used by both) -/

/-- Sorting the blocks protecting a statement by `rank` lists them innermost
first, whatever the order in which they were recorded.  `P` are the protecting
blocks innermost first, and `outer b` restricted to them is what follows `b`. -/
theorem C09_blocks_inner_to_outer (outer : Nat → List Nat) (P blocks : List Nat)
    (hp : blocks.Perm P)
    (ho : ∀ pre b post, P = pre ++ b :: post → P.filter (fun c => (outer b).contains c) = post) :
    sortedByRank outer blocks = P :=
  sortedByRank_eq outer P blocks hp ho

/-- Non-vacuity: blocks 5 inside 9 inside 7 recorded as [7, 5, 9]. -/
example : sortedByRank (fun b => if b = 5 then [9, 7, 100] else if b = 9 then [7, 100] else [100]) [7, 5, 9]
    = [5, 9, 7] := by
  apply C09_blocks_inner_to_outer
  · decide
  · intro pre b post h
    match pre, h with
    | [], h => simp at h; obtain ⟨rfl, rfl⟩ := h; decide
    | [_], h => simp at h; obtain ⟨_, rfl, rfl⟩ := h; decide
    | [_, _], h => simp at h; obtain ⟨_, _, rfl, rfl⟩ := h; decide
    | _ :: _ :: _ :: pre, h =>
      have := congrArg List.length h
      simp at this

/-! ### C09 -/

/-- **C09, full claim**: in every context the emitted jumps run the clean-up code
Python runs, in the same order, and end at Python's target. -/
def JumpsFaithful (Ty : Type) : Prop :=
  (∀ fs : List (Frame Ty), jumpReturn fs = pyReturn fs) ∧
  (∀ fs : List (Frame Ty), (pyLoopJump .afterLoop fs).isSome →
      jumpLoop .afterLoop fs = pyLoopJump .afterLoop fs) ∧
  (∀ fs : List (Frame Ty), (pyLoopJump .nextIter fs).isSome →
      jumpLoop .nextIter fs = pyLoopJump .nextIter fs)

/-- C09 is violated: a `return` in an except clause skips the finally suite. -/
theorem C09_jumps_fail : ¬ JumpsFaithful Nat := by
  intro h
  have := h.1 [.tryOther 0 true]
  revert this
  decide

/-- Four different ways in which break, continue and return go wrong. -/
theorem C09_violations :
    -- `with a: with b: return` calls b.__exit__ but not a.__exit__
    (jumpReturn [Frame.withBody (Ty := Nat) 1, .withBody 0] = ⟨[1], .methodEnd⟩ ∧
      pyReturn [Frame.withBody (Ty := Nat) 1, .withBody 0] = ⟨[1, 0], .methodEnd⟩) ∧
    -- `try: while c: break; S finally: F` runs F and skips S
    (jumpLoop .afterLoop [Frame.loop (Ty := Nat) 1, .tryBody 0 true []] = some ⟨[0], .afterBlock 0⟩ ∧
      pyLoopJump .afterLoop [Frame.loop (Ty := Nat) 1, .tryBody 0 true []] = some ⟨[], .afterLoop 1⟩) ∧
    -- the same with an outer loop leaves the outer loop
    (jumpLoop .nextIter [Frame.loop (Ty := Nat) 2, .tryBody 1 true [], .loop 0] = some ⟨[1], .nextIter 0⟩ ∧
      pyLoopJump .nextIter [Frame.loop (Ty := Nat) 2, .tryBody 1 true [], .loop 0] = some ⟨[], .nextIter 2⟩) ∧
    -- `while c: (while d: ... else: break)` leaves the inner loop only
    (jumpLoop .afterLoop [Frame.loopElse (Ty := Nat) 1, .loop 0] = some ⟨[], .afterLoop 1⟩ ∧
      pyLoopJump .afterLoop [Frame.loopElse (Ty := Nat) 1, .loop 0] = some ⟨[], .afterLoop 0⟩) := by
  refine ⟨⟨?_, ?_⟩, ⟨?_, ?_⟩, ⟨?_, ?_⟩, ⟨?_, ?_⟩⟩ <;> decide

/-- **C09, proved part (return), exact.** A return behaves as in Python iff it is
in no except clause or else suite of a try with finally (`lostFinally`), and no
with statement lies outside the innermost block with clean-up code. -/
theorem C09_return_iff_partial (fs : List (Frame Ty)) :
    jumpReturn fs = pyReturn fs ↔
      (∀ f ∈ fs, f.lostFinally = false) ∧ (∀ f ∈ afterFirst fs, f.isWith = false) :=
  ⟨jumpReturn_conv fs, fun h => jumpReturn_eq fs h.1 h.2⟩

/-- Non-vacuity: nested try/finally with a loop and a handler-only try, with
innermost. -/
example : jumpReturn [.withBody 4, .loop 3, .tryBody 2 true [7], .tryOther 1 false, .tryBody 0 true []]
    = (⟨[4, 2, 0], .methodEnd⟩ : Trace) := by
  rw [(C09_return_iff_partial (Ty := Nat) _).2 (by decide)]
  rfl

/-- **C09, proved part (break and continue).** `stop` is `afterLoop` for break and
`nextIter` for continue, `l` the innermost loop, `pre` what lies between.  Missing:
the situations excluded by the hypotheses, in which the claim is false. -/
theorem C09_loop_jump_partial (stop : Nat → Target) (pre : List (Frame Ty)) (l : Nat)
    (post : List (Frame Ty))
    (h : ∀ f ∈ pre, f.lostFinally = false ∧ f.isLoop = false ∧ f.isLoopElse = false)
    (hw : ∀ f ∈ afterFirst pre, f.isWith = false)
    (ho : (∃ f ∈ pre, f.hasCleanup = true) ∨ ∀ f ∈ post, f.hasCleanup = false) :
    jumpLoop stop (pre ++ .loop l :: post) = pyLoopJump stop (pre ++ .loop l :: post) :=
  jumpLoop_eq stop pre l post h hw ho

/-- Non-vacuity: break out of two try/finally blocks inside a loop that itself is
inside a try/finally. -/
example : jumpLoop .afterLoop
    ([.tryBody 3 true [1], .tryBody 2 true []] ++ .loop 1 :: [Frame.tryBody (Ty := Nat) 0 true []])
      = some ⟨[3, 2], .afterLoop 1⟩ := by
  rw [C09_loop_jump_partial _ _ _ _ (by decide) (by decide) (by decide)]
  rfl

/-! ### C08 -/

/-- **C08, full claim**: for every context, raised exception, class test and
initial content of the error variables, the emitted code runs Python's clean-ups,
ends at Python's target, and the exception visible there is the raised one. -/
def ExceptionsFaithful (Ty Exc : Type) : Prop :=
  ∀ (isinst : Exc → Ty → Bool) (errs : Nat → Exc) (fs : List (Frame Ty)) (e : Exc),
    (jumpRaise isinst errs fs e).trace = pyRaise isinst e fs ∧
    (jumpRaise isinst errs fs e).bound = e

/-- C08 is violated: `try: (with a: raise E()) except E: ...` never calls
`a.__exit__`. -/
theorem C08_exceptions_fail : ¬ ExceptionsFaithful Nat Nat := by
  intro h
  have := (h (fun a b => a == b) (fun _ => 0) [.withBody 1, .tryBody 0 false [5]] 5).1
  revert this
  decide

/-- Further violations, with exceptions identified with their class. -/
theorem C08_violations :
    -- `try: (try: raise 5 except 6: ..) except 5 as e: ..`: e is not the raised exception
    ((jumpRaise (fun a b : Nat => a == b) (fun _ => 0)
        [.tryBody 1 false [6], .tryBody 0 false [5]] 5).trace = ⟨[], .handler 0 0⟩ ∧
     (jumpRaise (fun a b : Nat => a == b) (fun _ => 0)
        [.tryBody 1 false [6], .tryBody 0 false [5]] 5).bound = 0) ∧
    -- three nested tries, the two inner ones with finally: the outer handler is missed
    ((jumpRaise (fun a b : Nat => a == b) (fun _ => 0)
        [.tryBody 2 true [], .tryBody 1 true [], .tryBody 0 false [5]] 5).trace = ⟨[2, 1], .caller⟩ ∧
     pyRaise (fun a b : Nat => a == b) 5
        [.tryBody 2 true [], .tryBody 1 true [], .tryBody 0 false [5]] = ⟨[2, 1], .handler 0 0⟩) ∧
    -- raise in an except clause skips the finally suite of the same try
    ((jumpRaise (fun a b : Nat => a == b) (fun _ => 0) [.tryOther 0 true] 5).trace = ⟨[], .caller⟩ ∧
     pyRaise (fun a b : Nat => a == b) 5 [.tryOther 0 true] = ⟨[0], .caller⟩) := by
  refine ⟨⟨?_, ?_⟩, ⟨?_, ?_⟩, ⟨?_, ?_⟩⟩ <;> decide

section
variable {Exc : Type} (isinst : Exc → Ty → Bool)

/-- **C08, proved part (control flow).** Let `pre` lie inside the innermost try
body around the statement, and `post` around that try statement.  If only that try
may have a finally suite and there is no with statement, then the clean-ups and the
target are Python's.  Missing: several nested finally/with blocks and statements in
except/else suites of a try with finally, where the claim is false. -/
theorem C08_target_partial (errs : Nat → Exc) (pre post : List (Frame Ty)) (i : Nat) (fin : Bool)
    (hs : List Ty) (e : Exc)
    (hpre : ∀ f ∈ pre, f.plain = true ∧ f.protects = false) (hpost : ∀ f ∈ post, f.plain = true) :
    (jumpRaise isinst errs (pre ++ .tryBody i fin hs :: post) e).trace
      = pyRaise isinst e (pre ++ .tryBody i fin hs :: post) := by
  have hin : innermostTry (pre ++ .tryBody i fin hs :: post) = some i := by
    clear hpost
    induction pre with
    | nil => rfl
    | cons f pre ih =>
      have := hpre f (by simp)
      have ih := ih (fun g hg => hpre g (by simp [hg]))
      cases f <;> simp_all [innermostTry, Frame.protects]
  have hcat : catcher isinst e (pre ++ .tryBody i fin hs :: post)
      = catcher isinst e (.tryBody i fin hs :: post) := by
    clear hin
    induction pre with
    | nil => rfl
    | cons f pre ih =>
      have := hpre f (by simp)
      have ih := ih (fun g hg => hpre g (by simp [hg]))
      cases f <;> simp_all [catcher, Frame.protects]
  have hff : firstFinally (pre ++ .tryBody i fin hs :: post)
      = firstFinally (.tryBody i fin hs :: post) := by
    clear hin hcat
    induction pre with
    | nil => rfl
    | cons f pre ih =>
      have := hpre f (by simp)
      have ih := ih (fun g hg => hpre g (by simp [hg]))
      cases f <;> simp_all [firstFinally, Frame.protects]
  have hpy : pyRaise isinst e (pre ++ .tryBody i fin hs :: post)
      = pyRaise isinst e (.tryBody i fin hs :: post) := by
    clear hin hcat hff
    induction pre with
    | nil => rfl
    | cons f pre ih =>
      have hf := hpre f (by simp)
      have ih := ih (fun g hg => hpre g (by simp [hg]))
      cases f with
      | tryBody => simp [Frame.protects] at hf
      | withBody => simp [Frame.protects] at hf
      | tryOther j b => cases b <;> simp_all [pyRaise, Frame.plain]
      | _ => simpa [pyRaise] using ih
  simp only [jumpRaise, storeError, hin, hcat, hff, hpy]
  cases fin with
  | false =>
    have hp : ∀ f ∈ (Frame.tryBody i false hs :: post), f.plain = true := by
      intro f hf
      rcases List.mem_cons.1 hf with rfl | hf
      · rfl
      · exact hpost f hf
    rw [catcher_plain isinst e _ hp, firstFinally_plain _ hp]
    cases catcher isinst e (.tryBody i false hs :: post) <;> rfl
  | true =>
    simp only [catcher, pyRaise, firstFinally]
    cases firstMatch isinst e hs with
    | some k => rfl
    | none => simp [ExcOut.cons, afterRaise_plain isinst _ i post hpost]

/-- **C08, proved part (exception value).** In the same situation the raised
exception is what the handlers of that innermost try, or the caller, see.
Missing: handlers of outer try statements, which see a stale variable. -/
theorem C08_value_partial (errs : Nat → Exc) (pre post : List (Frame Ty)) (i : Nat) (fin : Bool)
    (hs : List Ty) (e : Exc)
    (hpre : ∀ f ∈ pre, f.plain = true ∧ f.protects = false) (hpost : ∀ f ∈ post, f.plain = true)
    (ht : (pyRaise isinst e (pre ++ .tryBody i fin hs :: post)).target = .caller ∨
      ∃ k, (pyRaise isinst e (pre ++ .tryBody i fin hs :: post)).target = .handler i k) :
    (jumpRaise isinst errs (pre ++ .tryBody i fin hs :: post) e).bound = e := by
  have hin : innermostTry (pre ++ .tryBody i fin hs :: post) = some i := by
    clear hpost ht
    induction pre with
    | nil => rfl
    | cons f pre ih =>
      have := hpre f (by simp)
      have ih := ih (fun g hg => hpre g (by simp [hg]))
      cases f <;> simp_all [innermostTry, Frame.protects]
  have htr := C08_target_partial isinst errs pre post i fin hs e hpre hpost
  rw [← htr] at ht
  have hff : firstFinally (pre ++ .tryBody i fin hs :: post)
      = firstFinally (.tryBody i fin hs :: post) := by
    clear hin ht htr
    induction pre with
    | nil => rfl
    | cons f pre ih =>
      have := hpre f (by simp)
      have ih := ih (fun g hg => hpre g (by simp [hg]))
      cases f <;> simp_all [firstFinally, Frame.protects]
  revert ht
  simp only [jumpRaise, storeError, hin, hff]
  cases hc : catcher isinst e (pre ++ .tryBody i fin hs :: post) with
  | some p =>
    intro ht
    rcases ht with ht | ⟨k, ht⟩
    · simp at ht
    · simp at ht
      simp [ht.1]
  | none =>
    cases fin with
    | false =>
      have hp : ∀ f ∈ (Frame.tryBody i false hs :: post), f.plain = true := by
        intro f hf
        rcases List.mem_cons.1 hf with rfl | hf
        · rfl
        · exact hpost f hf
      rw [firstFinally_plain _ hp]
      intro _; rfl
    | true =>
      simp only [firstFinally]
      intro ht
      have key : ∀ (post : List (Frame Ty)) (errs' : Nat → Exc), errs' i = e →
          (∀ f ∈ post, f.plain = true) →
          ((afterRaise isinst errs' i post).trace.target = .caller ∨
            ∃ k, (afterRaise isinst errs' i post).trace.target = .handler i k) →
          (afterRaise isinst errs' i post).bound = e := by
        intro post errs' he hp ht
        clear hff htr hin hpost hc
        induction post with
        | nil => exact he
        | cons f post ih =>
          have hf := hp f (by simp)
          have ih := ih (fun g hg => hp g (by simp [hg]))
          cases f with
          | tryBody j b hs' =>
            cases b
            · simp only [afterRaise] at ht ⊢
              cases hm : firstMatch isinst (errs' i) hs' with
              | some k =>
                simp [hm] at ht
                simp [ht, he]
              | none => simp only [hm] at ht ⊢; simpa using ih (by simpa using ht)
            · simp [Frame.plain] at hf
          | withBody j => simp [Frame.plain] at hf
          | _ => simpa [afterRaise] using ih (by simpa [afterRaise] using ht)
      exact key post _ (by simp) hpost ht

/-- Outside any try body and clean-up region the exception goes to the caller. -/
theorem C08_uncaught (errs : Nat → Exc) (fs : List (Frame Ty)) (e : Exc)
    (h : ∀ f ∈ fs, f.plain = true ∧ f.protects = false) :
    (jumpRaise isinst errs fs e).trace = pyRaise isinst e fs ∧
    (jumpRaise isinst errs fs e).trace.target = .caller ∧
    (jumpRaise isinst errs fs e).bound = e := by
  have hc : catcher isinst e fs = none := by
    induction fs with
    | nil => rfl
    | cons f fs ih =>
      have := h f (by simp)
      have ih := ih (fun g hg => h g (by simp [hg]))
      cases f <;> simp_all [catcher, Frame.protects]
  have hf := firstFinally_plain fs (fun f hf => (h f hf).1)
  rw [catcher_plain isinst e fs (fun f hf => (h f hf).1)]
  simp [jumpRaise, hc, hf]

/-- **C08, proved part (nested finally suites).** Without except clauses an
exception runs every pending finally suite, innermost first, however many there
are, and then reaches the caller (same guard as for return). -/
theorem C08_finally_chain_partial (errs : Nat → Exc) (fs : List (Frame Ty)) (e : Exc)
    (hh : ∀ i b hs, Frame.tryBody i b hs ∈ fs → hs = [])
    (h1 : ∀ f ∈ fs, f.lostFinally = false) (h2 : ∀ f ∈ afterFirst fs, f.isWith = false) :
    (jumpRaise isinst errs fs e).trace = pyRaise isinst e fs ∧
    (jumpRaise isinst errs fs e).trace.target = .caller ∧
    (pyRaise isinst e fs).cleanups = (pyReturn fs).cleanups := by
  have hpy : ∀ (fs : List (Frame Ty)), (∀ i b hs, Frame.tryBody i b hs ∈ fs → hs = []) →
      pyRaise isinst e fs = ⟨(pyReturn fs).cleanups, .caller⟩ := by
    intro fs hh
    induction fs with
    | nil => rfl
    | cons f fs ih =>
      have ih := ih (fun i b hs hm => hh i b hs (by simp [hm]))
      cases f with
      | tryBody i b hs =>
        have := hh i b hs (by simp)
        subst this
        cases b <;> simp [pyRaise, pyReturn, firstMatch, ih, Trace.cons]
      | tryOther i b => cases b <;> simp [pyRaise, pyReturn, ih, Trace.cons]
      | withBody i => simp [pyRaise, pyReturn, ih, Trace.cons]
      | _ => simpa [pyRaise, pyReturn] using ih
  have haf : ∀ (fs : List (Frame Ty)) (errs : Nat → Exc) (blk : Nat),
      (∀ i b hs, Frame.tryBody i b hs ∈ fs → hs = []) →
      (afterRaise isinst errs blk fs).trace = ⟨(afterReturn fs).cleanups, .caller⟩ := by
    intro fs errs
    induction fs with
    | nil => intro blk _; rfl
    | cons f fs ih =>
      intro blk hh
      have ih := fun blk => ih blk (fun i b hs hm => hh i b hs (by simp [hm]))
      cases f with
      | tryBody i b hs =>
        have := hh i b hs (by simp)
        subst this
        cases b <;> simp [afterRaise, afterReturn, firstMatch, ih, Trace.cons, ExcOut.cons]
      | _ => simpa [afterRaise, afterReturn] using ih blk
  have hca : catcher isinst e fs = none := by
    clear h1 h2
    induction fs with
    | nil => rfl
    | cons f fs ih =>
      have ih := ih (fun i b hs hm => hh i b hs (by simp [hm]))
      cases f with
      | tryBody i b hs =>
        have := hh i b hs (by simp)
        subst this
        cases b <;> simp [catcher, firstMatch, ih]
      | _ => simpa [catcher] using ih
  have hjr : (jumpRaise isinst errs fs e).trace = ⟨(jumpReturn fs).cleanups, .caller⟩ := by
    simp only [jumpRaise, hca]
    generalize storeError errs fs e = errs'
    clear h1 h2 hca
    induction fs with
    | nil => rfl
    | cons f fs ih =>
      have hh' : ∀ i b hs, Frame.tryBody i b hs ∈ fs → hs = [] := fun i b hs hm => hh i b hs (by simp [hm])
      have ih := ih hh'
      cases f with
      | tryBody i b hs =>
        cases b
        · simpa [firstFinally, jumpReturn] using ih
        · simp [firstFinally, jumpReturn, ExcOut.cons, haf fs errs' i hh', Trace.cons]
      | withBody i => simp [firstFinally, jumpReturn, ExcOut.cons, haf fs errs' i hh', Trace.cons]
      | _ => simpa [firstFinally, jumpReturn] using ih
  rw [hjr, hpy fs hh, jumpReturn_eq fs h1 h2]
  exact ⟨rfl, rfl, rfl⟩

/-- **C08, proved part (with statements).** An exception that is raised in the body of a with statement and that no
surrounding except clause catches runs `__exit__` and reaches the caller unchanged.  Missing: exceptions that are caught
by a surrounding except clause, for which `__exit__` is skipped. -/
theorem C08_with_partial (errs : Nat → Exc) (pre post : List (Frame Ty)) (i : Nat) (e : Exc)
    (hpre : ∀ f ∈ pre, f.plain = true ∧ f.protects = false) (hpost : ∀ f ∈ post, f.plain = true)
    (ht : (pyRaise isinst e (pre ++ .withBody i :: post)).target = .caller) :
    (jumpRaise isinst errs (pre ++ .withBody i :: post) e).trace = ⟨[i], .caller⟩ ∧
    pyRaise isinst e (pre ++ .withBody i :: post) = ⟨[i], .caller⟩ ∧
    (jumpRaise isinst errs (pre ++ .withBody i :: post) e).bound = e := by
  have hin : innermostTry (pre ++ .withBody i :: post) = some i := by
    clear hpost ht
    induction pre with
    | nil => rfl
    | cons f pre ih =>
      have := hpre f (by simp)
      have ih := ih (fun g hg => hpre g (by simp [hg]))
      cases f <;> simp_all [innermostTry, Frame.protects]
  have hcat : catcher isinst e (pre ++ .withBody i :: post) = catcher isinst e post := by
    clear hin ht
    induction pre with
    | nil => rfl
    | cons f pre ih =>
      have := hpre f (by simp)
      have ih := ih (fun g hg => hpre g (by simp [hg]))
      cases f <;> simp_all [catcher, Frame.protects]
  have hff : firstFinally (pre ++ .withBody i :: post) = some (i, post) := by
    clear hin hcat ht
    induction pre with
    | nil => rfl
    | cons f pre ih =>
      have := hpre f (by simp)
      have ih := ih (fun g hg => hpre g (by simp [hg]))
      cases f <;> simp_all [firstFinally, Frame.protects]
  have hpy : pyRaise isinst e (pre ++ .withBody i :: post) = (pyRaise isinst e post).cons i := by
    clear hin hcat hff ht
    induction pre with
    | nil => rfl
    | cons f pre ih =>
      have hf := hpre f (by simp)
      have ih := ih (fun g hg => hpre g (by simp [hg]))
      cases f with
      | tryBody => simp [Frame.protects] at hf
      | withBody => simp [Frame.protects] at hf
      | tryOther j b => cases b <;> simp_all [pyRaise, Frame.plain]
      | _ => simpa [pyRaise] using ih
  have hplain := catcher_plain isinst e post hpost
  have hnone : catcher isinst e post = none := by
    rw [hpy, hplain] at ht
    cases h : catcher isinst e post with
    | none => rfl
    | some p => rw [h] at ht; simp [Trace.cons] at ht
  rw [hnone] at hplain
  have hj : jumpRaise isinst errs (pre ++ .withBody i :: post) e
      = (afterRaise isinst (storeError errs (pre ++ .withBody i :: post) e) i post).cons i := by
    simp only [jumpRaise, hcat, hnone, hff]
  have hs : storeError errs (pre ++ .withBody i :: post) e i = e := by simp [storeError, hin]
  have hb : ∀ (errs' : Nat → Exc) (post : List (Frame Ty)), errs' i = e → (∀ f ∈ post, f.plain = true) →
      catcher isinst e post = none → (afterRaise isinst errs' i post).bound = e := by
    intro errs' post he hp hc
    induction post with
    | nil => exact he
    | cons f post ih =>
      have hf := hp f (by simp)
      have ih := ih (fun g hg => hp g (by simp [hg]))
      cases f with
      | tryBody j b hs' =>
        cases b
        · simp only [catcher] at hc
          cases hm : firstMatch isinst e hs' with
          | some k => rw [hm] at hc; simp at hc
          | none => rw [hm] at hc; simp only [afterRaise, he, hm]; simpa using ih (by simpa using hc)
        · simp [Frame.plain] at hf
      | _ => simpa [afterRaise] using ih (by simpa [catcher] using hc)
  refine ⟨?_, ?_, ?_⟩
  · rw [hj]
    simp only [ExcOut.cons, afterRaise_plain isinst _ i post hpost, hs, hplain, Trace.cons]
  · rw [hpy, hplain]; rfl
  · rw [hj]
    exact hb _ post hs hpost hnone

end

/-- Non-vacuity: `__exit__` runs, and the caller gets the exception. -/
example : (jumpRaise (fun a b : Nat => a == b) (fun _ => 0)
    ([.loop 2] ++ .withBody 1 :: [.tryBody 0 false [6]]) 5).bound = 5 :=
  (C08_with_partial _ _ _ _ _ _ (by decide) (by decide) (by decide)).2.2

/-- Non-vacuity: three nested finally suites. -/
example : (jumpRaise (fun a b : Nat => a == b) (fun _ => 0)
    [.tryBody 2 true [], .loop 5, .tryBody 1 true [], .tryBody 0 true []] 5).trace = ⟨[2, 1, 0], .caller⟩ := by
  rw [(C08_finally_chain_partial _ _ _ _ (by simp; grind) (by decide) (by decide)).1]
  decide

/-- Non-vacuity: `try: (try: while c: raise 5  except 6: ..  finally: F) except 5: ..`
runs F and arrives at the outer handler. -/
example : (jumpRaise (fun a b : Nat => a == b) (fun _ => 0)
    ([.loop 2] ++ .tryBody 1 true [6] :: [.tryBody 0 false [4, 5]]) 5).trace = ⟨[1], .handler 0 1⟩ := by
  rw [C08_target_partial _ _ _ _ _ _ _ _ (by decide) (by decide)]
  decide

/-- Non-vacuity: own handler sees the exception. -/
example : (jumpRaise (fun a b : Nat => a == b) (fun _ => 0)
    ([.loop 2] ++ .tryBody 1 true [6, 5] :: [.tryBody 0 false [4, 5]]) 5).bound = 5 :=
  C08_value_partial _ _ _ _ _ _ _ _ (by decide) (by decide) (Or.inr ⟨1, by decide⟩)

end Nagini.Unwind
