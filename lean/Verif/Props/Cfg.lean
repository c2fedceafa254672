import Verif.Lemmas.CfgMain
import Verif.Lemmas.CfgTargets

/-!
C70 The control flow graph generated for a method body simulates Python's execution of the body.
C71 Generated programs have distinct labels, all jumps have a target, and executions do not get stuck.
-/
namespace Nagini.Cfg

variable {σ Val Exc Ty : Type}

/-! ### C70 -/

/-- The generated method, started with arbitrary values of the auxiliary variables, ends as Python's execution
does: with a failed check, or with the same store, returned value and exception. -/
def Ends (isinst : Exc → Ty → Bool) (s : Stmt σ Val Exc Ty) (m : M σ Val Exc) (o : Outcome Val Exc) (b : σ) : Prop :=
  (o = .fail → Steps (program isinst s) (.run (program isinst s) m) .failed) ∧
  (o ≠ .fail → ∃ m', Steps (program isinst s) (.run (program isinst s) m) (.run [] m') ∧
    m'.user = b ∧ m'.res = o.value ∧ m'.err none = o.exitArg)

/-- All Python executions of a body are simulated. -/
def FaithfulFor (isinst : Exc → Ty → Bool) (s : Stmt σ Val Exc Ty) : Prop :=
  ∀ a o b, Exec isinst (.stmt s) a o b → ∀ errs fins, Ends isinst s (start a errs fins) o b

/-- C70: all executions of all bodies that Python accepts are simulated (identifiers of compound statements
are distinct as they stand for syntax nodes). -/
def CfgFaithful : Prop :=
  ∀ (σ Val Exc Ty : Type) (isinst : Exc → Ty → Bool) (s : Stmt σ Val Exc Ty), s.ids.Nodup → s.placed false = true →
    FaithfulFor isinst s

/-- Execution for at most n steps. -/
def runN (P : List (Instr σ Val Exc)) : Nat → Config σ Val Exc → Config σ Val Exc
  | 0, c => c
  | n + 1, c => match step P c with
    | none => c
    | some c' => runN P n c'

theorem runN_steps (P : List (Instr σ Val Exc)) : ∀ n c, Steps P c (runN P n c)
  | 0, c => .refl c
  | n + 1, c => by
    simp only [runN]
    split
    · exact .refl c
    · rename_i c' h
      exact .next _ _ _ h (runN_steps P n c')

/-- A way to show that an execution is not simulated. -/
theorem not_faithful {isinst : Exc → Ty → Bool} {s : Stmt σ Val Exc Ty} {a b : σ} {o : Outcome Val Exc} (h : Exec isinst (.stmt s) a o b)
    (ho : o ≠ .fail) (errs fins) (n : Nat)
    (hr : ∃ m', runN (program isinst s) n (.run (program isinst s) (start a errs fins)) = .run [] m' ∧
      ¬ (m'.user = b ∧ m'.res = o.value ∧ m'.err none = o.exitArg)) : ¬ FaithfulFor isinst s := by
  intro hf
  obtain ⟨m1, h1, h2⟩ := (hf a o b h errs fins).2 ho
  obtain ⟨m2, h3, h4⟩ := hr
  have h5 := runN_steps (program isinst s) n (.run (program isinst s) (start a errs fins))
  rw [h3] at h5
  have := Steps.det h1 h5 rfl rfl
  cases this
  exact h4 h2

/-! Witnesses: the store is a list to which numbers are appended; exceptions and their types are numbers. -/

namespace Witness

abbrev S := Stmt (List Nat) Nat Nat Nat

def isT (e t : Nat) : Bool := e == t
def log (n : Nat) : S := .act fun l => some (l ++ [n])
def skip : S := .act some
def raise (e : Nat) : S := .call fun l => some (l, some e)
def exitLog (e : Option Nat) (l : List Nat) : List Nat := l ++ [if e.isSome then 1 else 0]

/-- `try: raise E7() except E7: return finally: log 1` -/
def returnInExcept : S := .tryS 0 (raise 7) (.cons 7 none (.ret none) .nil) false skip true (log 1)

/-- `try: raise E7() except E7: raise E8() finally: log 1` -/
def raiseInExcept : S := .tryS 0 (raise 7) (.cons 7 none (raise 8) .nil) false skip true (log 1)

/-- `try: with c: raise E7() except E7: log 2` -/
def withInTry : S := .tryS 0 (.withS 1 id (raise 7) exitLog) (.cons 7 none (log 2) .nil) false skip false skip

/-- `while True: with c: break` -/
def breakInWith : S := .loop 0 (fun _ => true) (.withS 1 id .brk exitLog) skip

/-- `try: (while True: break); log 1 finally: log 2` -/
def loopInTry : S := .tryS 0 (.seq (.loop 1 (fun _ => true) .brk skip) (log 1)) .nil false skip true (log 2)

/-- `try: return 5 finally: return` -/
def returnInFinally : S := .tryS 0 (.ret (some fun _ => some 5)) .nil false skip true (.ret none)

/-- `try: (try: raise E7() finally: log 1) finally: log 2` -/
def nestedFinally : S := .tryS 0 (.tryS 1 (raise 7) .nil false skip true (log 1)) .nil false skip true (log 2)

/-- `try: (try: raise E7() except E8: pass) except E7 as e: log e` -/
def namedOuter : S :=
  .tryS 0 (.tryS 1 (raise 7) (.cons 8 none skip .nil) false skip false skip)
    (.cons 7 (some fun e l => l ++ [e.getD 0]) skip .nil) false skip false skip

end Witness
open Witness

/-- A return in an except clause skips the finally suite of the same statement. -/
theorem C70_return_in_except_fails : ¬ FaithfulFor isT returnInExcept :=
  not_faithful (a := []) (b := [1]) (o := .ret none)
    (.tryFin _ _ _ _ _ _ _ _ [] _ _ (.innerCatch _ _ _ _ _ _ _ _ [] _ 7 none (.ret none) _ (.callExc _ _ _ _ rfl) rfl (.retNone _)) rfl (by simp)
      (.act _ _ _ rfl)) (by simp) (fun _ => none) (fun _ => 0) 40 ⟨_, rfl, by decide⟩

/-- So does an exception raised in an except clause. -/
theorem C70_raise_in_except_fails : ¬ FaithfulFor isT raiseInExcept :=
  not_faithful (a := []) (b := [1]) (o := .exc 8)
    (.tryFin _ _ _ _ _ _ _ _ [] _ _ (.innerCatch _ _ _ _ _ _ _ _ [] _ 7 none (raise 8) _ (.callExc _ _ _ _ rfl) rfl (.callExc _ _ _ _ rfl)) rfl (by simp)
      (.act _ _ _ rfl)) (by simp) (fun _ => none) (fun _ => 0) 40 ⟨_, rfl, by decide⟩

/-- An exception raised in a with statement and caught further out skips `__exit__`. -/
theorem C70_with_in_try_fails : ¬ FaithfulFor isT withInTry :=
  not_faithful (a := []) (b := [1, 2]) (o := .normal)
    (.tryNoFin _ _ _ _ _ _ _ _ _ _ (.innerCatch _ _ _ _ _ _ _ _ [1] _ 7 none (log 2) _
      (.withS 1 id (raise 7) exitLog [] [] (.exc 7) (.callExc _ _ _ _ rfl) (by simp)) rfl (.act _ _ _ rfl)) rfl)
    (by simp) (fun _ => none) (fun _ => 0) 40 ⟨_, rfl, by decide⟩

/-- A break out of a with statement tells `__exit__` the previous value of the error variable. -/
theorem C70_break_in_with_fails : ¬ FaithfulFor isT breakInWith :=
  not_faithful (a := []) (b := [0]) (o := .normal)
    (.loopBrk _ _ _ _ _ _ rfl (.withS 1 id .brk exitLog [] [] .brk (.brk _) (by simp)))
    (by simp) (fun _ => some 7) (fun _ => 0) 40 ⟨_, rfl, by decide⟩

/-- A break out of a loop in a try statement with finally suite leaves the try statement, too. -/
theorem C70_loop_in_try_fails : ¬ FaithfulFor isT loopInTry :=
  not_faithful (a := []) (b := [1, 2]) (o := .normal)
    (.tryFin _ _ _ _ _ _ _ _ [1] _ _ (.innerEnd _ _ _ _ _ _ _ _ _ (.seq _ _ _ [] _ _ (.loopBrk _ _ _ _ _ _ rfl (.brk _)) (.act _ _ _ rfl)) rfl)
      rfl (by simp) (.act _ _ _ rfl)) (by simp) (fun _ => none) (fun _ => 0) 40 ⟨_, rfl, by decide⟩

/-- A return without value in a finally suite keeps the value that was to be returned. -/
theorem C70_return_in_finally_fails : ¬ FaithfulFor isT returnInFinally :=
  not_faithful (a := []) (b := []) (o := .ret none)
    (.tryOver _ _ _ _ _ _ _ _ [] _ (.ret (some 5)) _ (.innerJump _ _ _ _ _ _ _ _ _ _ (.ret _ _) (by simp) (by simp)) rfl (by simp)
      (.retNone _) (by simp)) (by simp) (fun _ => none) (fun _ => 0) 40 ⟨_, rfl, by decide⟩

/-- An exception that passes two finally suites is lost. -/
theorem C70_nested_finally_fails : ¬ FaithfulFor isT nestedFinally :=
  not_faithful (a := []) (b := [1, 2]) (o := .exc 7)
    (.tryFin _ _ _ _ _ _ _ _ [1] _ _ (.innerUncaught _ _ _ _ _ _ _ _ _ _
      (.tryFin _ _ _ _ _ _ _ _ [] _ _ (.innerUncaught _ _ _ _ _ _ _ _ _ _ (.callExc _ _ _ _ rfl) rfl) rfl (by simp) (.act _ _ _ rfl)) rfl)
      rfl (by simp) (.act _ _ _ rfl)) (by simp) (fun _ => none) (fun _ => 0) 40 ⟨_, rfl, by decide⟩

/-- The name in an except clause does not stand for an exception that passed an inner try statement. -/
theorem C70_named_outer_fails : ¬ FaithfulFor isT namedOuter :=
  not_faithful (a := []) (b := [7]) (o := .normal)
    (.tryNoFin _ _ _ _ _ _ _ _ _ _ (.innerCatch _ _ _ _ _ _ _ _ [] _ 7 (some fun e l => l ++ [e.getD 0]) skip _
      (.tryNoFin _ _ _ _ _ _ _ _ _ _ (.innerUncaught _ _ _ _ _ _ _ _ _ _ (.callExc _ _ _ _ rfl) rfl) rfl) rfl (.act _ _ _ rfl)) rfl)
    (by simp) (fun _ => none) (fun _ => 0) 40 ⟨_, rfl, by decide⟩

theorem C70_cfg_faithful_fails : ¬ CfgFaithful := fun h =>
  C70_nested_finally_fails (h _ _ _ _ isT nestedFinally (by decide) (by decide))

/-- C70 for the bodies described by `ok`.  Missing are: exceptions and returns in except clauses and else suites
of try statements with finally suite; exceptions passing several blocks with clean-up code, or passing a try
statement on their way to an except clause with name; with statements in try statements; loop jumps out of with
statements and in loops inside of blocks with clean-up code; compound finally suites after a return. -/
theorem C70_cfg_faithful_partial (isinst : Exc → Ty → Bool) (s : Stmt σ Val Exc Ty) (hn : s.ids.Nodup) (hok : ok [] s = true) :
    FaithfulFor isinst s := by
  intro a o b h errs fins
  have := method_sim s hok hn h (start a errs fins) rfl rfl rfl
  exact ⟨this.1, fun hf => (this.2 hf).2.2⟩

/-- Conversely, when the generated method ends and Python's execution does, they end alike: a failed check in
one is a failed check in the other, and otherwise the final states agree. -/
theorem C70_cfg_end_partial (isinst : Exc → Ty → Bool) (s : Stmt σ Val Exc Ty) (hn : s.ids.Nodup) (hok : ok [] s = true)
    (a b : σ) (o : Outcome Val Exc) (h : Exec isinst (.stmt s) a o b) (errs fins) (c : Config σ Val Exc)
    (hc : Steps (program isinst s) (.run (program isinst s) (start a errs fins)) c) (hs : step (program isinst s) c = none) :
    (c = .failed ↔ o = .fail) ∧
    ∀ k m, c = .run k m → m.user = b ∧ m.res = o.value ∧ m.err none = o.exitArg := by
  have hm := C70_cfg_faithful_partial isinst s hn hok a o b h errs fins
  by_cases hf : o = .fail
  · have := Steps.det hc (hm.1 hf) hs rfl
    subst this
    exact ⟨by simp [hf], fun k m h => by cases h⟩
  · obtain ⟨m', h1, h2⟩ := hm.2 hf
    have := Steps.det hc h1 hs rfl
    subst this
    refine ⟨by simp [hf], fun k m h => ?_⟩
    cases h
    exact h2

/-- A body with a loop, `continue` in a try statement with a finally suite, an except clause with a name, an else
suite, a with statement and returns meets the hypotheses ... -/
def Witness.good : S :=
  .seq (.loop 0 (fun l => l.length < 5)
      (.seq (.tryS 1 (.ite 2 (fun l => l.length < 2) .cont (raise 7)) (.cons 7 (some fun e l => l ++ [e.getD 0]) (log 3) .nil) true (log 4) true (log 5)) .brk)
      (log 6))
    (.withS 3 (· ++ [8]) (.ret (some fun l => some l.length)) exitLog)

example : (good.ids.Nodup ∧ ok [] good = true) ∧ good.placed false = true := by decide

/-- ... and has this execution. -/
example : Exec isT (.stmt good) [0] (.ret (some 6)) [0, 5, 7, 3, 5, 8, 0] := by
  refine .seq _ _ _ [0, 5, 7, 3, 5] _ _ ?_ ?_
  · refine .loopNext _ _ _ _ _ [0, 5] .cont _ _ rfl ?_ (.inr rfl) ?_
    · refine .seqStop _ _ _ _ _ ?_ (by simp)
      exact .tryFin _ _ _ _ _ _ _ _ [0] _ _ (.innerJump _ _ _ _ _ _ _ _ _ _ (.iteTrue _ _ _ _ _ _ _ rfl (.cont _)) (by simp) (by simp)) rfl (by simp)
        (.act _ _ _ rfl)
    · refine .loopBrk _ _ _ _ _ _ rfl (.seq _ _ _ [0, 5, 7, 3, 5] _ _ ?_ (.brk _))
      exact .tryFin _ _ _ _ _ _ _ _ [0, 5, 7, 3] _ _ (.innerCatch _ _ _ _ _ _ _ _ [0, 5] _ 7 (some fun e l => l ++ [e.getD 0]) (log 3) _
        (.iteFalse _ _ _ _ _ _ _ rfl (.callExc _ _ _ _ rfl)) rfl (.act _ _ _ rfl)) rfl (by simp) (.act _ _ _ rfl)
  · exact .withS 3 (· ++ [8]) _ exitLog [0, 5, 7, 3, 5] [0, 5, 7, 3, 5, 8] (.ret (some 6)) (.ret _ _) (by simp)

/-! ### C71 -/

/-- The labels that an instruction declares. -/
def Instr.declares : Instr σ Val Exc → Option Label
  | .label l => some l
  | _ => none

/-- The label to which an instruction may jump. -/
def Instr.target : Instr σ Val Exc → Option Label
  | .jump _ _ l => some l
  | .goto l => some l
  | _ => none

theorem labels_eq (c : List (Instr σ Val Exc)) : labels c = c.filterMap Instr.declares := by
  induction c with
  | nil => rfl
  | cons x c ih => cases x <;> simp [labels, List.filterMap_cons, Instr.declares, ih]

theorem targets_eq (c : List (Instr σ Val Exc)) : targets c = c.filterMap Instr.target := by
  induction c with
  | nil => rfl
  | cons x c ih => cases x <;> simp [targets, List.filterMap_cons, Instr.target, ih]

/-- C71: for every method body, each jump in the generated code has exactly one target. -/
theorem C71_jump_targets (isinst : Exc → Ty → Bool) (s : Stmt σ Val Exc Ty) (hn : s.ids.Nodup) (x : Instr σ Val Exc)
    (hx : x ∈ program isinst s) (l : Label) (hl : x.target = some l) :
    ((program isinst s).filterMap Instr.declares).count l = 1 := by
  have ht : l ∈ targets (program isinst s) := by
    rw [targets_eq, List.mem_filterMap]
    exact ⟨x, hx, hl⟩
  have hm := targets_program isinst s l ht
  have h1 := List.nodup_iff_count.1 (labels_nodup isinst s hn) l
  have h2 := List.count_pos_iff.2 hm
  rw [← labels_eq]
  omega

/-- C71: labels are declared once. -/
theorem C71_labels_distinct (isinst : Exc → Ty → Bool) (s : Stmt σ Val Exc Ty) (hn : s.ids.Nodup) :
    ((program isinst s).filterMap Instr.declares).Nodup := by
  rw [← labels_eq]
  exact labels_nodup isinst s hn

/-- C71: an execution of the generated code ends only with a failed check or at the end of the method. -/
theorem C71_not_stuck (isinst : Exc → Ty → Bool) (s : Stmt σ Val Exc Ty) (m : M σ Val Exc) (c : Config σ Val Exc)
    (hc : Steps (program isinst s) (.run (program isinst s) m) c) (hs : step (program isinst s) c = none) :
    c = .failed ∨ ∃ m', c = .run [] m' :=
  progress (targets_program isinst s) hc (fun k m' h => by cases h; exact List.suffix_refl _) hs

/-- The bodies that are not simulated are covered. -/
example : nestedFinally.ids.Nodup ∧ loopInTry.ids.Nodup ∧ withInTry.ids.Nodup := by decide

example : 20 < ((program isT good).filterMap Instr.target).length := by decide

end Nagini.Cfg
