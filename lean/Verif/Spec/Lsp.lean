import Verif.Model.Lsp
import Verif.Spec.Service

/-!
What a language server should show.
-/
namespace Nagini.Lsp

open Service

variable {E P X D : Type}

/-- The run of document `u` started last. -/
def newest (W : World E P X D) (s : LState E P X D) (u : Nat) : Option Nat :=
  s.started.find? fun r => W.token r = some u

/-- All runs of document `u` have finished and their results have been delivered. -/
def Quiet (W : World E P X D) (s : LState E P X D) (u : Nat) : Prop :=
  s.loop = none ∧ ∀ r ∈ s.started, W.token r = some u → s.delivered r = true

/-- A run that is going to be reported as cancelled. -/
def Doomed (s : State E P X D) (r : Nat) : Prop :=
  (∃ n j, s.phase r = .registered n j ∧ Cancelled s j) ∨ (∃ n j, s.phase r = .awaited n j none) ∨
    s.phase r = .done .cancelled

/-- A run that waits for its job, where `cancel` finds the job. -/
def Waiting (s : State E P X D) (u r : Nat) : Prop :=
  s.conf.server = true ∧ ∃ n j, s.phase r = .registered n j ∧ s.reg u = some j

/-- When a run is started, all older runs of the same document have been delivered, are doomed, or
wait for a job that `cancel` can stop; and such a job does not finish while it is being cancelled. -/
def Timely (W : World E P X D) (s : LState E P X D) : List (LLabel X) → Prop
  | [] => True
  | l :: ls =>
    (match l with
      | .start r => ∀ r' ∈ s.started, W.token r' = W.token r → s.delivered r' = true ∨ Doomed s.svc r' ∨
          ∃ u, W.token r = some u ∧ Waiting s.svc u r'
      | .enqueue => ∀ t j, s.svc.cancels 0 = some (t, some j) → ∀ job, s.svc.jobs j = some job →
          ∀ o, job.status ≠ .finished o
      | _ => True) ∧
    ∀ s', lstep W s l = some s' → Timely W s' ls

end Nagini.Lsp
