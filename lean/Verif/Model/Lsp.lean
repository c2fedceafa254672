import Verif.Model.Service

/-!
Model of the language server's runs on top of the verification service: the event loop starts runs
(and cancels older ones of the same document first), worker threads execute the service's steps,
results are delivered to the event loop.

The limit of four worker threads is left out, and results may be delivered in any order (the real
order is that of completion): the model has more executions than the code, the counterexamples use
two workers and deliver results in the order of completion.
-/
namespace Nagini.Lsp

open Service

/-- `svc`: the service.  `built`: whether it exists.  `loop`: the run the event loop is starting while
it waits for the cancellation of an older one.  `started`: runs, newest first.  `shown`: the run whose
diagnostics are shown for a document.  Models lsp_server.py:55-72, 97-125. -/
structure LState (E P X D : Type) where
  svc : State E P X D
  built : Bool
  loop : Option Nat
  started : List Nat
  delivered : Nat → Bool
  shown : Nat → Option Nat

/-- Steps of the language server.  Models lsp_server.py:97-131. -/
inductive LLabel (X : Type)
  | start (r : Nat) | enqueue | svc (l : Label X) | deliver (r : Nat)

variable {E P X D : Type}

/-- Whether workers may take a step: a run begins only after it has been started, and the event
loop is thread 0 of those that cancel.  Models lsp_server.py:108-109, 127-131. -/
def allowed (s : LState E P X D) : Label X → Bool
  | .choose r => r ∈ s.started
  | .lookup k _ | .kill k => k ≠ 0
  | _ => true

/-- Whether a step builds the service.  Models lsp_server.py:89-95, 128. -/
def builds : Label X → Bool
  | .choose _ => true
  | _ => false

/-- Whether a result is that of a cancelled run.  Models lsp_server.py:116. -/
def isCancelled : Result D → Bool
  | .cancelled => true
  | _ => false

/-- One step.  The document of a run is its token.  Models lsp_server.py:97-131. -/
def lstep (W : World E P X D) (s : LState E P X D) : LLabel X → Option (LState E P X D)
  -- lsp_server.py:97-103
  | .start r =>
    match s.loop, W.token r with
    | none, some u =>
      if r ∈ s.started then none
      else if s.built then
        match step W s.svc (.lookup 0 u) with
        | some v => some { s with svc := v, loop := some r }
        | none => none
      else some { s with started := r :: s.started }
    | _, _ => none
  -- lsp_server.py:103-109
  | .enqueue =>
    match s.loop with
    | some r =>
      match step W s.svc (.kill 0) with
      | some v => some { s with svc := v, loop := none, started := r :: s.started }
      | none => none
    | none => none
  -- lsp_server.py:127-131
  | .svc l =>
    if allowed s l then
      match step W s.svc l with
      | some v => some { s with svc := v, built := s.built || builds l }
      | none => none
    else none
  -- lsp_server.py:116-122
  | .deliver r =>
    match s.loop, W.token r, s.svc.phase r with
    | none, some u, .done res =>
      if s.delivered r then none
      else some { s with
        delivered := upd s.delivered r true
        shown := if isCancelled res then s.shown else upd s.shown u (some r) }
    | _, _, _ => none

/-- All steps of a schedule.  Models an execution of lsp_server.py:97-131. -/
def lrun (W : World E P X D) (s : LState E P X D) : List (LLabel X) → Option (LState E P X D)
  | [] => some s
  | l :: ls =>
    match lstep W s l with
    | some s' => lrun W s' ls
    | none => none

/-- The server before its first run.  Models lsp_server.py:55-72; the service is built with
configuration `c`. -/
def linit (c : Conf) : LState E P X D where
  svc := init c
  built := false
  loop := none
  started := []
  delivered := fun _ => false
  shown := fun _ => none

end Nagini.Lsp
