/-!
Reference semantics of Python's non-local control flow (return, break, continue,
raise) through loops, try statements and with statements.  Nothing here is taken
from nagini.  Clean-up code (finally suites, `__exit__`) is assumed to complete
normally, `__exit__` not to swallow exceptions.
-/
namespace Nagini.Unwind

/-- One syntactic construct around a statement, innermost first in a context.
Every construct has an identifier; the constructor says in which part of the
construct the statement lies. -/
inductive Frame (Ty : Type) where
  /-- inside the body of a loop -/
  | loop (id : Nat)
  /-- inside the `else` suite of a loop -/
  | loopElse (id : Nat)
  /-- inside the body of a try statement with (`fin`) or without finally suite and
  with except clauses for the types `hs` -/
  | tryBody (id : Nat) (fin : Bool) (hs : List Ty)
  /-- inside an except clause or the else suite of a try statement -/
  | tryOther (id : Nat) (fin : Bool)
  /-- inside the finally suite of a try statement -/
  | tryFinal (id : Nat)
  /-- inside the body of a with statement -/
  | withBody (id : Nat)
  deriving DecidableEq, Repr

/-- Where control arrives in the end. -/
inductive Target where
  /-- method exit (after return) -/
  | methodEnd
  /-- behind loop `id` -/
  | afterLoop (id : Nat)
  /-- next iteration of loop `id` -/
  | nextIter (id : Nat)
  /-- behind the try or with statement `id` -/
  | afterBlock (id : Nat)
  /-- except clause number `k` of try statement `id` -/
  | handler (id k : Nat)
  /-- the caller, with an exception -/
  | caller
  deriving DecidableEq, Repr

/-- The clean-up code that runs (identifiers, in order) and the final target. -/
structure Trace where
  cleanups : List Nat
  target : Target
  deriving DecidableEq, Repr

def Trace.cons (i : Nat) (t : Trace) : Trace := ⟨i :: t.cleanups, t.target⟩

variable {Ty : Type}

/-- `return`: every pending finally suite and `__exit__`, innermost first. -/
def pyReturn : List (Frame Ty) → Trace
  | [] => ⟨[], .methodEnd⟩
  | .tryBody i true _ :: fs => (pyReturn fs).cons i
  | .tryOther i true :: fs => (pyReturn fs).cons i
  | .withBody i :: fs => (pyReturn fs).cons i
  | _ :: fs => pyReturn fs

/-- `break`/`continue`: the same, up to the innermost loop whose body contains the
statement.  `none` if there is no such loop (a syntax error). -/
def pyLoopJump (stop : Nat → Target) : List (Frame Ty) → Option Trace
  | [] => none
  | .loop i :: _ => some ⟨[], stop i⟩
  | .tryBody i true _ :: fs => (pyLoopJump stop fs).map (Trace.cons i)
  | .tryOther i true :: fs => (pyLoopJump stop fs).map (Trace.cons i)
  | .withBody i :: fs => (pyLoopJump stop fs).map (Trace.cons i)
  | _ :: fs => pyLoopJump stop fs

/-- Index of the first except clause that matches. -/
def firstMatch {Exc : Type} (isinst : Exc → Ty → Bool) (e : Exc) (hs : List Ty) : Option Nat :=
  hs.findIdx? (isinst e)

/-- `raise e`: clean-up code up to the first matching except clause. -/
def pyRaise {Exc : Type} (isinst : Exc → Ty → Bool) (e : Exc) : List (Frame Ty) → Trace
  | [] => ⟨[], .caller⟩
  | .tryBody i fin hs :: fs =>
    match firstMatch isinst e hs with
    | some k => ⟨[], .handler i k⟩
    | none => if fin then (pyRaise isinst e fs).cons i else pyRaise isinst e fs
  | .tryOther i true :: fs => (pyRaise isinst e fs).cons i
  | .withBody i :: fs => (pyRaise isinst e fs).cons i
  | _ :: fs => pyRaise isinst e fs

/-! ### Guards used in theorem statements -/

/-- Clean-up suites nagini forgets: statements in an except clause or else suite of
a try statement with finally. -/
def Frame.lostFinally : Frame Ty → Bool
  | .tryOther _ true => true
  | _ => false

def Frame.isWith : Frame Ty → Bool
  | .withBody _ => true
  | _ => false

def Frame.isLoop : Frame Ty → Bool
  | .loop _ => true
  | _ => false

def Frame.isLoopElse : Frame Ty → Bool
  | .loopElse _ => true
  | _ => false

/-- Frames with clean-up code that nagini sees (finally of the surrounding try
body, with). -/
def Frame.hasCleanup : Frame Ty → Bool
  | .tryBody _ f _ => f
  | .withBody _ => true
  | _ => false

/-- Frames after the first frame with visible clean-up code. -/
def afterFirst : List (Frame Ty) → List (Frame Ty)
  | [] => []
  | f :: fs => if f.hasCleanup then fs else afterFirst fs

/-- No clean-up code at all (visible to nagini or not). -/
def Frame.plain : Frame Ty → Bool
  | .tryBody _ f _ => !f
  | .tryOther _ f => !f
  | .withBody _ => false
  | _ => true

end Nagini.Unwind
