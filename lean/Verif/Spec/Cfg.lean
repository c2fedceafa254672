/-!
Python's execution of a method body: statements with non-local control flow (return, break, continue,
exceptions) through loops, try statements and with statements, as a big-step semantics.  Nothing here is taken
from nagini.

A failing check (a violated assertion) ends the execution at once with the outcome `fail`.  So an execution
that reaches a failing check is described even if the rest of the program would not terminate.
-/
namespace Nagini.Cfg

/-- How a statement ends. -/
inductive Outcome (Val Exc : Type) where
  | normal
  /-- `return`; `none` is the value None -/
  | ret (v : Option Val)
  | brk
  | cont
  | exc (e : Exc)
  /-- a check failed -/
  | fail
  deriving DecidableEq

mutual

/-- Statements.  Conditions and values are functions of the store `σ`; compound statements carry an
identifier, which has no meaning in Python. -/
inductive Stmt (σ Val Exc Ty : Type) where
  /-- a simple statement that raises no exception; `none` if it contains a check that fails -/
  | act (f : σ → Option σ)
  /-- a simple statement that may raise an exception: a call, or `raise` -/
  | call (f : σ → Option (σ × Option Exc))
  | seq (s t : Stmt σ Val Exc Ty)
  | ite (i : Nat) (c : σ → Bool) (s t : Stmt σ Val Exc Ty)
  | loop (i : Nat) (c : σ → Bool) (body orelse : Stmt σ Val Exc Ty)
  /-- `return` (`none`) or `return e` -/
  | ret (v : Option (σ → Option Val))
  | brk
  | cont
  /-- `try: body except ..: .. else: orelse finally: final`; the else and finally suites exist if `hasElse`
  and `hasFin` say so -/
  | tryS (i : Nat) (body : Stmt σ Val Exc Ty) (hs : Handlers σ Val Exc Ty) (hasElse : Bool)
      (orelse : Stmt σ Val Exc Ty) (hasFin : Bool) (final : Stmt σ Val Exc Ty)
  /-- a with statement; `enter` evaluates the context expression, calls `__enter__` and binds its result, and
  `exit` is the effect of `__exit__` on being told the exception or `None`.  Both raise no exceptions, and
  `__exit__` does not swallow exceptions. -/
  | withS (i : Nat) (enter : σ → σ) (body : Stmt σ Val Exc Ty) (exit : Option Exc → σ → σ)

/-- Except clauses. -/
inductive Handlers (σ Val Exc Ty : Type) where
  | nil
  /-- `except ty as x: body`; `bind` stores the exception in x -/
  | cons (ty : Ty) (bind : Option (Option Exc → σ → σ)) (body : Stmt σ Val Exc Ty) (rest : Handlers σ Val Exc Ty)

end

variable {σ Val Exc Ty : Type}

/-- The first except clause that matches. -/
def Handlers.find (isinst : Exc → Ty → Bool) (e : Exc) :
    Handlers σ Val Exc Ty → Option (Option (Option Exc → σ → σ) × Stmt σ Val Exc Ty)
  | .nil => none
  | .cons ty b s r => if isinst e ty then some (b, s) else r.find isinst e

/-- What is executed: a statement, or a try statement without its finally suite. -/
inductive Job (σ Val Exc Ty : Type) where
  | stmt (s : Stmt σ Val Exc Ty)
  | inner (i : Nat) (body : Stmt σ Val Exc Ty) (hs : Handlers σ Val Exc Ty) (hasElse : Bool)
      (orelse : Stmt σ Val Exc Ty) (hasFin : Bool) (final : Stmt σ Val Exc Ty)

/-- What `__exit__` is told. -/
def Outcome.exitArg : Outcome Val Exc → Option Exc
  | .exc e => some e
  | _ => none

/-- The store in which an except clause starts. -/
def bound (b : Option (Option Exc → σ → σ)) (e : Exc) (s : σ) : σ :=
  match b with
  | none => s
  | some f => f (some e) s

/-- Execution of a job from one store to another with an outcome. -/
inductive Exec (isinst : Exc → Ty → Bool) : Job σ Val Exc Ty → σ → Outcome Val Exc → σ → Prop where
  | act (f a b) : f a = some b → Exec isinst (.stmt (.act f)) a .normal b
  | actFail (f a) : f a = none → Exec isinst (.stmt (.act f)) a .fail a
  | call (f a b) : f a = some (b, none) → Exec isinst (.stmt (.call f)) a .normal b
  | callExc (f a b e) : f a = some (b, some e) → Exec isinst (.stmt (.call f)) a (.exc e) b
  | callFail (f a) : f a = none → Exec isinst (.stmt (.call f)) a .fail a
  | seq (s t a b c o) : Exec isinst (.stmt s) a .normal b → Exec isinst (.stmt t) b o c →
      Exec isinst (.stmt (.seq s t)) a o c
  | seqStop (s t a b o) : Exec isinst (.stmt s) a o b → o ≠ .normal → Exec isinst (.stmt (.seq s t)) a o b
  | iteTrue (i c s t a b o) : c a = true → Exec isinst (.stmt s) a o b → Exec isinst (.stmt (.ite i c s t)) a o b
  | iteFalse (i c s t a b o) : c a = false → Exec isinst (.stmt t) a o b → Exec isinst (.stmt (.ite i c s t)) a o b
  | loopElse (i c s t a b o) : c a = false → Exec isinst (.stmt t) a o b → Exec isinst (.stmt (.loop i c s t)) a o b
  | loopBrk (i c s t a b) : c a = true → Exec isinst (.stmt s) a .brk b → Exec isinst (.stmt (.loop i c s t)) a .normal b
  | loopNext (i c s t a b o' d o) : c a = true → Exec isinst (.stmt s) a o' b → o' = .normal ∨ o' = .cont →
      Exec isinst (.stmt (.loop i c s t)) b o d → Exec isinst (.stmt (.loop i c s t)) a o d
  | loopStop (i c s t a b o) : c a = true → Exec isinst (.stmt s) a o b → o ≠ .normal → o ≠ .cont → o ≠ .brk →
      Exec isinst (.stmt (.loop i c s t)) a o b
  | retNone (a) : Exec isinst (.stmt (.ret none)) a (.ret none) a
  | ret (v a) : Exec isinst (.stmt (.ret (some v))) a (.ret (v a)) a
  | brk (a) : Exec isinst (.stmt .brk) a .brk a
  | cont (a) : Exec isinst (.stmt .cont) a .cont a
  | innerEnd (i s hs t u f F a b) : Exec isinst (.stmt s) a .normal b → u = false →
      Exec isinst (.inner i s hs u t f F) a .normal b
  | innerElse (i s hs t u f F a b c o) : Exec isinst (.stmt s) a .normal b → u = true → Exec isinst (.stmt t) b o c →
      Exec isinst (.inner i s hs u t f F) a o c
  | innerCatch (i s hs t u f F a b c e g h o) : Exec isinst (.stmt s) a (.exc e) b → hs.find isinst e = some (g, h) →
      Exec isinst (.stmt h) (bound g e b) o c → Exec isinst (.inner i s hs u t f F) a o c
  | innerUncaught (i s hs t u f F a b e) : Exec isinst (.stmt s) a (.exc e) b → hs.find isinst e = none →
      Exec isinst (.inner i s hs u t f F) a (.exc e) b
  | innerJump (i s hs t u f F a b o) : Exec isinst (.stmt s) a o b → o ≠ .normal → (∀ e, o ≠ .exc e) →
      Exec isinst (.inner i s hs u t f F) a o b
  | tryNoFin (i s hs t u f F a b o) : Exec isinst (.inner i s hs u t f F) a o b → f = false →
      Exec isinst (.stmt (.tryS i s hs u t f F)) a o b
  | tryFail (i s hs t u f F a b) : Exec isinst (.inner i s hs u t f F) a .fail b → f = true →
      Exec isinst (.stmt (.tryS i s hs u t f F)) a .fail b
  | tryFin (i s hs t u f F a b c o) : Exec isinst (.inner i s hs u t f F) a o b → f = true → o ≠ .fail →
      Exec isinst (.stmt F) b .normal c → Exec isinst (.stmt (.tryS i s hs u t f F)) a o c
  | tryOver (i s hs t u f F a b c o o') : Exec isinst (.inner i s hs u t f F) a o b → f = true → o ≠ .fail →
      Exec isinst (.stmt F) b o' c → o' ≠ .normal → Exec isinst (.stmt (.tryS i s hs u t f F)) a o' c
  | withS (i en s ex a b o) : Exec isinst (.stmt s) (en a) o b → o ≠ .fail →
      Exec isinst (.stmt (.withS i en s ex)) a o (ex o.exitArg b)
  | withFail (i en s ex a b) : Exec isinst (.stmt s) (en a) .fail b →
      Exec isinst (.stmt (.withS i en s ex)) a .fail b

mutual

/-- `break` and `continue` occur only in loops; otherwise Python rejects the program. -/
def Stmt.placed : Bool → Stmt σ Val Exc Ty → Bool
  | l, .brk => l
  | l, .cont => l
  | l, .seq s t => s.placed l && t.placed l
  | l, .ite _ _ s t => s.placed l && t.placed l
  | l, .loop _ _ s t => s.placed true && t.placed l
  | l, .tryS _ s hs _ t _ F => s.placed l && hs.placed l && t.placed l && F.placed l
  | l, .withS _ _ s _ => s.placed l
  | _, _ => true

def Handlers.placed : Bool → Handlers σ Val Exc Ty → Bool
  | _, .nil => true
  | l, .cons _ _ s r => s.placed l && r.placed l

end

/-- The value that a method returns; `none` is None. -/
def Outcome.value : Outcome Val Exc → Option Val
  | .ret v => v
  | _ => none

end Nagini.Cfg
