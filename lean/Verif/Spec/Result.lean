import Verif.Model.Result

/-!
Python's return values.
-/
namespace Nagini.Result

variable {V S E : Type}

/-- How a Python statement ends. -/
inductive PyOut (V E : Type)
  | norm | ret (v : V) | brk | cont | exc (e : E)

/-- Runs of Python statements.  A pending `return v` survives a `finally` block that ends normally, and
is forgotten if the block ends otherwise. -/
inductive Py : Stmt V S E → S → PyOut V E → S → Prop
  | act (f s) : Py (.act f) s .norm (f s)
  | ret (e s) : Py (.ret e) s (.ret (e s)) s
  | raise (e s) : Py (.raise e) s (.exc (e s)) s
  | brk (s) : Py .brk s .brk s
  | cont (s) : Py .cont s .cont s
  | seq (a b s s₁ o s') : Py a s .norm s₁ → Py b s₁ o s' → Py (.seq a b) s o s'
  | seqJump (a b s o s') : o ≠ .norm → Py a s o s' → Py (.seq a b) s o s'
  | iteThen (c a b s o s') : c s = true → Py a s o s' → Py (.ite c a b) s o s'
  | iteElse (c a b s o s') : c s = false → Py b s o s' → Py (.ite c a b) s o s'
  | loopElse (f c body orelse s o s') : c s = false → Py orelse s o s' → Py (.loop f c body orelse) s o s'
  | loopNorm (f c body orelse s s₁ o s') : c s = true → Py body s .norm s₁ → Py (.loop f c body orelse) s₁ o s' →
      Py (.loop f c body orelse) s o s'
  | loopCont (f c body orelse s s₁ o s') : c s = true → Py body s .cont s₁ → Py (.loop f c body orelse) s₁ o s' →
      Py (.loop f c body orelse) s o s'
  | loopBrk (f c body orelse s s') : c s = true → Py body s .brk s' → Py (.loop f c body orelse) s .norm s'
  | loopRet (f c body orelse s v s') : c s = true → Py body s (.ret v) s' → Py (.loop f c body orelse) s (.ret v) s'
  | loopExc (f c body orelse s e s') : c s = true → Py body s (.exc e) s' → Py (.loop f c body orelse) s (.exc e) s'
  | tryCatch (body catches h s e s₁ o s') : Py body s (.exc e) s₁ → catches e = true → Py h s₁ o s' →
      Py (.tryExc body catches h) s o s'
  | tryUncaught (body catches h s e s') : Py body s (.exc e) s' → catches e = false → Py (.tryExc body catches h) s (.exc e) s'
  | tryThrough (body catches h s o s') : Py body s o s' → (∀ e, o ≠ .exc e) → Py (.tryExc body catches h) s o s'
  | finPending (body fin s o s₁ s') : Py body s o s₁ → Py fin s₁ .norm s' → Py (.tryFin body fin) s o s'
  | finOther (body fin s o₁ s₁ o s') : Py body s o₁ s₁ → Py fin s₁ o s' → o ≠ .norm → Py (.tryFin body fin) s o s'

/-- A call of a Python function: the value of the `return`, or None at the end of the body. -/
def pyCall (null : V) (p : Stmt V S E) (s s' : S) (r : V) : Prop :=
  Py p s (.ret r) s' ∨ (Py p s .norm s' ∧ r = null)

/-- Code that assigns the result variable only to return: no loops, and no `return` in the body of a `try`
statement with a `finally` block. -/
def Stmt.calm : Stmt V S E → Bool
  | .seq a b => a.calm && b.calm
  | .ite _ a b => a.calm && b.calm
  | .loop .. => false
  | .tryExc a _ b => a.calm && b.calm
  | .tryFin a b => !a.writes && b.calm
  | _ => true

/-- All `finally` blocks are calm. -/
def Stmt.calmFinally : Stmt V S E → Bool
  | .seq a b => a.calmFinally && b.calmFinally
  | .ite _ a b => a.calmFinally && b.calmFinally
  | .loop _ _ a b => a.calmFinally && b.calmFinally
  | .tryExc a _ b => a.calmFinally && b.calmFinally
  | .tryFin a b => a.calmFinally && b.calmFinally && b.calm
  | _ => true

/-- All bodies of `try` statements with handlers are calm. -/
def Stmt.calmTry : Stmt V S E → Bool
  | .seq a b => a.calmTry && b.calmTry
  | .ite _ a b => a.calmTry && b.calmTry
  | .loop _ _ a b => a.calmTry && b.calmTry
  | .tryExc a _ b => a.calm && a.calmTry && b.calmTry
  | .tryFin a b => a.calmTry && b.calmTry
  | _ => true

end Nagini.Result
