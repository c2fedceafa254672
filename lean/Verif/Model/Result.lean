/-!
Model of the result variable of a method, translators/statement.py:1756-1776, 1835-1874, with
translators/method.py:585-592 and translators/call.py:1043-1100.

`V` are the values, `S` the rest of the state, `E` the exceptions.  Control flow is that of the
source program (the jumps are the subject of C08 and C09); what is modelled is which value the result
variable has at the end.  `return` without a value is left out: mypy rejects it in methods with a result.
-/
namespace Nagini.Result

variable {V S E : Type}

/-- Statements of the source program.  `act` stands for all statements that cannot jump, `loop` for both
kinds of loops, `isFor` tells which.  A `try` statement with handlers and `finally` is a `tryExc` in a
`tryFin`.  Models the statements of translators/statement.py:759, 906, 1027, 1702, 1778, 1799, 1854. -/
inductive Stmt (V S E : Type)
  | act (f : S → S)
  | ret (e : S → V)
  | raise (e : S → E)
  | brk
  | cont
  | seq (a b : Stmt V S E)
  | ite (c : S → Bool) (a b : Stmt V S E)
  | loop (isFor : Bool) (c : S → Bool) (body orelse : Stmt V S E)
  | tryExc (body : Stmt V S E) (catches : E → Bool) (handler : Stmt V S E)
  | tryFin (body fin : Stmt V S E)

/-- The code of a statement assigns to the result variable.  Models the assignments in
translators/statement.py:1765 and 1849, which determine what Viper forgets at the head of a loop. -/
def Stmt.writes : Stmt V S E → Bool
  | .ret _ => true
  | .seq a b => a.writes || b.writes
  | .ite _ a b => a.writes || b.writes
  | .loop .. => true
  | .tryExc a _ b => a.writes || b.writes
  | .tryFin a b => a.writes || b.writes
  | _ => false

/-- How generated code ends: normally, or by a jump to the end of the method, behind a loop, to the end of
a loop body, or to a handler.  Models the jumps of translators/statement.py:1778-1874. -/
inductive Out (E : Type)
  | norm | ret | brk | cont | exc (e : E)

/-- The jump of the body of a `try` statement is resumed behind the `finally` block, if that ends normally.
Models translators/method.py:823-840. -/
def resume (o fin : Out E) : Out E :=
  match fin with
  | .norm => o
  | _ => fin

/-- What a loop does about a jump out of its body: `none` to go on with the next iteration, else how the
loop ends.  Models the labels of loops, translators/statement.py:762-765, 1692, 1697. -/
def leaves : Out E → Option (Out E)
  | .norm => none
  | .cont => none
  | .brk => some .norm
  | .ret => some .ret
  | .exc e => some (.exc e)

/-- What can be known about the result variable at the head of a loop.  Models the semantics of loops in
Viper for the loop built in translators/statement.py:868 and 1726. -/
def atHead (body : Stmt V S E) (r r₀ : V) : Prop := body.writes = false → r₀ = r

/-- The result variable is reset where control goes on behind a loop.  Models `_set_result_none`,
translators/statement.py:1756-1776, and its uses in lines 890 and 1699. -/
def behind (null : V) (o : Out E) (r : V) : V :=
  match o with
  | .norm => null
  | _ => r

/-- Runs of the generated code; `r` is the result variable, `null` its default.
Models the generated code of translators/statement.py:759-891, 1701-1743, 1854-1874 as far as the result
variable is concerned: `return` assigns it, and behind loops (for `for` loops also before the `else`
clause) it is reset. -/
inductive Enc (null : V) : Stmt V S E → S → V → Out E → S → V → Prop
  | act (f s r) : Enc null (.act f) s r .norm (f s) r
  | ret (e s r) : Enc null (.ret e) s r .ret s (e s)
  | raise (e s r) : Enc null (.raise e) s r (.exc (e s)) s r
  | brk (s r) : Enc null .brk s r .brk s r
  | cont (s r) : Enc null .cont s r .cont s r
  | seq (a b s r s₁ r₁ o s' r') : Enc null a s r .norm s₁ r₁ → Enc null b s₁ r₁ o s' r' → Enc null (.seq a b) s r o s' r'
  | seqJump (a b s r o s' r') : o ≠ .norm → Enc null a s r o s' r' → Enc null (.seq a b) s r o s' r'
  | ite (c a b s r o s' r') : Enc null (if c s then a else b) s r o s' r' → Enc null (.ite c a b) s r o s' r'
  | loopEnd (isFor c body orelse s r r₀ o s' r') : c s = false → atHead body r r₀ →
      Enc null orelse s (if isFor then null else r₀) o s' r' →
      Enc null (.loop isFor c body orelse) s r o s' (behind null o r')
  | loopNext (isFor c body orelse s r r₀ o₁ s₁ r₁ o s' r') : c s = true → atHead body r r₀ → Enc null body s r₀ o₁ s₁ r₁ →
      leaves o₁ = none → Enc null (.loop isFor c body orelse) s₁ r₁ o s' r' → Enc null (.loop isFor c body orelse) s r o s' r'
  | loopLeave (isFor c body orelse s r r₀ o₁ s₁ r₁ o) : c s = true → atHead body r r₀ → Enc null body s r₀ o₁ s₁ r₁ →
      leaves o₁ = some o → Enc null (.loop isFor c body orelse) s r o s₁ (behind null o r₁)
  | tryCatch (body catches h s r e s₁ r₁ o s' r') : Enc null body s r (.exc e) s₁ r₁ → catches e = true →
      Enc null h s₁ r₁ o s' r' → Enc null (.tryExc body catches h) s r o s' r'
  | tryThrough (body catches h s r o s' r') : Enc null body s r o s' r' → (∀ e, o = .exc e → catches e = false) →
      Enc null (.tryExc body catches h) s r o s' r'
  | tryFin (body fin s r o₁ s₁ r₁ o₂ s' r') : Enc null body s r o₁ s₁ r₁ → Enc null fin s₁ r₁ o₂ s' r' →
      Enc null (.tryFin body fin) s r (resume o₁ o₂) s' r'

/-- A call of the method with body `p`: the state and the result at the end, if no exception leaves the
method.  Models translators/method.py:585-592 and 434-437: the result variable is set to `null` at the
beginning, and its value at the end label is the result. -/
def call (null : V) (p : Stmt V S E) (s s' : S) (r : V) : Prop :=
  Enc null p s null .norm s' r ∨ Enc null p s null .ret s' r

/-- An inlined call of the method with body `p`.  Models translators/call.py:1043-1100, 1130-1135: the
result variable is a new variable that is not initialised. -/
def inlined (null : V) (p : Stmt V S E) (s s' : S) (r : V) : Prop :=
  ∃ r₀, Enc null p s r₀ .norm s' r ∨ Enc null p s r₀ .ret s' r

end Nagini.Result
