/-
Model of the translation of statements to Silver's extended AST (information flow mode): C85, C86.

Sources: `sif/translators/statement.py`, `sif/translators/expression.py`,
`translators/statement.py` (the loops, whose translation is inherited),
`sif/lib/viper_ast_extended.py`.

Trusted: what the nodes of the extended AST mean (they are compiled away by Scala code outside
/repo).  `SIFReturnStmt`, `SIFBreakStmt`, `SIFContinueStmt`, `SIFRaiseStmt`, `SIFTryCatchStmt` and
`SIFWhileElse` are taken to be structured jumps: the statements up to the target are skipped.  That
`SIFContinueStmt` also skips statements at the end of a loop body is what the annotation
`continue_unaware` of `translators/obligation/loop_node.py:237` presupposes.

Not modelled: contracts and invariants, the low checks, assumptions on types and definedness,
obligations, and how expressions are translated (arbitrary functions of the state).
-/
import Verif.Spec.Sif

set_option linter.unusedVariables false

namespace Nagini.Sif

variable {σ V : Type}

/-- The variables of the generated method: those of the source program, the single error variable
of the method (sif/translators/statement.py:25-26), its result variable, and for every loop and
`with` statement the variables created for it: the elements the iterator has yet to yield, the one
it yielded last (`loop_target`), whether it reported `StopIteration` (`iter_err`)
(translators/statement.py:784-792), and the flag `exc` (sif/translators/statement.py:148-155).
Simplified: `__sil_seq__`, index and `__previous__` of the iterator are replaced by the list of
elements to come; the created variables are numbered by nesting depth instead of being globally
fresh. -/
structure XSt (σ V : Type) where
  s : σ
  err : Option Exc
  res : Option V
  iters : Nat → List V
  target : Nat → Option V
  done : Nat → Bool
  exc : Nat → Bool

mutual
/-- The nodes of the extended AST (sif/lib/viper_ast_extended.py:41-110).  Conditions and effects
are functions of the variables.  `raise f` performs the optional assignment `f`; `while` is
`SIFWhileElse`, a missing `else` is an empty block. -/
inductive X (σ V : Type) where
  | upd (f : XSt σ V → XSt σ V)
  | ret (f : XSt σ V → XSt σ V)
  | raise (f : XSt σ V → XSt σ V)
  | brk
  | cont
  | seq (a b : X σ V)
  | ite (c : XSt σ V → Bool) (a b : X σ V)
  | while (c : XSt σ V → Bool) (body orelse : X σ V)
  | try (body : X σ V) (hs : XHandlers σ V) (orelse fin : X σ V)
/-- The list of `SIFExceptionHandler`s (sif/lib/viper_ast_extended.py:66-68): the check of the error
variable and the body. -/
inductive XHandlers (σ V : Type) where
  | nil
  | cons (c : XSt σ V → Bool) (body : X σ V) (rest : XHandlers σ V)
end

/-- How the execution of a node ends; values are in the variables
(sif/lib/viper_ast_extended.py:41-68). -/
inductive XOut where
  | norm | brk | cont | ret | exc
  deriving DecidableEq, Repr

/-- The first handler whose check succeeds (trusted meaning of the node built at
sif/translators/statement.py:115-117). -/
def XHandlers.pick : XHandlers σ V → XSt σ V → Option (X σ V)
  | .nil, _ => none
  | .cons c b rest, x => if c x then some b else rest.pick x

/-- Outcome after a `finally` block (trusted meaning of the node built at
sif/translators/statement.py:115-117). -/
def XOut.after : XOut → XOut → XOut
  | o, .norm => o
  | _, o => o

/-- Trusted meaning of the extended AST (sif/lib/viper_ast_extended.py:41-110). -/
def xexec : Nat → X σ V → XSt σ V → Option (XSt σ V × XOut)
  | 0, _, _ => none
  | n + 1, st, x =>
    match st with
    | .upd f => some (f x, .norm)
    | .ret f => some (f x, .ret)
    | .raise f => some (f x, .exc)
    | .brk => some (x, .brk)
    | .cont => some (x, .cont)
    | .seq a b => match xexec n a x with
      | some (x', .norm) => xexec n b x'
      | r => r
    | .ite t a b => if t x then xexec n a x else xexec n b x
    | .while t b e =>
      if t x then
        match xexec n b x with
        | some (x', .norm) => xexec n (.while t b e) x'
        | some (x', .cont) => xexec n (.while t b e) x'
        | some (x', .brk) => some (x', .norm)
        | r => r
      else xexec n e x
    | .try b hs e f =>
      let r := match xexec n b x with
        | some (x', .norm) => xexec n e x'
        | some (x', .exc) => match hs.pick x' with
          | none => some (x', .exc)
          | some hb => xexec n hb x'
        | r => r
      match r with
      | none => none
      | some (x', o) => match xexec n f x' with
        | none => none
        | some (x'', o') => some (x'', o.after o')

/-- `Skip` (sif/lib/viper_ast_extended.py:54-55); also what labels and gotos become
(sif/lib/viper_ast_extended.py:57-63). -/
def skip : X σ V := .upd id

/-- `LocalVarAssign` to one of the numbered variables (translators/statement.py:826-827). -/
def set {α : Type} (g : Nat → α) (d : Nat) (a : α) : Nat → α := fun k => if k = d then a else g k

/-- `_set_result_none` (translators/statement.py:1756-1776); `dx`: the method declares exceptions
or is inlined.  Simplified: methods without result also have a result variable. -/
def setResultNone (dx : Bool) (x : XSt σ V) : XSt σ V :=
  { x with res := none, err := if dx then none else x.err }

/-- `_get_next_call`, used in translators/statement.py:790-791: the iterator yields the next element
or reports `StopIteration`. -/
def nextCall (d : Nat) (x : XSt σ V) : XSt σ V :=
  match x.iters d with
  | [] => { x with done := set x.done d true }
  | v :: vs => { x with iters := set x.iters d vs, target := set x.target d (some v),
                        done := set x.done d false }

/-- The conditional assignment to the loop target (translators/statement.py:794-817). -/
def assignTarget (asg : V → σ → σ) (d : Nat) (x : XSt σ V) : XSt σ V :=
  if x.done d then x else match x.target d with
    | some v => { x with s := asg v x.s }
    | none => x

/-- The type check of the error variable (sif/translators/statement.py:74-76). -/
def catches (m : Exc → Bool) (x : XSt σ V) : Bool :=
  match x.err with
  | some e => m e
  | none => false

/-- The call of `__exit__` with the exception (sif/translators/statement.py:179-186). -/
def exitCall (exitE : Exc → σ → σ × Bool) (x : XSt σ V) : XSt σ V :=
  match x.err with
  | some e => { x with s := (exitE e x.s).1 }
  | none => x

/-- The negated result of that call (sif/translators/statement.py:188-195). -/
def exitFalse (exitE : Exc → σ → σ × Bool) (x : XSt σ V) : Bool :=
  match x.err with
  | some e => !(exitE e x.s).2
  | none => false

/-- The handler of a `with` statement (sif/translators/statement.py:165-197): it resets the flag,
calls `__exit__` and raises again if the result is false.  Simplified: call and test are one step.
-/
def withHandler (exitE : Exc → σ → σ × Bool) (d : Nat) : X σ V :=
  .seq (.upd fun x => { x with exc := set x.exc d false })
    (.ite (exitFalse exitE) (.raise (exitCall exitE)) (.upd (exitCall exitE)))

/-- The aliases of the error variable in the body of a handler (sif/translators/statement.py:78-82).
-/
def aliases (name : Option Nat) (A : List Nat) : List Nat :=
  match name with
  | some h => h :: A
  | none => A

mutual
/-- The translation of a statement.  `dx`: the method declares exceptions; `A`: the names that are
aliases of the error variable (`ctx.var_aliases`); `d`: the nesting depth.

* `call`: the error variable is the target of the call and checked after it
  (sif/translators/expression.py:20-35);
* `raise` (sif/translators/statement.py:119-134), `return` (28-43), `break` and `continue` (48-52);
* `while` (translators/statement.py:1702-1743, sif/translators/statement.py:54-64);
* `for` (translators/statement.py:780-891): label and `next_call` at the end of the body;
* `try` (sif/translators/statement.py:93-117);
* `with` (sif/translators/statement.py:227-298).

Simplified: aliases
are scoped lexically (the code deletes a shadowed alias as well, 90-91). -/
def tr (dx : Bool) (A : List Nat) (d : Nat) : Stmt σ V → Option (X σ V)
  | .act f => some (.upd fun x => { x with s := f x.s })
  | .actH h f => if h ∈ A then some (.upd fun x => { x with s := f x.err x.s }) else none
  | .call f => some (.seq
      (.upd fun x => { x with s := (f x.s).1, err := (f x.s).2 })
      (.ite (fun x => x.err.isSome) (.raise id) skip))
  | .raise f => some (.raise fun x => { x with s := (f x.s).1, err := some (f x.s).2 })
  | .raiseH h => if h ∈ A then some (.raise id) else none
  | .ret f => some (.ret fun x => { x with s := (f x.s).1, res := some (f x.s).2 })
  | .brk => some .brk
  | .cont => some .cont
  | .seq a b => match tr dx A d a, tr dx A d b with
    | some xa, some xb => some (.seq xa xb)
    | _, _ => none
  | .ite t a b => match tr dx A d a, tr dx A d b with
    | some xa, some xb => some (.ite (fun x => t x.s) xa xb)
    | _, _ => none
  | .while t b e => match tr dx A d b, tr dx A d e with
    | some xb, some xe => some (.seq (.while (fun x => t x.s) xb xe) (.upd (setResultNone dx)))
    | _, _ => none
  | .for it asg b e => match tr dx A (d + 1) b, tr dx A (d + 1) e with
    | some xb, some xe => some
        (.seq (.upd fun x => { x with iters := set x.iters d (it x.s) })
        (.seq (.upd (nextCall d))
        (.seq (.upd (assignTarget asg d))
        (.seq (.while (fun x => !x.done d)
                (.seq xb (.seq skip (.seq (.upd (nextCall d)) (.upd (assignTarget asg d))))) xe)
        (.seq (.upd (setResultNone dx)) (.seq skip (.upd (setResultNone dx))))))))
    | _, _ => none
  | .try b hs e f => match tr dx A d b, trH dx A d hs, tr dx A d e, tr dx A d f with
    | some xb, some xhs, some xe, some xf => some (.try xb xhs xe xf)
    | _, _, _, _ => none
  | .with enter exitN exitE bind b => match tr dx A (d + 1) b with
    | some xb => some
        (.seq (.upd fun x => { x with s := enter x.s })
        (.seq (.upd fun x => { x with exc := set x.exc d true })
          (.try
            (.try (.seq (.upd fun x => { x with s := bind x.s }) xb)
              (.cons (catches fun _ => true) (withHandler exitE d) .nil) skip skip)
            .nil skip
            (.ite (fun x => x.exc d) (.upd fun x => { x with s := exitN x.s }) skip))))
    | none => none
/-- `_create_try_handlers` (sif/translators/statement.py:67-91): in the body of a handler with a
name this name is an alias of the error variable. -/
def trH (dx : Bool) (A : List Nat) (d : Nat) : Handlers σ V → Option (XHandlers σ V)
  | .nil => some .nil
  | .cons m name b rest =>
    match tr dx (aliases name A) d b, trH dx A d rest with
    | some xb, some xr => some (.cons (catches m) xb xr)
    | _, _ => none
end

end Nagini.Sif
