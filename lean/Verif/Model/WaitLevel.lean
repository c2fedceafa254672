import Mathlib.Algebra.Order.Field.Rat
/-!
Model of wait levels: the checks generated for `WaitLevel() < Level(x)` at calls, loops, lock
acquisition, thread start and join.  All checks are modelled as enabled; the constraint flag
`ignore_waitlevel_constraints` is modelled separately, at the end.
-/
namespace Nagini.WaitLevel

/-- Objects with a level.  Models `Level`, resources/lock.sil:8,
src/nagini_contracts/obligations.py:40. -/
inductive Obj
  | lock (n : Nat)
  | thread (n : Nat)
deriving DecidableEq

/-- `create_level_below`: the levels of all locks with a `MustRelease` permission and the residue
are below `e`.  Models translators/obligation/waitlevel.py:96-114. -/
def levelBelow (L : Obj → Rat) (held : List Nat) (residue e : Rat) : Bool :=
  held.all (fun l => decide (L (.lock l) < e)) && decide (residue < e)

/-- `_create_level_below_equal`.  Models translators/obligation/waitlevel.py:116-131. -/
def levelBelowEq (L : Obj → Rat) (held : List Nat) (residue e : Rat) : Bool :=
  held.all (fun l => decide (L (.lock l) ≤ e)) && decide (residue ≤ e)

/-- The check of the constraints `WaitLevel() < Level(e)` of a precondition: they are exhaled at
the end of the precondition, when the caller has `rest` left.  Models
translators/obligation/waitlevel.py:133-143, 196-198, 208,
translators/obligation/method_node.py:217-218,
translators/obligation/method_call_node.py:89-99. -/
def preCheck (L : Obj → Rat) (rest : List Nat) (residue : Rat) (es : List Obj) : Bool :=
  es.all fun e => levelBelow L rest residue (L e)

/-- What the body assumes for the constraints of the precondition.  Models
translators/obligation/waitlevel.py:209-212. -/
def preAssume (L : Obj → Rat) (residue : Rat) (es : List Obj) : Bool :=
  es.all fun e => decide (residue < L e)

/-- The check of the constraints of a postcondition at the end of the body, when the callee has
`rest` left.  Models translators/obligation/waitlevel.py:196-202. -/
def postCheck (L : Obj → Rat) (rest : List Nat) (residue : Rat) (es : List Obj) : Bool :=
  es.all fun e => levelBelow L rest residue (L e)

/-- What the caller assumes after the call: an unknown `cwl` is above everything it kept and above
its residue, and below the constraints of the postcondition.  Models
translators/obligation/waitlevel.py:122-131, 203-206,
translators/obligation/method_node.py:220-230. -/
def postAssume (L : Obj → Rat) (rest : List Nat) (residue cwl : Rat) (es : List Obj) : Bool :=
  levelBelowEq L rest residue cwl && es.all fun e => decide (cwl < L e)

/-- A method or loop being executed: the `MustRelease` permissions it has, its residue variable,
the residue variable of the enclosing method.  Models
translators/obligation/obligation_info.py:240, 395-397. -/
structure Frame where
  held : List Nat
  res : Rat
  mres : Rat
  loop : Bool

/-- The check of `Lock.acquire`: a call that passes no obligation.  Models
src/nagini_contracts/lock.py:72-80, translators/obligation/method_call_node.py:93-99. -/
def acquireCheck (L : Obj → Rat) (f : Frame) (l : Nat) : Bool :=
  preCheck L f.held f.res [.lock l]

/-- The check of `Thread.join`: it uses the residue of the method, also inside of loops.  Models
translators/call.py:1643-1651. -/
def joinCheck (L : Obj → Rat) (f : Frame) (t : Nat) : Bool :=
  levelBelow L f.held f.mres (L (.thread t))

/-- What is assumed about the level of a thread when it is started, after the precondition of its
target was exhaled.  Models translators/obligation/fork.py:66-69, 212-230. -/
def forkAssume (L : Obj → Rat) (rest : List Nat) (f : Frame) (t : Nat) : Bool :=
  levelBelow L rest f.mres (L (.thread t))

/-- The requirements of `Lock.__init__` on levels (`above`, `below` are the levels of the optional
arguments).  Models src/nagini_contracts/lock.py:50-53. -/
def lockRequires (L : Obj → Rat) (held : List Nat) (residue : Rat) (above below : Option Rat) : Bool :=
  match above, below with
  | none, some b => levelBelow L held residue b
  | some a, some b => decide (a < b)
  | _, none => true

/-- The guarantees of `Lock.__init__` for the level `q` of the new lock.  Models
src/nagini_contracts/lock.py:55-57. -/
def lockEnsures (L : Obj → Rat) (held : List Nat) (residue : Rat) (above below : Option Rat)
    (q : Rat) : Bool :=
  (match above with
    | none => levelBelow L held residue q
    | some a => decide (a < q)) &&
  (match below with
    | none => true
    | some b => decide (q < b))

/-! ### `ignore_waitlevel_constraints` -/

/-- Events of the translation of a method body that touch the flag: an inlined call (statically
bound call, `@Inline` method) or inlined inherited method, a thread start with `n` possible targets,
a join with `n` possible targets.  Models translators/call.py:1042-1100, 1678-1680, 1759,
translators/program.py:215-280, translators/obligation/fork.py:152-196. -/
inductive Ev
  | inline
  | fork (n : Nat)
  | join (n : Nat)
deriving DecidableEq

/-- The flag after an event.  Models translators/call.py:1063, 1759,
translators/obligation/fork.py:152, 172, 196. -/
def flagStep (flag : Bool) : Ev → Bool
  | .inline => true
  | .fork n => if n = 0 then flag else false
  | .join n => if n = 0 then flag else false

/-- The flag after a sequence of events.  Models lib/context.py:52 (one context for the whole
program). -/
def flagAfter (flag : Bool) (es : List Ev) : Bool := es.foldl flagStep flag

/-- A method: the constraints `WaitLevel() < Level(x)` of its contract, the events of its body.
Models translators/method.py:558-622 (the contract is translated before the body). -/
structure Meth where
  constraints : List Nat
  body : List Ev
deriving DecidableEq

/-- The constraints generated for the methods of a program, in the order of translation.  Models
translators/obligation/waitlevel.py:193-212, translators/program.py:1387-1475. -/
def emittedFrom (flag : Bool) : List Meth → List Nat
  | [] => []
  | m :: ms => (if flag then [] else m.constraints) ++ emittedFrom (flagAfter flag m.body) ms

/-- The same from the initial value of the flag.  Models lib/context.py:52. -/
def emitted (ms : List Meth) : List Nat := emittedFrom false ms

end Nagini.WaitLevel
