import Mathlib.Data.Int.Order.Basic
/-!
Model of the termination encoding (translators/obligation): measure maps, the termination
condition, the checks at calls, overrides, inherited methods and loops.  All checks are
modelled as enabled (no `disable_...` option, lib/config.py).
-/
namespace Nagini.Termination

/-- An obligation of a contract, evaluated in some state: is it `MustTerminate`, is it fresh
(without measure), its target (for `MustTerminate` the current thread), the value of its guard
and of its measure.  Models `GuardedObligationInstance`,
translators/obligation/obligation_info.py:92-106. -/
structure Inst where
  term : Bool
  fresh : Bool
  key : Nat
  guard : Bool
  value : Int
deriving DecidableEq

/-- A well-formed instance: `MustTerminate` has a measure and the current thread as target.
Models translators/obligation/types/must_terminate.py:237-245, 257-275. -/
def Inst.wf (ct : Nat) (i : Inst) : Bool := !i.term || (!i.fresh && i.key == ct)

/-- An element of a measure map.  Models `Measure$create`, resources/measures.sil:10. -/
structure Entry where
  guard : Bool
  key : Nat
  value : Int
deriving DecidableEq

/-- `Measure$check`.  Models resources/measures.sil:31-36. -/
def check (map : List Entry) (key : Nat) (v : Int) : Bool :=
  map.all fun e => !(e.guard && e.key == key) || decide (v < e.value)

/-- `MeasureMap.initialize`; `slack` is `overriding_check`.  Models
translators/obligation/measures.py:59-87. -/
def initMap (slack : Bool) (is : List Inst) : List Entry :=
  (is.filter fun i => !i.fresh).map fun i =>
    ⟨i.guard, i.key, if slack then i.value + 1 else i.value⟩

/-- `create_termination_check`.  Models translators/obligation/obligation_info.py:154-172. -/
def tcond (ignoreMeasures : Bool) (map : List Entry) (ct : Nat) (is : List Inst) : Bool :=
  (is.filter (·.term)).any fun i => i.guard && (ignoreMeasures || check map ct i.value)

/-- The permission to the `MustTerminate` predicate obtained by inhaling a contract: a full
permission for every instance whose guard holds.  Models
translators/obligation/inexhale.py:71-80, 120-134, 142-155. -/
def inhaled (is : List Inst) : Nat := (is.filter fun i => i.term && i.guard).length

/-- What a call may lead to: a method with a contract, or a method of the Viper resources.
Models the cases of translators/obligation/method_node.py:289-304. -/
inductive Callee
  | python (is : List Inst)
  | interface (terminating : Bool)

/-- The leak check at the end of the precondition: `held` is the caller's permission to
`MustTerminate`, `leakFree` the leak check for the other obligations.  Models
translators/obligation/method_node.py:270-317. -/
def callCheck (map : List Entry) (ct : Nat) (held : Nat) (leakFree : Bool) : Callee → Bool
  | .python is => tcond false map ct is || (held == 0 && leakFree)
  | .interface true => check map ct 1
  | .interface false => held == 0 && leakFree

/-- The conjuncts `measure > 0` of a precondition (under the guards).  Models
translators/obligation/inexhale.py:187-193. -/
def positive (is : List Inst) : Bool := is.all fun i => !(i.guard && !i.fresh) || decide (0 < i.value)

/-- The check that `sub` may override `sup` (contracts evaluated for the same arguments): a
method with the contract of `sup` whose body calls `sub`.  Models
translators/program.py:283-351, translators/obligation/method_node.py:233-245. -/
def overrideCheck (ct : Nat) (leakFree : Bool) (sup sub : List Inst) : Bool :=
  callCheck (initMap true sup) ct (inhaled sup) leakFree (.python sub) && positive sub

/-! ### Loops -/

/-- The state at the beginning of an iteration: value of the loop condition, evaluated
obligations of the invariant.  Models translators/obligation/loop_node.py:83-101. -/
structure LoopState where
  cond : Bool
  insts : List Inst
deriving DecidableEq

/-- `_save_loop_termination`.  Models translators/obligation/loop_node.py:186-194. -/
def loopFlag (ct : Nat) (s : LoopState) : Bool := tcond true [] ct s.insts

/-- The leak check before the loop.  Models translators/obligation/loop_node.py:135-158. -/
def loopEntry (ct : Nat) (held : Nat) (leakFree : Bool) (s : LoopState) : Bool :=
  loopFlag ct s || !s.cond || (held == 0 && leakFree)

/-- The check at the end of the body (`s` at the beginning, `s'` at the end of the body).
Models translators/obligation/loop_node.py:168-178, 220-244. -/
def loopEnd (ct : Nat) (flag : Bool) (s s' : LoopState) : Bool :=
  !flag || (!s'.cond || tcond false (initMap false s.insts) ct s'.insts)

/-- The conjuncts `condition ==> measure > 0` of the invariant.  Models
translators/obligation/inexhale.py:211-219. -/
def loopPositive (s : LoopState) : Bool := !s.cond || positive s.insts

/-- The permission to `MustTerminate` after a loop: it was `orig` before, inhaling the
invariant after the loop adds `more`.  Models
translators/obligation/node_constructor.py:67-96, translators/obligation/loop_node.py:83-101. -/
def resetAmount (orig more : Nat) : Int :=
  let cur : Int := orig + more
  if cur > 0 then cur - (cur - orig) else cur

end Nagini.Termination
