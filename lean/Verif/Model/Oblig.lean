import Verif.Spec.Oblig
import Verif.Model.Termination
/-!
Model of the encoding of obligations (translators/obligation): inhaling and exhaling of `MustTerminate` and
`MustRelease` in contracts, bounding of obligations, leak checks of methods, calls and loops; and of the conditions
under which the generated Viper program verifies.

All checks are modelled as enabled (no `disable_...` option, lib/config.py).  Not modelled: `MustInvoke` (tokens of IO
operations; its encoding differs by the third location for credits), wait levels (see `WaitLevel`), obligations passed
to other threads, overriding (see `Termination`, `Overrides`), `finally` blocks, loops over iterators and `else` blocks of
loops.
-/
namespace Nagini.Oblig

open Nagini.Termination (Inst Entry check initMap tcond inhaled callCheck positive LoopState loopFlag loopEntry loopEnd
  loopPositive resetAmount)

/-! ### Instances -/

/-- The instance of an obligation mentioned in a contract; `ct` is the current thread.  Models `check_node`,
translators/obligation/types/must_terminate.py:259-276, translators/obligation/types/must_release.py:75-87. -/
def instOf (ct : Nat) : Ob → Inst
  | .terminate g v => ⟨true, false, ct, g, v⟩
  | .release g l (some v) => ⟨false, false, l, g, v⟩
  | .release g l none => ⟨false, true, l, g, 0⟩

/-- All instances of a contract (the order does not matter for measures).  Models
translators/obligation/obligation_info.py:122-142, 347-352. -/
def insts (ct : Nat) (c : Contract) : List Inst := c.obs.map (instOf ct)

/-! ### Assertions about obligations -/

/-- The locations that represent obligations: the fields `MustReleaseBounded` and `MustReleaseUnbounded` of a lock,
and the predicate `MustTerminate` of the current thread.  Models
translators/obligation/types/must_release.py:31-32, 67-70, translators/obligation/types/must_terminate.py:211-217. -/
inductive Loc
  | bounded (k : Nat)
  | unbounded (k : Nat)
  | term
  deriving DecidableEq

/-- Assertions: `true`, `false`, a full permission, and a conditional whose condition is `perm(l) > none` and possibly
a measure check (given by its value).  Models the nodes built in translators/obligation/inexhale.py:48-118. -/
inductive Assn
  | tt
  | ff
  | acc (l : Loc)
  | cond (l : Loc) (chk : Bool) (a b : Assn)

/-- An `ObligationInhaleExhale` without credits; `skip` is `skip_exhale`.  Models
translators/obligation/inexhale.py:29-46. -/
structure Inex where
  bounded : Loc
  unbounded : Option Loc
  skip : Bool

/-- `_get_inexhale`.  Models translators/obligation/types/must_terminate.py:231-235,
translators/obligation/types/must_release.py:46-51. -/
def inexOf (i : Inst) : Inex :=
  if i.term then ⟨.term, none, true⟩ else ⟨.bounded i.key, some (.unbounded i.key), false⟩

/-- An inhale-exhale assertion; the inhaled part is a permission.  Models lib/silver_nodes `InhaleExhale` as used in
translators/obligation/inexhale.py:109-155. -/
structure InEx where
  inh : Loc
  exh : Assn

/-- `_construct_inhale` (an `unbounded` location exists whenever an obligation can be fresh).  Models
translators/obligation/inexhale.py:71-80. -/
def Inex.inhale (x : Inex) (fresh : Bool) : Loc := if fresh then x.unbounded.getD x.bounded else x.bounded

/-- `_construct_unbounded_exhale`.  Models translators/obligation/inexhale.py:82-92. -/
def Inex.unboundedExhale (x : Inex) : Assn :=
  match x.unbounded with
  | none => .ff
  | some l => .acc l

/-- `_construct_bounded_exhale`; a missing check is `true`.  Models translators/obligation/inexhale.py:94-107. -/
def Inex.boundedExhale (x : Inex) (chk : Bool) : Assn := .cond x.bounded chk (.acc x.bounded) x.unboundedExhale

/-- `construct_use_method_unbounded`.  Models translators/obligation/inexhale.py:109-118. -/
def Inex.useMethodUnbounded (x : Inex) : InEx := ⟨x.inhale true, x.unboundedExhale⟩

/-- `construct_use_method_bounded`.  Models translators/obligation/inexhale.py:120-134. -/
def Inex.useMethodBounded (x : Inex) (chk post : Bool) : InEx :=
  ⟨x.inhale false, if x.skip then .tt else x.boundedExhale (if post then true else chk)⟩

/-- `construct_use_loop`; `before` is the value of the variable `_loop_check_before`.  Models
translators/obligation/inexhale.py:136-155. -/
def Inex.useLoop (x : Inex) (chk : Option Bool) (before : Bool) : InEx :=
  ⟨x.inhale chk.isNone,
    if x.skip then .tt else
      match chk with
      | none => x.unboundedExhale
      | some c => if before then x.boundedExhale true else x.boundedExhale c⟩

/-- `get_use_method`, without the conjunct for the measure.  Models translators/obligation/inexhale.py:178-203. -/
def useMethod (map : List Entry) (post : Bool) (i : Inst) : InEx :=
  if i.fresh then (inexOf i).useMethodUnbounded else (inexOf i).useMethodBounded (check map i.key i.value) post

/-- `get_use_loop`, without the conjunct for the measure; `map` is the measure map of the loop.  Models
translators/obligation/inexhale.py:205-232. -/
def useLoop (map : List Entry) (before : Bool) (i : Inst) : InEx :=
  (inexOf i).useLoop (if i.fresh then none else some (check map i.key i.value)) before

/-! ### Permissions -/

/-- The permissions to obligations held in a Viper state: locks with a bounded and with an unbounded obligation, amount
of `MustTerminate`.  Models the heap of the generated program as far as the locations of
translators/obligation/manager.py:65-79 are concerned; only full permissions occur. -/
structure Hold where
  b : List Nat
  u : List Nat
  t : Nat

/-- The empty heap.  Models the state in which Viper starts to inhale a precondition of
translators/obligation/method_node.py:133-146. -/
def Hold.empty : Hold := ⟨[], [], 0⟩

/-- Adding a full permission.  Meaning of `acc` in translators/obligation/inexhale.py:53-69 when inhaled. -/
def Hold.add (h : Hold) : Loc → Hold
  | .bounded k => { h with b := k :: h.b }
  | .unbounded k => { h with u := k :: h.u }
  | .term => { h with t := h.t + 1 }

/-- `perm(l) > none`.  Meaning of translators/obligation/inexhale.py:48-66. -/
def Hold.has (h : Hold) : Loc → Bool
  | .bounded k => decide (k ∈ h.b)
  | .unbounded k => decide (k ∈ h.u)
  | .term => decide (0 < h.t)

/-- Removing a full permission.  Meaning of `acc` in translators/obligation/inexhale.py:53-69 when exhaled. -/
def Hold.del (h : Hold) : Loc → Hold
  | .bounded k => { h with b := h.b.erase k }
  | .unbounded k => { h with u := h.u.erase k }
  | .term => { h with t := h.t - 1 }

/-- Both heaps together.  Meaning of leaving a loop by a jump: the permissions not passed to the loop are available
again, translators/statement.py:1702-1744. -/
def Hold.merge (h h' : Hold) : Hold := ⟨h.b ++ h'.b, h.u ++ h'.u, h.t + h'.t⟩

/-- Viper never has more than a full permission to a field.  Meaning of the fields of
translators/obligation/types/must_release.py:67-70. -/
def Hold.consistent (h : Hold) : Prop := h.b.Nodup ∧ h.u.Nodup

/-- The leak check: no permissions to obligations other than `MustTerminate`.  Models
translators/obligation/manager.py:81-90, translators/obligation/types/must_release.py:94-98. -/
def leakFree (h : Hold) : Bool := h.b.isEmpty && h.u.isEmpty

/-- Exhaling an assertion; `none` if this fails.  Meaning of the assertions of
translators/obligation/inexhale.py:82-118. -/
def Assn.exhale : Assn → Hold → Option Hold
  | .tt, h => some h
  | .ff, _ => none
  | .acc l, h => if h.has l then some (h.del l) else none
  | .cond l chk a b, h => if h.has l && chk then a.exhale h else b.exhale h

/-- Exhaling the conjuncts of a contract; `use` encodes an instance whose guard holds.  Models the translation of
contracts by translators/obligation/common.py:66-87. -/
def exhale (use : Inst → InEx) : List Inst → Hold → Option Hold
  | [], h => some h
  | i :: is, h =>
    if i.guard then
      match (use i).exh.exhale h with
      | none => none
      | some h' => exhale use is h'
    else exhale use is h

/-- Inhaling the conjuncts of a contract.  Models the translation of contracts by
translators/obligation/common.py:66-87. -/
def inhale (use : Inst → InEx) : List Inst → Hold → Hold
  | [], h => h
  | i :: is, h => inhale use is (if i.guard then h.add (use i).inh else h)

/-- `bound_obligations`, the guards are not consulted.  Models translators/obligation/utils.py:37-54,
translators/obligation/inexhale.py:157-164. -/
def bound : List Inst → Hold → Hold
  | [], h => h
  | i :: is, h =>
    bound is (if i.fresh && h.has (.unbounded i.key) then (h.del (.unbounded i.key)).add (.bounded i.key) else h)

/-! ### Verification -/

/-- The permissions at the beginning of a method body, after the bounding of obligations.  Models
translators/obligation/method_node.py:133-146, 243-250. -/
def entryHold (ct : Nat) (c : Contract) : Hold :=
  bound (insts ct c) (inhale (useMethod [] false) (insts ct c) .empty)

/-- A postcondition and the leak check hold at the end of a body.  Models
translators/obligation/method_node.py:252-270. -/
def endOk (ct : Nat) (c : Contract) (h : Hold) : Prop :=
  c.pure ∧ ∃ h', exhale (useMethod [] true) (insts ct c) h = some h' ∧ leakFree h' = true

/-- A call verifies: the precondition, the measures, the obligations and the leak check of the callee; `Q` is what
has to hold after the call.  Models translators/obligation/method_node.py:272-313,
translators/obligation/method_call_node.py:89-121. -/
def callOk {σ : Type} (ct : Nat) (map : List Entry) (pre : Contract) (post : Bool → σ → Contract)
    (Q : Bool → σ → Hold → Prop) (h : Hold) : Prop :=
  pre.pure ∧ positive (insts ct pre) = true ∧
    ∃ h', exhale (useMethod map false) (insts ct pre) h = some h' ∧
      callCheck map ct h'.t (leakFree h') (.python (insts ct pre)) = true ∧
      ∀ ex s', (post ex s').pure → (inhale (useMethod [] true) (insts ct (post ex s')) h').consistent →
        Q ex s' (inhale (useMethod [] true) (insts ct (post ex s')) h')

/-- The contract of `Lock.acquire`.  Models /repo/src/nagini_contracts/lock.py:72-80. -/
def acquirePre : Contract := ⟨True, [.terminate true 1]⟩

/-- See `acquirePre`.  Models /repo/src/nagini_contracts/lock.py:72-80. -/
def acquirePost {σ : Type} (l : Nat) (s : σ) (ex : Bool) (s' : σ) : Contract :=
  ⟨ex = false ∧ s' = s, [.release true l none]⟩

/-- The contract of `Lock.release`.  Models /repo/src/nagini_contracts/lock.py:82-89. -/
def releasePre (l : Nat) : Contract := ⟨True, [.terminate true 1, .release true l (some 1)]⟩

/-- See `releasePre`.  Models /repo/src/nagini_contracts/lock.py:82-89. -/
def releasePost {σ : Type} (s : σ) (ex : Bool) (s' : σ) : Contract := ⟨ex = false ∧ s' = s, []⟩

/-- The invariant in a state, as the termination checks see it.  Models
translators/obligation/obligation_info.py:451-464. -/
def loopState {σ : Type} (ct : Nat) (c : σ → Bool) (inv : σ → Contract) (s : σ) : LoopState :=
  ⟨c s, insts ct (inv s)⟩

/-- The checks before a loop; `h'` is what is left after exhaling the invariant.  Models
translators/obligation/loop_node.py:127-158, 189-207. -/
def loopBefore {σ : Type} (ct : Nat) (c : σ → Bool) (inv : σ → Contract) (s : σ) (h h' : Hold) : Prop :=
  (inv s).pure ∧ loopPositive (loopState ct c inv s) = true ∧
    exhale (useLoop [] true) (insts ct (inv s)) h = some h' ∧
    loopEntry ct h'.t (leakFree h') (loopState ct c inv s) = true

/-- The permissions at the beginning of an iteration.  Models translators/obligation/loop_node.py:171-187. -/
def iterHold {σ : Type} (ct : Nat) (inv : σ → Contract) (s : σ) : Hold :=
  bound (insts ct (inv s)) (inhale (useLoop [] true) (insts ct (inv s)) .empty)

/-- The checks at the end of an iteration that started in `s1`: the termination promise, the invariant and the leak
check.  Models translators/obligation/loop_node.py:160-180, 209-242. -/
def loopAfter {σ : Type} (ct : Nat) (c : σ → Bool) (inv : σ → Contract) (flag : Bool) (s1 s2 : σ) (h2 : Hold) : Prop :=
  loopEnd ct flag (loopState ct c inv s1) (loopState ct c inv s2) = true ∧
    (inv s2).pure ∧ loopPositive (loopState ct c inv s2) = true ∧
    ∃ h3, exhale (useLoop (initMap false (insts ct (inv s1))) false) (insts ct (inv s2)) h2 = some h3 ∧
      leakFree h3 = true

/-- The permissions after a loop: the invariant is inhaled, the amount of `MustTerminate` is reset; `orig` is the
amount before the loop.  Models translators/obligation/loop_node.py:85-102,
translators/obligation/node_constructor.py:67-95. -/
def exitHold {σ : Type} (ct : Nat) (inv : σ → Contract) (orig : Nat) (h' : Hold) (s : σ) : Hold :=
  let h := inhale (useLoop [] true) (insts ct (inv s)) h'
  { h with t := (resetAmount orig (h.t - orig)).toNat }

/-- What has to hold when the body of a loop is left.  Models translators/statement.py:1702-1744 (`break` jumps behind
the statements that reset `MustTerminate`, `continue` to the end of the body),
translators/obligation/loop_node.py:209-219. -/
def bodyPost {σ : Type} (ct : Nat) (c : σ → Bool) (inv : σ → Contract) (flag : Bool) (s1 : σ) (h' : Hold)
    (Q : Option Exit → σ → Hold → Prop) : Option Exit → σ → Hold → Prop
  | none, s2, h2 | some .cont, s2, h2 => loopAfter ct c inv flag s1 s2 h2
  | some .brk, s2, h2 => (h'.merge h2).consistent → Q none s2 (h'.merge h2)
  | some .ret, s2, h2 => (h'.merge h2).consistent → Q (some .ret) s2 (h'.merge h2)
  | some .exc, s2, h2 => (h'.merge h2).consistent → Q (some .exc) s2 (h'.merge h2)

/-- What has to hold behind the first of two statements; `h` is what the second one needs.  Models the blocks built in
translators/statement.py:83-138, 1066-1086. -/
def seqPost {σ : Type} (h : σ → Hold → Prop) (Q : Option Exit → σ → Hold → Prop) : Option Exit → σ → Hold → Prop
  | none, s, k => h s k
  | some e, s, k => Q (some e) s k

/-- What has to hold behind the body of a `try` statement; `h` is what the handler needs.  Models
translators/statement.py:967-997, translators/method.py:529-541, 842-887 (see `Cfg`) for a single handler for all
exceptions; the handler of a `try` statement in a loop belongs to the loop (it is generated at the end of the method and
jumps back). -/
def tryPost {σ : Type} (h : σ → Hold → Prop) (Q : Option Exit → σ → Hold → Prop) (e : Option Exit) (s : σ) (k : Hold) :
    Prop :=
  if e = some .exc then h s k else Q e s k

/-- The condition under which the encoding of a statement verifies; `map` is the measure map of the method, `Q` what has
to hold behind the statement.  Calls in a loop use the measures of the method, not those of the loop.  Models
translators/obligation/method_call_node.py:83-121, translators/obligation/loop_node.py:85-102 and, for the other
statements, the meaning of Viper. -/
def wp {σ M : Type} (ct : Nat) (P : M → Method σ M) (map : List Entry) :
    Stmt σ M → (Option Exit → σ → Hold → Prop) → σ → Hold → Prop
  | .act r, Q, s, h => ∀ s', r s s' → Q none s' h
  | .acquire l, Q, s, h =>
    callOk ct map acquirePre (acquirePost (l s) s) (fun _ s' h' => Q none s' h') h
  | .release l, Q, s, h =>
    callOk ct map (releasePre (l s)) (releasePost s) (fun _ s' h' => Q none s' h') h
  | .exit e, Q, s, h => Q (some e) s h
  | .call m arg back, Q, s, h =>
    callOk ct map ((P m).pre (arg s)) (fun ex => (P m).post ex (arg s))
      (fun ex s' h' => Q (if ex then some .exc else none) (back s s') h') h
  | .seq a b, Q, s, h => wp ct P map a (seqPost (wp ct P map b Q) Q) s h
  | .ite c a b, Q, s, h => if c s then wp ct P map a Q s h else wp ct P map b Q s h
  | .tryExcept a b, Q, s, h => wp ct P map a (tryPost (wp ct P map b Q) Q) s h
  | .loop c inv body, Q, s, h => ∃ h', loopBefore ct c (inv s) s h h' ∧
    (∀ s1, c s1 = true → (inv s s1).pure → loopPositive (loopState ct c (inv s) s1) = true →
      (iterHold ct (inv s) s1).consistent →
      wp ct P map body (bodyPost ct c (inv s) (loopFlag ct (loopState ct c (inv s) s)) s1 h' Q) s1
        (iterHold ct (inv s) s1)) ∧
    (∀ s2, c s2 = false → (inv s s2).pure → (exitHold ct (inv s) h.t h' s2).consistent →
      Q none s2 (exitHold ct (inv s) h.t h' s2))

/-- What has to hold at the end of a method body; `break` and `continue` occur in loops only.  Models
translators/method.py:425-432, 543-550, translators/obligation/method_node.py:252-270. -/
def methodPost {σ M : Type} (ct : Nat) (d : Method σ M) (s : σ) : Option Exit → σ → Hold → Prop
  | none, s', h | some .ret, s', h => endOk ct (d.post false s s') h
  | some .exc, s', h => endOk ct (d.post true s s') h
  | some .brk, _, _ | some .cont, _, _ => False

/-- A method verifies.  Models translators/obligation/method_node.py:133-146, 232-270. -/
def methodOk {σ M : Type} (ct : Nat) (P : M → Method σ M) (m : M) : Prop :=
  ∀ s, ((P m).pre s).pure → positive (insts ct ((P m).pre s)) = true →
    (entryHold ct ((P m).pre s)).consistent →
    wp ct P (initMap false (insts ct ((P m).pre s))) (P m).body (methodPost ct (P m) s) s (entryHold ct ((P m).pre s))

/-- All methods verify.  Models translators/method.py:558-623 for all methods. -/
def Verified {σ M : Type} (ct : Nat) (P : M → Method σ M) : Prop := ∀ m, methodOk ct P m

end Nagini.Oblig
