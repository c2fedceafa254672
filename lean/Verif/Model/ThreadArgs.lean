import Verif.Spec.ThreadArgs

/-!
Creating and starting threads.  Preconditions contain no permissions, and statements of arguments are not modelled (the
values of arguments are functions of the state before).  What is remembered about old expressions and joins are in
`Verif.Model.Threads`.
-/
namespace Nagini.ThreadArgs

variable {E V X : Type}

/-! ### The arguments of the constructor -/

/-- translators/call.py:1434-1439 `_get_arg`; `None` is `none`. -/
def getArg (nargs : Nat) (keywords : List Kw) (index : Nat) (kw : Kw) : Option Nat :=
  if nargs > index then some index
  else if kw ∈ keywords then some (nargs + keywords.idxOf kw)
  else none

/-- translators/call.py:1441-1504: how `_handle_thread_constructor_args` can fail before it looks at the target. -/
inductive CErr
  | invalid | unsupported | crash
  deriving DecidableEq

/-- translators/call.py:1441-1484: the expressions taken for the group, the target and the arguments. -/
structure CArgs (X : Type) where
  group : Option X
  target : X
  args : X

/-- translators/call.py:1456: an optional index is a true value in Python. -/
def truthy : Option Nat → Bool
  | some (_ + 1) => true
  | _ => false

/-- translators/call.py:1441-1484 `_handle_thread_constructor_args`, up to the target; indexing with `None` (line 1471)
raises an exception. -/
def handle (pos : List X) (kws : List (Kw × X)) : Except CErr (CArgs X) :=
  let exprs := pos ++ kws.map (·.2)
  let keywords := kws.map (·.1)
  let groupArg := getArg pos.length keywords 0 .group
  let targetArg := getArg pos.length keywords 1 .target
  let argsArg := getArg pos.length keywords 3 .args
  let kwargsArg := getArg pos.length keywords 4 .kwargs
  let daemonArg := getArg pos.length keywords 5 .daemon
  match targetArg with
  | none => .error .invalid
  | some t =>
    if truthy kwargsArg || truthy daemonArg then .error .unsupported
    else match argsArg with
      | none => .error .crash
      | some a =>
        match exprs[t]?, exprs[a]? with
        | some tx, some ax => .ok ⟨groupArg.bind (exprs[·]?), tx, ax⟩
        | _, _ => .error .crash

/-! ### Creation -/

/-- translators/call.py:1492-1495: the receiver of `target=o.m` is the first argument. -/
def methArgs (recv : Option (E → V)) (args : List (E → V)) : List (E → V) := recv.toList ++ args

/-- translators/call.py:1540, 1550-1551: the checks of the types of the arguments. -/
def argChecks (e : E) (args : List (E → V)) (ps : List (V → Prop)) : Prop :=
  (args.zip ps).foldl (fun acc x => (acc ↔ x.2 (x.1 e))) True

/-- translators/call.py:1539, 1545-1549: what is assumed about `getArg`, from index `i` on. -/
def argAssumptions (e : E) (G : Ghost V) : Nat → List (E → V) → Prop
  | _, [] => True
  | i, a :: r => G.arg i = a e ∧ argAssumptions e G (i + 1) r

/-- translators/call.py:1497-1504, 1506-1567: `Thread(target=t, args=...)`, `none` if the number of arguments is wrong. -/
def create (ms : Nat → Meth V) (t : Nat) (recv : Option (E → V)) (args : List (E → V)) : Option (Cmd E V) :=
  let as := methArgs recv args
  if as.length ≠ (ms t).params.length then none
  else some
    (.seq (.assume fun _ G => G.meth = t)
      (.seq (.assert fun e _ => argChecks e as (ms t).params)
        (.seq (.assume fun e G => argAssumptions e G 0 as)
          .giveStart)))

/-! ### Start -/

/-- translators/obligation/fork.py:114-139 `_set_parameter_aliases`: the types of the parameters are inhaled. -/
def paramTypes : Nat → List (V → Prop) → Cmd E V
  | _, [] => .skip
  | i, P :: r => .seq (.assume fun _ G => P (G.arg i)) (paramTypes (i + 1) r)

/-- translators/obligation/fork.py:118-139: what the parameters stand for in the precondition. -/
def paramVals (G : Ghost V) (m : Meth V) : List V := (List.range m.params.length).map G.arg

/-- translators/obligation/fork.py:71-92, 160-190: what is done for one method if it is the target; the function
`joinable` is left out. -/
def forkOne (m : Meth V) : Cmd E V :=
  .seq (paramTypes 0 m.params)
    (.seq (.assert fun _ G => m.pre (paramVals G m))
      (.givePost fun _ G => m.term (paramVals G m)))

/-- translators/obligation/fork.py:141-206 `_add_precondition_exhales`. -/
def forks (ms : Nat → Meth V) : List Nat → Cmd E V
  | [] => .skip
  | m :: r => .seq (.ifThen (fun _ G => G.meth = m) (forkOne (ms m))) (forks ms r)

/-- translators/call.py:1569-1623 `_translate_thread_start`. -/
def start (ms : Nat → Meth V) (opts : List Nat) : Cmd E V :=
  .seq .takeStart
    (.seq (.assert fun _ G => opts.foldl (fun acc m => acc ∨ G.meth = m) False)
      (forks ms opts))

/-- translators/call.py:1569-1623: several starts in a row. -/
def startAll (ms : Nat → Meth V) : List (List Nat) → Cmd E V
  | [] => .skip
  | o :: r => .seq (start ms o) (startAll ms r)

/-- translators/call.py:1506-1623: a thread is created and started, and something is asserted. -/
def prog (ms : Nat → Meth V) (t : Nat) (recv : Option (E → V)) (args : List (E → V)) (starts : List (List Nat))
    (Q : E → Prop) : Option (Cmd E V) :=
  (create ms t recv args).map fun c => .seq c (.seq (startAll ms starts) (.assert fun e _ => Q e))

end Nagini.ThreadArgs
