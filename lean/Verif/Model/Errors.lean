import Mathlib.Logic.Basic

/-!
Model of the conversion of verification errors and of their rendering: lib/errors/manager.py,
lib/errors/wrappers.py, lib/errors/messages.py, lib/errors/rules.py, the list of errors printed on the
command line (verifier.py) and the diagnostics of the service (service.py).

Exceptions are values of type `Exc`.  Counterexamples are left out.
-/
namespace Nagini.Errors

/-- Python exceptions.  Models the exceptions that escape from lib/errors/wrappers.py:86-236. -/
inductive Exc
  | key | value | attribute | type | index
deriving DecidableEq, Repr

/-! ### Python nodes -/

/-- Kinds of AST nodes.  A call has the name of its target.  Models lib/util.py:329-354. -/
inductive Kind
  | call (target : String) (args : List Kind)
  | fdef (name : String)
  | other

/-- A node with its ancestors, the nearest one first.  Models `_parent`, lib/util.py:357-367. -/
structure PyNode where
  kind : Kind
  ancestors : List Kind

/-- What messages are about: a text or a node.  Models lib/errors/wrappers.py:108. -/
inductive Subject
  | text (s : String)
  | node (n : PyNode)

/-- Models the loop of `get_containing_member`, lib/util.py:361-367. -/
def findMember : List Kind → Option String
  | [] => none
  | .fdef n :: _ => some n
  | .call _ _ :: ks => findMember ks
  | .other :: ks => findMember ks

/-- Models `get_containing_member`, lib/util.py:357-367 (a text has no parent). -/
def containingMember : Subject → Option String
  | .text _ => none
  | .node ⟨k, ks⟩ => findMember (k :: ks)

/-- Models `get_target_name`, lib/util.py:338-354.  `None` has no attribute `func`. -/
def targetName : Option Subject → Except Exc String
  | some (.node ⟨.call t _, _⟩) => .ok t
  | some (.node ⟨.fdef n, _⟩) => .ok n
  | some s =>
    match containingMember s with
    | some n => .ok n
    | none => .error .attribute
  | none => .error .attribute

/-- Models `pprint`, lib/util.py:323-335; `unparse` is `ast.unparse`. -/
def pprint (unparse : Kind → String) : Option Subject → Except Exc String
  | none => .error .value
  | some (.text s) => if s = "" then .error .value else .ok s
  | some (.node ⟨.fdef n, _⟩) => .ok ("unknown node in function " ++ n)
  | some (.node ⟨k, _⟩) => .ok (unparse k)

/-- The arguments of a call.  The attribute `args` of a function definition is not a list; other nodes
have none (simplified: those with such an attribute, e.g. lambdas, fail too).
Models `n.args[0]`, lib/errors/messages.py:163-175. -/
def args : Option Subject → Except Exc (List Kind)
  | some (.node ⟨.call _ as, _⟩) => .ok as
  | some (.node ⟨.fdef _, _⟩) => .error .type
  | _ => .error .attribute

/-- The first argument as a subject.  Models `n.args[0]`, lib/errors/messages.py:163-175. -/
def firstArg (s : Option Subject) : Except Exc Subject :=
  match args s with
  | .error e => .error e
  | .ok [] => .error .index
  | .ok (a :: _) =>
    match s with
    | some (.node ⟨k, ks⟩) => .ok (.node ⟨a, k :: ks⟩)
    | _ => .error .attribute

/-- Kinds of entries of the tables of messages.  Models the lambda expressions of
lib/errors/messages.py:18-201. -/
inductive Template
  | const (s : String)
  | pp (pre post : String)
  | target (pre post : String)
  | member (pre post : String)
  | memberOr (pre post other : String)
  | callee (pre post pre' post' : String)
  | argTarget (pre post : String) (empty : Option String)
  | argPp (pre post : String)

/-- Whether a subject is a call or a definition.  Models lib/errors/messages.py:28, 33. -/
def isCallOrDef : Option Subject → Bool
  | some (.node ⟨.call _ _, _⟩) => true
  | some (.node ⟨.fdef _, _⟩) => true
  | _ => false

/-- `pre ++ x ++ post`.  Models `str.format` with one field, lib/errors/messages.py. -/
def fill (pre post : String) : Except Exc String → Except Exc String
  | .ok s => .ok (pre ++ s ++ post)
  | .error e => .error e

/-- Calls an entry.  Models the lambda expressions of lib/errors/messages.py:18-201. -/
def instantiate (unparse : Kind → String) (t : Template) (n : Option Subject) : Except Exc String :=
  match t with
  | .const s => .ok s
  | .pp a b => fill a b (pprint unparse n)
  | .target a b => fill a b (targetName n)
  | .member a b =>
    match n.bind containingMember with
    | some m => .ok (a ++ m ++ b)
    | none => .error .attribute
  | .memberOr a b o =>
    match n.bind containingMember with
    | some m => .ok (a ++ m ++ b)
    | none => .ok o
  | .callee a b c d => if isCallOrDef n then fill a b (targetName n) else fill c d (pprint unparse n)
  | .argTarget a b e =>
    match args n, e with
    | .ok [], some s => .ok (a ++ s ++ b)
    | _, _ =>
      match firstArg n with
      | .ok x => fill a b (targetName (some x))
      | .error e => .error e
  | .argPp a b =>
    match firstArg n with
    | .ok x => fill a b (pprint unparse (some x))
    | .error e => .error e

/-- Models `ERRORS`, lib/errors/messages.py:18-91. -/
def errorTable : List (String × Template) :=
  [("assignment.failed", .const "Assignment might fail."),
   ("call.failed", .const "Method call might fail."),
   ("not.wellformed", .const "Contract might not be well-formed."),
   ("call.precondition", .callee "The precondition of method " " might not hold." "The precondition of " " might not hold."),
   ("application.precondition", .callee "The precondition of function " " might not hold." "The precondition of " " might not hold."),
   ("exhale.failed", .const "Exhale might fail."),
   ("inhale.failed", .const "Inhale might fail."),
   ("if.failed", .const "Conditional statement might fail."),
   ("while.failed", .const "While statement might fail."),
   ("assert.failed", .const "Assert might fail."),
   ("postcondition.violated", .memberOr "Postcondition of " " might not hold." "Internal error."),
   ("fold.failed", .const "Fold might fail."),
   ("unfold.failed", .const "Unfold might fail."),
   ("invariant.not.preserved", .const "Loop invariant might not be preserved."),
   ("invariant.not.established", .const "Loop invariant might not hold on entry."),
   ("function.not.wellformed", .member "Function " " might not be well-formed."),
   ("predicate.not.wellformed", .member "Predicate " " might not be well-formed."),
   ("termination_check.failed", .const "Operation might not terminate."),
   ("leak_check.failed", .const "Obligation leak check failed."),
   ("internal", .const "An internal error occurred."),
   ("expression.undefined", .pp "Expression " " may not be defined."),
   ("thread.creation.failed", .const "Thread creation may fail."),
   ("thread.start.failed", .const "Thread start may fail."),
   ("thread.join.failed", .const "Thread join may fail."),
   ("termination_channel_check.failed", .const "Termination channel might exist."),
   ("lock.invariant.not.established", .const "Lock invariant might not hold."),
   ("probabilistic.sif.violated", .const "Probabilistic non-interference might not be satisfied."),
   ("possibilistic.sif.violated", .const "Possibilistic non-interference might not be satisfied."),
   ("termination.failed", .const "Function might not terminate."),
   ("refute.failed", .const "Refute holds in all cases or could not be reached."),
   ("predicateinstance.no.access", .const "Predicate access might fail.")]

/-- Models `REASONS`, lib/errors/messages.py:93-201. -/
def reasonTable : List (String × Template) :=
  [("assertion.false", .pp "Assertion " " might not hold."),
   ("receiver.null", .pp "Receiver of " " might be null."),
   ("division.by.zero", .pp "Divisor " " might be zero."),
   ("negative.permission", .pp "Fraction " " might be negative."),
   ("permission.not.positive", .pp "Fraction " " might not be positive"),
   ("insufficient.permission", .pp "There might be insufficient permission to access " "."),
   ("termination_measure.non_positive", .pp "Termination measure " " might be non-positive."),
   ("measure.non_decreasing", .pp "Termination measure of " " might be not smaller."),
   ("gap.enabled", .pp "Gap " " might be enabled in terminating IO operation."),
   ("child_termination.not_implied", .pp "Parent IO operation termination condition does not imply " " termination condition."),
   ("obligation_measure.non_positive", .pp "Obligation " " measure might be non-positive."),
   ("must_terminate.not_taken", .target "Callee " " might not take MustTerminate obligation."),
   ("must_terminate.loop_not_promised", .const "Loop might not promise to terminate."),
   ("must_terminate.loop_promise_not_kept", .const "Loop might not keep promise to terminate."),
   ("caller.has_unsatisfied_obligations", .target "Callee " " might not take all unsatisfied obligations from the caller."),
   ("method_body.leaks_obligations", .target "Body of method " " might leak obligations."),
   ("loop_context.has_unsatisfied_obligations", .const "Loop might not take all unsatisfied obligations from the context."),
   ("loop_body.leaks_obligations", .const "Loop body might leak obligations."),
   ("loop_condition.not_framed_for_obligation_use", .pp "Loop condition part " " is not framed at the point where obligation is used."),
   ("undefined.local.variable", .const "Local variable may not have been defined."),
   ("undefined.global.name", .const "Global name may not have been defined."),
   ("missing.dependencies", .const "Global dependencies may not be defined."),
   ("internal", .const "Internal Viper error."),
   ("qp.not.injective", .const "Receiver expression of quantified permission is not injective."),
   ("wait.level.invalid", .const "Thread level may not be lower than current thread."),
   ("thread.not.joinable", .const "Thread may not be joinable."),
   ("invalid.argument.type", .const "Thread argument may not fit target method parameter type."),
   ("method.not.listed", .const "Thread's target method may not be listed in start statement."),
   ("missing.start.permission", .const "May not have permission to start thread."),
   ("sif.fold", .argTarget "The low parts of predicate " " might not hold." (some "lock invariant")),
   ("sif.unfold", .argTarget "The low parts of predicate " " might not hold." none),
   ("sif_termination.condition_not_low", .argPp "Termination condition " " might not be low."),
   ("sif_termination.not_lowevent", .argPp "Termination condition " " evaluating to false might not imply that both executions don't terminate."),
   ("sif_termination.condition_not_tight", .argPp "Termination condition " " might not be tight."),
   ("concurrency.in.sif", .const "Concurrency (thread and lock operations) is not allowed in noninterference mode."),
   ("missing.termination.annotation", .const "Function and loop termination must be proved to be low in possibilistic noninterference mode. Use TerminatesSif(...) as the last precondition/loop invariant."),
   ("high.branch", .pp "Branch condition " " might not be low or reaching the loop might not be a low event."),
   ("high.receiver.type", .pp "Type of call receiver " " might not be low."),
   ("high.exception.type", .pp "Type of raised exception " " might not be low."),
   ("high.short.circuit", .pp "Short-circuiting behavior of expression " " might not be low."),
   ("high.comprehension", .pp "Comprehension " " might introduce high control flow"),
   ("unknown.family.receiver.type", .const "Might not be able to satisfy constraints from currently unknown predicate family members."),
   ("family.member.not.framed", .const "Predicate family addition might not be self-framing."),
   ("tuple.false", .const "Termination measure might not decrease or might not be bounded."),
   ("termination.condition.false", .const "Termination condition might not hold."),
   ("refutation.true", .const "Assertion definitely holds.")]

/-- Models `VAGUE_REASONS`, lib/errors/messages.py:203-223. -/
def vagueTable : List (String × String) :=
  [("assertion.false", ""),
   ("receiver.null", "Receiver might be null."),
   ("division.by.zero", "Divisor might be zero."),
   ("negative.permission", "Fraction might be negative."),
   ("permission.not.positive", "Fraction might not be positive."),
   ("insufficient.permission", "There might be insufficient permission."),
   ("termination_measure.non_positive", "Termination measure might be non-positive."),
   ("measure.non_decreasing", "Termination measure might not be smaller."),
   ("gap.enabled", "Gap might be enabled in terminating IO operation."),
   ("child_termination.not_implied", "Parent IO operation termination condition does not imply termination condition."),
   ("obligation_measure.non_positive", "Obligation measure might be non-positive."),
   ("must_terminate.not_taken", "Callee might not take MustTerminate obligation."),
   ("caller.has_unsatisfied_obligations", "Callee might not take all unsatisfied obligations from the caller."),
   ("method_body.leaks_obligations", "Method body might leak obligations."),
   ("loop_condition.not_framed_for_obligation_use", "Loop condition part is not framed at the point where obligation is used.")]

/-- A set of conversion rules.  Models `Rules`, lib/errors/rules.py:14-15. -/
abbrev Rules := List ((String × String) × (String × String))

/-- The sets of rules.  Models lib/errors/rules.py:18-150. -/
def ruleSets : List Rules :=
  [[(("assert.failed", "assertion.false"), ("termination_check.failed", "termination_measure.non_positive"))],
   [(("assert.failed", "assertion.false"), ("termination_check.failed", "measure.non_decreasing"))],
   [(("assert.failed", "assertion.false"), ("termination_check.failed", "gap.enabled"))],
   [(("assert.failed", "assertion.false"), ("termination_check.failed", "child_termination.not_implied"))],
   [(("call.precondition", "assertion.false"), ("call.precondition", "obligation_measure.non_positive"))],
   [(("assert.failed", "assertion.false"), ("leak_check.failed", "must_terminate.loop_promise_not_kept"))],
   [(("call.precondition", "assertion.false"), ("leak_check.failed", "caller.has_unsatisfied_obligations"))],
   [(("postcondition.violated", "assertion.false"), ("leak_check.failed", "method_body.leaks_obligations"))],
   [(("invariant.not.established", "assertion.false"), ("leak_check.failed", "loop_context.has_unsatisfied_obligations"))],
   [(("invariant.not.preserved", "assertion.false"), ("leak_check.failed", "loop_body.leaks_obligations"))],
   [(("invariant.not.established", "assertion.false"), ("invariant.not.established", "obligation_measure.non_positive")),
    (("invariant.not.preserved", "assertion.false"), ("invariant.not.preserved", "obligation_measure.non_positive")),
    (("not.wellformed", "insufficient.permission"), ("not.wellformed", "loop_condition.not_framed_for_obligation_use"))],
   [(("application.precondition", "assertion.false"), ("expression.undefined", "undefined.local.variable"))],
   [(("application.precondition", "assertion.false"), ("expression.undefined", "undefined.global.name"))],
   [(("application.precondition", "assertion.false"), ("expression.undefined", "missing.dependencies"))],
   [(("assert.failed", "assertion.false"), ("thread.creation.failed", "invalid.argument.type"))],
   [(("assert.failed", "assertion.false"), ("thread.creation.failed", "assertion.false"))],
   [(("assert.failed", "assertion.false"), ("thread.start.failed", "method.not.listed"))],
   [(("exhale.failed", "insufficient.permission"), ("thread.start.failed", "missing.start.permission"))],
   [(("exhale.failed", "insufficient.permission"), ("thread.start.failed", "insufficient.permission")),
    (("inhale.failed", "insufficient.permission"), ("thread.start.failed", "insufficient.permission")),
    (("exhale.failed", "assertion.false"), ("thread.start.failed", "assertion.false"))],
   [(("assert.failed", "assertion.false"), ("thread.join.failed", "wait.level.invalid"))],
   [(("assert.failed", "assertion.false"), ("thread.join.failed", "thread.not.joinable"))],
   [(("inhale.failed", "insufficient.permission"), ("call.precondition", "insufficient.permission"))],
   [(("fold.failed", "insufficient.permission"), ("lock.invariant.not.established", "insufficient.permission")),
    (("fold.failed", "assertion.false"), ("lock.invariant.not.established", "assertion.false"))],
   [(("assert.failed", "assertion.false"), ("probabilistic.sif.violated", "high.branch"))],
   [(("assert.failed", "assertion.false"), ("possibilistic.sif.violated", "high.branch"))],
   [(("assert.failed", "assertion.false"), ("probabilistic.sif.violated", "high.receiver.type"))],
   [(("assert.failed", "assertion.false"), ("probabilistic.sif.violated", "high.exception.type"))],
   [(("assert.failed", "assertion.false"), ("probabilistic.sif.violated", "high.short.circuit"))],
   [(("assert.failed", "assertion.false"), ("probabilistic.sif.violated", "high.comprehension"))],
   [(("fold.failed", "insufficient.permission"), ("fold.failed", "unknown.family.receiver.type"))],
   [(("not.wellformed", "insufficient.permission"), ("predicate.not.wellformed", "family.member.not.framed"))]]

/-- Dictionary access.  Models `d[k]` and `k in d`, lib/errors/wrappers.py:109-117, 133-135, 200. -/
def find {K V : Type} [DecidableEq K] (k : K) : List (K × V) → Option V
  | [] => none
  | (k', v) :: l => if k = k' then some v else find k l

/-! ### Viper nodes and errors -/

/-- A line and column range.  Models lib/errors/wrappers.py:52-74. -/
structure Range where
  file : String
  line : Nat
  col : Nat
  lineEnd : Nat
  colEnd : Nat

/-- Viper positions: none, without identifier (e.g. in .sil files), or created by
`to_position`.  Models lib/viper_ast.py:529-552. -/
inductive Pos
  | none
  | plain (r : Range)
  | ident (id : Nat) (r : Range)

/-- Viper nodes as far as needed.  Models lib/errors/manager.py:100-105. -/
inductive VNode
  | bin (pos : Pos) (l r : VNode)
  | leaf (pos : Pos)

/-- Models `pos()`, lib/errors/manager.py:97. -/
def VNode.pos : VNode → Pos
  | .bin p _ _ => p
  | .leaf p => p

/-- Information stored for a position.  Models `Item`, lib/errors/manager.py:24. -/
structure Item where
  node : PyNode
  vias : List (String × String)
  reasonString : Option String

/-- Models `ErrorManager`, lib/errors/manager.py:27-32. -/
structure Manager where
  items : Nat → Option Item
  rules : Nat → Option Rules

/-- The reason of a Viper error: its id, the offending node, the error message in its annotation, and
the message of Viper.  Models the uses in lib/errors/wrappers.py:86-117. -/
structure VReason where
  id : String
  offending : VNode
  annotation : Option String
  readable : String

/-- A branch condition: whether it is a negation with the position of its operand, the position, and
the position as text.  Models lib/errors/manager.py:150-173. -/
structure Branch where
  negated : Bool
  pos : Pos
  posText : String
  inSil : Bool

/-- A Viper error.  `timeout`: whether its class is one for timeouts.  Models the uses in
lib/errors/manager.py:116-179 and lib/errors/wrappers.py:123-236. -/
structure VError where
  timeout : Bool
  id : String
  reason : Option VReason
  pos : Pos
  offending : VNode
  text : String
  readable : String
  branches : List Branch

/-- Models `Reason`, lib/errors/wrappers.py:83-95. -/
structure Reason where
  id : String
  subject : Option Subject
  vias : List (String × String)
  viper : VReason

/-- Models `Error`, lib/errors/wrappers.py:120-154. -/
structure Error where
  viper : VError
  id : String
  node : Option PyNode
  vias : List (String × String)
  reason : Option Reason
  bcs : List String

/-! ### Conversion -/

/-- Models `_get_item`, lib/errors/manager.py:70-74. -/
def getItem (m : Manager) : Pos → Except Exc (Option Item)
  | .ident i _ =>
    match m.items i with
    | some it => .ok (some it)
    | none => .error .key
  | .plain _ => .ok none
  | .none => .ok none

/-- Models `_get_conversion_rules`, lib/errors/manager.py:76-82. -/
def getRules (m : Manager) : Pos → Option Rules
  | .ident i _ => m.rules i
  | .plain _ => none
  | .none => none

/-- Models `_try_get_rules_workaround`, lib/errors/manager.py:84-106 (a set of rules is never
empty). -/
def workaround (m : Manager) : VNode → Option Rules
  | .leaf p => getRules m p
  | .bin p l r =>
    match getRules m p with
    | some x => some x
    | none =>
      match getRules m l.pos with
      | some x => some x
      | none =>
        match getRules m r.pos with
        | some x => some x
        | none =>
          match workaround m l with
          | some x => some x
          | none => workaround m r

/-- What a negated condition looks like.  Models lib/errors/manager.py:162-166. -/
def negate (c : List Char) : List Char :=
  if "(not ".toList.isPrefixOf c && [')'].isSuffixOf c then (c.drop 5).dropLast
  else "(not ".toList ++ c ++ [')']

/-- `reason_string or pprint(node)`.  Models lib/errors/manager.py:161. -/
def condition (unparse : Kind → String) (it : Item) : Except Exc String :=
  match it.reasonString with
  | some s => if s = "" then pprint unparse (some (.node it.node)) else .ok s
  | none => pprint unparse (some (.node it.node))

/-- Models the loop over branch conditions, lib/errors/manager.py:147-174. -/
def branchStrings (unparse : Kind → String) (m : Manager) : List Branch → Except Exc (List String)
  | [] => .ok []
  | b :: bs =>
    match getItem m b.pos with
    | .error e => .error e
    | .ok none => branchStrings unparse m bs
    | .ok (some it) =>
      match condition unparse it with
      | .error e => .error e
      | .ok c =>
        match branchStrings unparse m bs with
        | .error e => .error e
        | .ok rest =>
          if b.inSil then .ok rest
          else
            let c' := if b.negated then String.ofList (negate c.toList) else c
            .ok ((c' ++ " at " ++ b.posText) :: rest)

/-- The ids after conversion.  Models lib/errors/wrappers.py:128-137. -/
def convertIds (rules : Rules) (e r : String) : String × String :=
  match find (e, r) rules with
  | some p => p
  | none => (e, r)

/-- The rules for an error.  Models lib/errors/manager.py:125-131. -/
def rulesFor (m : Manager) (e : VError) : Rules :=
  match workaround m e.offending with
  | some r => r
  | none =>
    match e.reason with
    | none => []
    | some vr =>
      match workaround m vr.offending with
      | some r => r
      | none => []

/-- What the reason is about.  Models lib/errors/wrappers.py:108, 145-150. -/
def subjectOf (it : Item) : Option Subject :=
  match it.reasonString with
  | some s => if s = "" then some (.node it.node) else some (.text s)
  | none => some (.node it.node)

/-- Models `Error.__init__`, lib/errors/wrappers.py:123-154. -/
def mkError (e : VError) (rules : Rules) (reasonItem : Option Item) (node : Option PyNode)
    (vias : List (String × String)) (bcs : List String) : Error :=
  match e.reason with
  | none => ⟨e, e.id, node, vias, none, bcs⟩
  | some vr =>
    let ids := convertIds rules e.id vr.id
    let reason : Reason :=
      match reasonItem with
      | some it => ⟨ids.2, subjectOf it, it.vias, vr⟩
      | none => ⟨ids.2, none, [], vr⟩
    ⟨e, ids.1, node, vias, some reason, bcs⟩

/-- The item of the reason.  Models lib/errors/manager.py:122-123. -/
def reasonItem (m : Manager) (e : VError) : Except Exc (Option Item) :=
  match e.reason with
  | none => .ok none
  | some vr => getItem m vr.offending.pos

/-- Models `_convert_error`, lib/errors/manager.py:116-179, for an error that is its own
transformation. -/
def convert (unparse : Kind → String) (m : Manager) (e : VError) : Except Exc Error :=
  if e.timeout then .ok (mkError e [] none none [] [])
  else
    match reasonItem m e with
    | .error x => .error x
    | .ok reasonItem =>
      match getItem m e.pos with
      | .error x => .error x
      | .ok none => .ok (mkError e (rulesFor m e) reasonItem none [] [])
      | .ok (some it) =>
        match branchStrings unparse m e.branches with
        | .error x => .error x
        | .ok bcs => .ok (mkError e (rulesFor m e) reasonItem (some it.node) it.vias bcs)

/-! ### Rendering -/

/-- Models `Reason.string`, lib/errors/wrappers.py:100-117. -/
def reasonString (unparse : Kind → String) (showViper : Bool) (r : Reason) : Except Exc String :=
  match r.subject, find r.id vagueTable with
  | none, some vague =>
    match r.viper.annotation with
    | some a => .ok a
    | none => if showViper then .ok r.viper.readable else .ok vague
  | s, _ =>
    match find r.id reasonTable with
    | some t => instantiate unparse t s
    | none => .error .key

/-- Models `Error.message`, lib/errors/wrappers.py:196-203. -/
def message (unparse : Kind → String) (e : Error) : Except Exc String :=
  match e.node with
  | some n =>
    match find e.id errorTable with
    | some t => instantiate unparse t (some (.node n))
    | none => .error .key
  | none => .ok e.viper.text

/-- The positions a failing assertion was reached through.  Models lib/errors/wrappers.py:187-194. -/
def viasString (e : Error) (r : Reason) : String :=
  let vias := if r.vias.isEmpty then e.vias else r.vias
  String.join (vias.map fun v => ", via " ++ v.1 ++ " at " ++ v.2)

/-- The range of a position; a missing position has none.  Models lib/errors/wrappers.py:51-77. -/
def range : Pos → Except Exc Range
  | .none => .error .attribute
  | .plain r => .ok r
  | .ident _ r => .ok r

/-- Models `Error.string`, lib/errors/wrappers.py:208-236; `posText` is `str` of a position. -/
def errorString (unparse : Kind → String) (posText : Pos → String) (ide showViper : Bool) (e : Error) :
    Except Exc String :=
  match e.reason with
  | none => .ok (if e.viper.timeout then "Verification timed out" else e.viper.readable)
  | some r =>
    if ide then
      match range e.viper.pos with
      | .error x => .error x
      | .ok p =>
        match message unparse e with
        | .error x => .error x
        | .ok m =>
          match reasonString unparse false r with
          | .error x => .error x
          | .ok s => .ok (p.file ++ ":" ++ toString p.line ++ ":" ++ toString (p.col + 1) ++ ":" ++
              toString p.lineEnd ++ ":" ++ toString (p.colEnd + 1) ++ ": error: " ++ m ++ " " ++ s)
    else
      match message unparse e with
      | .error x => .error x
      | .ok m =>
        match reasonString unparse showViper r with
        | .error x => .error x
        | .ok s => .ok (m ++ " " ++ s ++ " (" ++ posText e.viper.pos ++ viasString e r ++ ")" ++
            (if e.bcs.isEmpty then "" else ".\nBranch conditions: \n  " ++ "\n  ".intercalate e.bcs))

/-- Removes texts that occurred before.  Models `Failure.to_string`, verifier.py:97-101. -/
def unique : List String → List String → List String
  | seen, [] => seen
  | seen, e :: es => if e ∈ seen then unique seen es else unique (seen ++ [e]) es

/-- A diagnostic of the service.  Models the arguments of `Diagnostic`, service.py:476-488 (end, vias and branch conditions left out). -/
structure Diag where
  file : String
  line : Nat
  col : Nat
  message : String
  code : String
  reason : String
deriving DecidableEq

/-- Models one iteration of the loop in `_failure_diagnostics`, service.py:464-488. -/
def diagnostic (unparse : Kind → String) (e : Error) : Except Exc Diag :=
  match e.reason with
  | none => .error .attribute
  | some r =>
    match range e.viper.pos with
    | .error x => .error x
    | .ok p =>
      match message unparse e with
      | .error x => .error x
      | .ok m =>
        match reasonString unparse false r with
        | .error x => .error x
        | .ok s => .ok ⟨p.file, p.line, p.col, m, e.id ++ ":" ++ r.id, s⟩

/-- What the service compares.  Models service.py:489. -/
def Diag.key (d : Diag) : String × Nat × Nat × String × String :=
  (d.file, d.line, d.col, d.code, d.message)

/-- Removes diagnostics whose key occurred before.  Models service.py:489-492. -/
def uniqueDiags (seen : List (String × Nat × Nat × String × String)) : List Diag → List Diag
  | [] => []
  | d :: ds => if d.key ∈ seen then uniqueDiags seen ds else d :: uniqueDiags (d.key :: seen) ds

end Nagini.Errors
