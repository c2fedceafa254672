import Verif.Model.Errors

/-!
When errors can be rendered, in terms of their ids, positions and Python nodes.
-/
namespace Nagini.Errors

/-- Ids of errors with a message. -/
def errorIds : List String :=
  ["assignment.failed", "call.failed", "not.wellformed", "call.precondition",
   "application.precondition", "exhale.failed", "inhale.failed", "if.failed", "while.failed",
   "assert.failed", "postcondition.violated", "fold.failed", "unfold.failed",
   "invariant.not.preserved", "invariant.not.established", "function.not.wellformed",
   "predicate.not.wellformed", "termination_check.failed", "leak_check.failed", "internal",
   "expression.undefined", "thread.creation.failed", "thread.start.failed", "thread.join.failed",
   "termination_channel_check.failed", "lock.invariant.not.established", "probabilistic.sif.violated",
   "possibilistic.sif.violated", "termination.failed", "refute.failed", "predicateinstance.no.access"]

/-- Ids of errors whose message names the enclosing function. -/
def memberIds : List String := ["function.not.wellformed", "predicate.not.wellformed"]

/-- Ids of reasons whose message mentions no node. -/
def constIds : List String :=
  ["must_terminate.loop_not_promised", "must_terminate.loop_promise_not_kept",
   "loop_context.has_unsatisfied_obligations", "loop_body.leaks_obligations",
   "undefined.local.variable", "undefined.global.name", "missing.dependencies", "internal",
   "qp.not.injective", "wait.level.invalid", "thread.not.joinable", "invalid.argument.type",
   "method.not.listed", "missing.start.permission", "concurrency.in.sif",
   "missing.termination.annotation", "unknown.family.receiver.type", "family.member.not.framed",
   "tuple.false", "termination.condition.false", "refutation.true"]

/-- Ids of reasons whose message quotes the node. -/
def quoteIds : List String :=
  ["assertion.false", "receiver.null", "division.by.zero", "negative.permission",
   "permission.not.positive", "insufficient.permission", "termination_measure.non_positive",
   "measure.non_decreasing", "gap.enabled", "child_termination.not_implied",
   "obligation_measure.non_positive", "loop_condition.not_framed_for_obligation_use", "high.branch",
   "high.receiver.type", "high.exception.type", "high.short.circuit", "high.comprehension"]

/-- Ids of reasons whose message names the function called or the enclosing one. -/
def targetIds : List String :=
  ["must_terminate.not_taken", "caller.has_unsatisfied_obligations", "method_body.leaks_obligations"]

/-- Ids of reasons whose message quotes the first argument. -/
def argIds : List String :=
  ["sif_termination.condition_not_low", "sif_termination.not_lowevent",
   "sif_termination.condition_not_tight"]

/-- Ids of reasons with a message for unknown nodes. -/
def vagueIds : List String :=
  ["assertion.false", "receiver.null", "division.by.zero", "negative.permission",
   "permission.not.positive", "insufficient.permission", "termination_measure.non_positive",
   "measure.non_decreasing", "gap.enabled", "child_termination.not_implied",
   "obligation_measure.non_positive", "must_terminate.not_taken", "caller.has_unsatisfied_obligations",
   "method_body.leaks_obligations", "loop_condition.not_framed_for_obligation_use"]

/-- All ids of reasons with a message. -/
def reasonIds : List String := constIds ++ quoteIds ++ targetIds ++ argIds ++ ["sif.fold", "sif.unfold"]

/-- The node is a function definition or inside one. -/
def InFunction (n : PyNode) : Prop := ∃ f, Kind.fdef f ∈ n.kind :: n.ancestors

/-- There is a function to name: the one called, defined, or the enclosing one. -/
def HasTarget (n : PyNode) : Prop := (∃ t as, n.kind = .call t as) ∨ InFunction n

/-- A call with a first argument `a`. -/
def FirstArg (n a : PyNode) : Prop := ∃ t as, n.kind = .call t (a.kind :: as) ∧ a.ancestors = n.kind :: n.ancestors

/-- What a message for a reason needs to know.  `none`: nothing is known about the reason; a text
stands for itself. -/
def ReasonNeeds (id : String) : Option Subject → Prop
  | none => id ∈ vagueIds ∨ id ∈ constIds
  | some (.text s) => id ∈ constIds ∨ (id ∈ quoteIds ∧ s ≠ "")
  | some (.node n) => id ∈ constIds ∨ id ∈ quoteIds ∨ (id ∈ targetIds ∧ HasTarget n) ∨
      (id ∈ argIds ∧ ∃ a, FirstArg n a) ∨
      (id = "sif.unfold" ∧ ∃ a, FirstArg n a ∧ HasTarget a) ∨
      (id = "sif.fold" ∧ ((∃ t, n.kind = .call t []) ∨ ∃ a, FirstArg n a ∧ HasTarget a))

/-- What a message for an error needs. -/
def ErrorNeeds (id : String) : Option PyNode → Prop
  | none => True
  | some n => id ∈ errorIds ∧ (id ∈ memberIds → InFunction n)

/-- A position without identifier, or one that was registered. -/
def Known (m : Manager) (p : Pos) : Prop := ∀ i r, p = .ident i r → ∃ it, m.items i = some it

/-- Success. -/
def Ok {α : Type} (x : Except Exc α) : Prop := ∃ a, x = .ok a

/-- Whether a set of rules belongs to the expression of an error: to the node itself or to a part of
its conjunctions and implications. -/
inductive Carries (m : Manager) : VNode → Rules → Prop
  | here {n i r R} : n.pos = .ident i r → m.rules i = some R → Carries m n R
  | left {p l r R} : Carries m l R → Carries m (.bin p l r) R
  | right {p l r R} : Carries m r R → Carries m (.bin p l r) R

/-- Nesting depth of parentheses after a text; `none` if a closing one has no partner. -/
def depth : Nat → List Char → Option Nat
  | d, [] => some d
  | d, c :: cs =>
    if c = '(' then depth (d + 1) cs
    else if c = ')' then
      match d with
      | 0 => none
      | d' + 1 => depth d' cs
    else depth d cs

/-- Parentheses match. -/
def Balanced (c : List Char) : Prop := depth 0 c = some 0

end Nagini.Errors
