/-!
Specification for C153: the local variables that a loop assigns.
-/
namespace Nagini.LoopTypes

/-- Targets of assignments.  Names carry the identity of their node in the syntax tree; tuples and lists are built with
`cons` and end with `other`, which also stands for attributes and subscripts. -/
inductive Target
  | name (x : String) (i : Nat)
  | other
  | cons (a b : Target)
  | starred (t : Target)

/-- Statements; `x: T = e` is an assignment.  `mat` is a match statement with the names that its patterns bind, and its
cases.  `other` assigns no variable. -/
inductive S
  | other
  | seq (a b : S)
  | assign (t : Target)
  | aug (t : Target)
  | for_ (t : Target) (body orelse : S)
  | while_ (body orelse : S)
  | ite (a b : S)
  | try_ (body rest : S)
  | with_ (t : Target) (body : S)
  | mat (captures : List (String × Nat)) (cases : S)

/-- The names that are bound by a target. -/
def Target.names : Target → List String
  | .name x _ => [x]
  | .other => []
  | .cons a b => a.names ++ b.names
  | .starred t => t.names

/-- The variables that are assigned by a statement. -/
def S.assigned : S → List String
  | .other => []
  | .seq a b => a.assigned ++ b.assigned
  | .assign t => t.names
  | .aug t => t.names
  | .for_ t a b => t.names ++ (a.assigned ++ b.assigned)
  | .while_ a b => a.assigned ++ b.assigned
  | .ite a b => a.assigned ++ b.assigned
  | .try_ a b => a.assigned ++ b.assigned
  | .with_ t a => t.names ++ a.assigned
  | .mat cs a => cs.map (·.1) ++ a.assigned

/-- The variables bound by patterns. -/
def S.captured : S → List String
  | .other => []
  | .assign _ => []
  | .aug _ => []
  | .seq a b => a.captured ++ b.captured
  | .for_ _ a b => a.captured ++ b.captured
  | .while_ a b => a.captured ++ b.captured
  | .ite a b => a.captured ++ b.captured
  | .try_ a b => a.captured ++ b.captured
  | .with_ _ a => a.captured
  | .mat cs a => cs.map (·.1) ++ a.captured

/-- The variables bound by `for` and `with`. -/
def S.bound : S → List String
  | .other => []
  | .assign _ => []
  | .aug _ => []
  | .seq a b => a.bound ++ b.bound
  | .for_ t a b => t.names ++ (a.bound ++ b.bound)
  | .while_ a b => a.bound ++ b.bound
  | .ite a b => a.bound ++ b.bound
  | .try_ a b => a.bound ++ b.bound
  | .with_ t a => t.names ++ a.bound
  | .mat _ a => a.bound

end Nagini.LoopTypes
