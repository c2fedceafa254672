import Verif.Spec.LoopTypes

/-!
Model of `_get_havocked_vars`: the variables whose types are part of the invariant of a loop.

Simplified: no variables that are renamed because of inlining (`var_aliases`), no global variables (their types are those of
global functions), no names of caught exceptions (which are separate variables), no annotations without value.
-/
namespace Nagini.LoopTypes

/-- `_track_assign`.  Models lib/util.py:97-105. -/
def Target.track : Target → List String
  | .name x _ => [x]
  | .other => []
  | .cons a b => a.track ++ b.track
  | .starred t => t.track

/-- The variables that an `AssignCollector` finds: targets of `for`, `with` and patterns are visited, but are not
assignments.  Simplified: a variable can occur several times (the code uses a dictionary).  Models lib/util.py:83-108. -/
def S.collect : S → List String
  | .other => []
  | .seq a b => a.collect ++ b.collect
  | .assign t => t.track
  | .aug t => t.track
  | .for_ _ a b => a.collect ++ b.collect
  | .while_ a b => a.collect ++ b.collect
  | .ite a b => a.collect ++ b.collect
  | .try_ a b => a.collect ++ b.collect
  | .with_ _ a => a.collect
  | .mat _ a => a.collect

/-- The nodes of names in a target that are visited, which are writes.  Models analyzer.py:1197-1198. -/
def Target.writes : Target → List (String × Nat)
  | .name x i => [(x, i)]
  | .other => []
  | .cons a b => a.writes ++ b.writes
  | .starred t => t.writes

/-- `writes` of all variables, in the order in which they are visited; for patterns, new nodes are created that do not
belong to the syntax tree.  Models analyzer.py:939-947, analyzer.py:1197-1198. -/
def S.writes : S → List (String × Nat)
  | .other => []
  | .seq a b => a.writes ++ b.writes
  | .assign t => t.writes
  | .aug t => t.writes
  | .for_ t a b => t.writes ++ (a.writes ++ b.writes)
  | .while_ a b => a.writes ++ b.writes
  | .ite a b => a.writes ++ b.writes
  | .try_ a b => a.writes ++ b.writes
  | .with_ t a => t.writes ++ a.writes
  | .mat cs a => cs ++ a.writes

/-- The nodes of targets in the syntax tree, for `contains_stmt`.  Models lib/util.py:138-156. -/
def S.nodes : S → List Nat
  | .other => []
  | .seq a b => a.nodes ++ b.nodes
  | .assign t => t.writes.map (·.2)
  | .aug t => t.writes.map (·.2)
  | .for_ t a b => t.writes.map (·.2) ++ (a.nodes ++ b.nodes)
  | .while_ a b => a.nodes ++ b.nodes
  | .ite a b => a.nodes ++ b.nodes
  | .try_ a b => a.nodes ++ b.nodes
  | .with_ t a => t.writes.map (·.2) ++ a.nodes
  | .mat _ a => a.nodes

/-- `_get_havocked_vars`, for a function with the parameters `args` and the writes `ws`.
Models translators/statement.py:702-720. -/
def havocked (args : List String) (ws : List (String × Nat)) (body : S) : List String :=
  body.collect.filter fun x =>
    decide (x ∈ args) ||
      match ws.find? (fun w => w.1 = x) with
      | none => false
      | some w => decide (w.2 ∉ body.nodes)

end Nagini.LoopTypes
