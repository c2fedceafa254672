import Verif.Model.Unpack

/-!
Specification: Python's assignment statement (Language Reference 7.2): the
right-hand side is evaluated once, the resulting object is then assigned to each
target from left to right.
-/
namespace Nagini.Unpack

/-- Split the elements for a target list with `pre` targets before and `post`
targets after the star: first elements, middle segment, last elements. -/
def pySplit (pre post : Nat) (vs : List Val) : Option (List Val × List Val × List Val) :=
  if pre + post ≤ vs.length then
    some (vs.take pre, (vs.drop pre).take (vs.length - pre - post), vs.drop (vs.length - post))
  else none

mutual
/-- Assign an object to a target; `none` is an exception (`ValueError`/`TypeError`). -/
def pyAssign : Target → Val → Store → Option Store
  | .name x, v, σ => some (σ.set x v)
  | .star _, _, _ => none
  | .tuple ts, .seq vs, σ =>
    if ts.any isStar then pyAssignStar ts vs σ
    else if vs.length = ts.length then pyAssignList ts vs σ else none
  | .tuple _, .atom _, _ => none

/-- Targets without star against equally many values. -/
def pyAssignList : List Target → List Val → Store → Option Store
  | [], [], σ => some σ
  | t :: ts, v :: vs, σ => (pyAssign t v σ).bind (pyAssignList ts vs)
  | _, _, _ => none

/-- Targets with exactly one star (as the first starred element met). -/
def pyAssignStar : List Target → List Val → Store → Option Store
  | [], _, _ => none
  | .star x :: ts, vs, σ =>
    match pySplit 0 ts.length vs with
    | some (_, mid, post) => pyAssignList ts post (σ.set x (.seq mid))
    | none => none
  | t :: ts, v :: vs, σ => (pyAssign t v σ).bind (pyAssignStar ts vs)
  | _ :: _, [], _ => none
end

/-- `targets = rhs` where `rhs` has value `v`. -/
def pyAssignAll : List Target → Val → Store → Option Store
  | [], _, σ => some σ
  | t :: ts, v, σ => (pyAssign t v σ).bind (pyAssignAll ts v)

/-- The whole statement. -/
def pyAssignStmt (targets : List Target) (rhs : RExpr) (σ : Store) : Option Store :=
  (rhs.eval σ).bind fun v => pyAssignAll targets v σ

mutual
/-- Variables written by a target. -/
def Target.vars : Target → List Nat
  | .name x => [x]
  | .star x => [x]
  | .tuple ts => Target.varsList ts
def Target.varsList : List Target → List Nat
  | [] => []
  | t :: ts => t.vars ++ Target.varsList ts
end

mutual
/-- No star anywhere in the target. -/
def Target.starFree : Target → Bool
  | .name _ => true
  | .star _ => false
  | .tuple ts => Target.starFreeList ts
def Target.starFreeList : List Target → Bool
  | [] => true
  | t :: ts => t.starFree && Target.starFreeList ts
end

end Nagini.Unpack
