/-!
`sum`, `sorted`, `max` and `min` of lists of integers as in Python.  The elements are `int` or `bool`
objects; booleans count as 0 and 1.
-/
namespace Nagini.Aggregates

/-- The elements of a `List[int]`. -/
inductive Num
  | int (i : Int)
  | bool (b : Bool)
  deriving DecidableEq, Repr

/-- The number an element stands for. -/
def Num.val : Num → Int
  | .int i => i
  | .bool b => if b then 1 else 0

/-- `sum(l)`. -/
def pySum : List Num → Int
  | [] => 0
  | x :: l => x.val + pySum l

/-- `rs` is a result of sorting `r`: the same objects in ascending order. -/
def IsSorted (r rs : List Num) : Prop := rs.Perm r ∧ rs.Pairwise fun a b => a.val ≤ b.val

/-- `v` is the greatest number in `l`. -/
def IsMax (l : List Num) (v : Int) : Prop := (∃ x ∈ l, x.val = v) ∧ ∀ x ∈ l, x.val ≤ v

/-- `v` is the least number in `l`. -/
def IsMin (l : List Num) (v : Int) : Prop := (∃ x ∈ l, x.val = v) ∧ ∀ x ∈ l, v ≤ x.val

end Nagini.Aggregates
