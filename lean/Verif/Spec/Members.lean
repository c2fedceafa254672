/-!
Membership, sets and dictionaries as in Python: elements and keys are compared by identity or `==`.
`eq` is Python's `==` on the values that occur; it is assumed that hashes agree with it.
-/
namespace Nagini.Members

variable {V : Type} [DecidableEq V]

/-- Python's comparison of elements: identity or equality. -/
def same (eq : V → V → Bool) (e x : V) : Bool := e == x || eq e x

/-- `x in l` for a list or tuple. -/
def pyIn (eq : V → V → Bool) (l : List V) (x : V) : Bool := l.any fun e => same eq e x

/-- Operations on a set. -/
inductive SetOp (V : Type)
  | add (x : V)
  | remove (x : V)
  | clear

/-- A Python set holds one of several equal elements; `remove` raises `KeyError` (`none`) if there is
no equal element. -/
def pySetStep (eq : V → V → Bool) (s : List V) : SetOp V → Option (List V)
  | .add x => some (if pyIn eq s x then s else s ++ [x])
  | .remove x => if pyIn eq s x then some (s.filter fun e => !same eq e x) else none
  | .clear => some []

/-- A sequence of operations. -/
def pySetRun (eq : V → V → Bool) : List V → List (SetOp V) → Option (List V)
  | s, [] => some s
  | s, o :: os => (pySetStep eq s o).bind fun s' => pySetRun eq s' os

/-- `d[k]` or the lookup behind it. -/
def pyLookup (eq : V → V → Bool) : List (V × V) → V → Option V
  | [], _ => none
  | (k', v) :: d, k => if same eq k' k then some v else pyLookup eq d k

/-- `d[k] = v`: an equal key stays and gets the new value. -/
def pyStore (eq : V → V → Bool) : List (V × V) → V → V → List (V × V)
  | [], k, v => [(k, v)]
  | (k', v') :: d, k, v => if same eq k' k then (k', v) :: d else (k', v') :: pyStore eq d k v

/-- A sequence of assignments. -/
def pyStores (eq : V → V → Bool) (d : List (V × V)) (us : List (V × V)) : List (V × V) :=
  us.foldl (fun d u => pyStore eq d u.1 u.2) d

/-- Only identical values are equal. -/
def Canonical (eq : V → V → Bool) : Prop := ∀ x y, eq x y = true → x = y

/-- Some values: integers, booleans, `None`, and instances of classes without and with an `__eq__`
that compares a field. -/
inductive Val
  | int (i : Int)
  | bool (b : Bool)
  | none
  | obj (id : Nat)
  | cell (id : Nat) (field : Int)
  deriving DecidableEq, Repr

/-- The number behind a value. -/
def Val.num? : Val → Option Int
  | .int i => some i
  | .bool b => some (if b then 1 else 0)
  | _ => Option.none

/-- Python's `==` on them. -/
def Val.pyEq (a b : Val) : Bool :=
  match a.num?, b.num? with
  | some i, some j => i == j
  | Option.none, Option.none =>
    match a, b with
    | .cell _ f, .cell _ g => f == g
    | _, _ => a == b
  | _, _ => false

/-- `x in range(start, stop)`. -/
def pyInRange (start stop : Int) (x : Val) : Bool :=
  match x.num? with
  | some i => decide (start ≤ i ∧ i < stop)
  | Option.none => false

end Nagini.Members
