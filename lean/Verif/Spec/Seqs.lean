/-!
Python's sequence operations, specified without reference to nagini.
-/
namespace Nagini.Seqs

variable {α : Type}

/-- The first position of a slice (`slice.indices`, step 1). -/
def pyStart (start : Option Int) (len : Nat) : Int :=
  match start with
  | none => 0
  | some i => if i < 0 then max (i + len) 0 else min i len

/-- The position a slice stops before. -/
def pyStop (stop : Option Int) (len : Nat) : Int :=
  match stop with
  | none => len
  | some i => if i < 0 then max (i + len) 0 else min i len

/-- `s[start:stop]`: the elements at the selected positions, in order. -/
def pySlice (s : List α) (start stop : Option Int) : List α :=
  ((List.range s.length).filter fun (p : Nat) => decide (pyStart start s.length ≤ (p : Int)) && decide ((p : Int) < pyStop stop s.length)).filterMap
    fun p => s[p]?

/-- `s[i]`; `none` is IndexError. -/
def pyIndex (s : List α) (i : Int) : Option α :=
  if i < -s.length then none
  else if i < 0 then s[(s.length + i).toNat]? else s[i.toNat]?

/-- `l` is `list(range(start, stop, step))` for a positive step. -/
def IsPyRange (start stop step : Int) (l : List Int) : Prop :=
  (∀ i (h : i < l.length), l[i] = start + i * step ∧ l[i] < stop) ∧ stop ≤ start + l.length * step

/-- `s.insert(i, x)`. -/
def pyInsert (s : List α) (i : Int) (x : α) : List α :=
  let p := pyStart (some i) s.length
  s.take p.toNat ++ x :: s.drop p.toNat

/-- `s * k`. -/
def pyMul (s : List α) (k : Int) : List α := (List.replicate k.toNat s).flatten

/-- Position of the first element equal to `x`; `none` is ValueError. -/
def pyFind (eq : α → α → Bool) (x : α) : List α → Option Nat
  | [] => none
  | y :: ys => if eq y x then some 0 else (pyFind eq x ys).map (· + 1)

/-- `s.remove(x)`; `none` is ValueError. -/
def pyRemove (eq : α → α → Bool) (x : α) (s : List α) : Option (List α) :=
  (pyFind eq x s).map fun i => s.take i ++ s.drop (i + 1)

/-- `x in s`. -/
def pyContains (eq : α → α → Bool) (x : α) (s : List α) : Bool := s.any fun y => eq y x

/-- Numbers as Python objects: ints, bools, and others identified by a number. -/
inductive Obj
  | int (i : Int)
  | bool (b : Bool)
  | other (id : Nat)
  deriving DecidableEq

/-- The integer value of a number. -/
def Obj.num : Obj → Option Int
  | .int i => some i
  | .bool b => some (if b then 1 else 0)
  | .other _ => none

/-- Python's `==` on these objects: numbers by value, others by identity. -/
def Obj.eq (x y : Obj) : Bool :=
  match x.num, y.num with
  | some a, some b => a == b
  | none, none => x == y
  | _, _ => false

end Nagini.Seqs
