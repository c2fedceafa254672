/-!
Augmented assignments `t += e` in Python: the target's receiver and index and its old value are evaluated
before `e`, lists are changed in place, other objects use `__iadd__` if they have it, and the result is
stored where the old value was.
-/
namespace Nagini.Aug

/-- Integers, objects with their class, and lists. -/
inductive Val
  | int (i : Int)
  | obj (cls addr : Nat)
  | list (addr : Nat)
  deriving DecidableEq, Repr

/-- Operators. -/
inductive Op
  | add
  | mul
  | other (k : Nat)
  deriving DecidableEq, Repr

/-- Fields of objects, contents of lists, and the next unused address. -/
structure Heap where
  fields : Nat → Nat → Val
  lists : Nat → List Val
  next : Nat

/-- Local variables. -/
abbrev Env := Nat → Val

/-- What classes define: `__iadd__` and so on, `__add__` and so on; and the integer operators. -/
structure World where
  iop : Nat → Op → Option (Val → Val → Heap → Val × Heap)
  bop : Nat → Op → Option (Val → Val → Heap → Val × Heap)
  int : Op → Int → Int → Int

/-- Expressions without calls: variables and fields. -/
inductive Path
  | var (x : Nat)
  | field (p : Path) (f : Nat)

/-- Targets `x`, `p.f`, `p[q]`. -/
inductive Target
  | name (x : Nat)
  | attr (p : Path) (f : Nat)
  | item (p q : Path)

/-- Places that hold values. -/
inductive Loc
  | name (x : Nat)
  | field (a f : Nat)
  | item (a i : Nat)
  deriving DecidableEq, Repr

/-- The value of a path. -/
def Path.eval (ρ : Env) (h : Heap) : Path → Option Val
  | .var x => some (ρ x)
  | .field p f => match p.eval ρ h with
    | some (.obj _ a) => some (h.fields a f)
    | _ => none

/-- The place of a target (indices are not negative). -/
def Target.loc (ρ : Env) (h : Heap) : Target → Option Loc
  | .name x => some (.name x)
  | .attr p f => match p.eval ρ h with
    | some (.obj _ a) => some (.field a f)
    | _ => none
  | .item p q => match p.eval ρ h, q.eval ρ h with
    | some (.list a), some (.int (.ofNat i)) => some (.item a i)
    | _, _ => none

/-- The value at a place. -/
def Loc.read (ρ : Env) (h : Heap) : Loc → Option Val
  | .name x => some (ρ x)
  | .field a f => some (h.fields a f)
  | .item a i => (h.lists a)[i]?

/-- A heap with other contents of a list. -/
def Heap.setList (h : Heap) (a : Nat) (l : List Val) : Heap :=
  { h with lists := fun b => if b = a then l else h.lists b }

/-- Stores a value; `none` for an index out of bounds. -/
def Loc.write (ρ : Env) (h : Heap) (v : Val) : Loc → Option (Env × Heap)
  | .name x => some (fun y => if y = x then v else ρ y, h)
  | .field a f => some (ρ, { h with fields := fun b g => if b = a ∧ g = f then v else h.fields b g })
  | .item a i => if i < (h.lists a).length then some (ρ, h.setList a ((h.lists a).set i v)) else none

/-- `n` copies of a list. -/
def repeatList (l : List Val) (n : Int) : List Val := (List.replicate n.toNat l).flatten

/-- The operator of an augmented assignment. -/
def pyOp (W : World) (op : Op) (v w : Val) (h : Heap) : Option (Val × Heap) :=
  match v, w, op with
  | .int i, .int j, op => some (.int (W.int op i j), h)
  | .list a, .list b, .add => some (.list a, h.setList a (h.lists a ++ h.lists b))
  | .list a, .int n, .mul => some (.list a, h.setList a (repeatList (h.lists a) n))
  | .obj c a, w, op => match W.iop c op with
    | some f => some (f (.obj c a) w h)
    | none => (W.bop c op).map fun f => f (.obj c a) w h
  | _, _, _ => none

/-- `t op= e` in Python; `e` gives a value and a heap. -/
def pyAug (W : World) (t : Target) (op : Op) (e : Env → Heap → Val × Heap) (ρ : Env) (h : Heap) :
    Option (Env × Heap) :=
  (t.loc ρ h).bind fun l =>
  (l.read ρ h).bind fun v =>
  let (w, h1) := e ρ h
  (pyOp W op v w h1).bind fun r => l.write ρ r.2 r.1

end Nagini.Aug
