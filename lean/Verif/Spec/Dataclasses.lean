import Verif.Model.Dataclasses

/-!
What Python's `dataclasses` module does (Python 3 language library documentation, `dataclasses`):
which fields a data class has, when it can be created, how its generated `__init__` binds
arguments, and when that method calls `__post_init__`.  From the model only the syntax of classes
and the type of values is used.
-/
namespace Nagini.Dataclasses.Py

open Nagini.Dataclasses

variable {E : Type}

/-- The class attribute `n` that the body of one class creates (a default factory leaves none). -/
def ownAttr (n : Name) : List (Member E) → Option E
  | [] => none
  | .ann m (some (.const e)) :: ms => if m = n then some e else ownAttr n ms
  | .classVar m e :: ms => if m = n then some e else ownAttr n ms
  | .plain m e :: ms => if m = n then some e else ownAttr n ms
  | _ :: ms => ownAttr n ms

/-- `getattr(cls, n)`: the nearest class attribute.  `chain` starts with the class itself. -/
def classAttr (n : Name) (chain : List (Cls E)) : Option E :=
  chain.findSome? fun c => ownAttr n c.body

/-- The default of a field declared with `d` in the first class of `chain`: a declaration without
value takes the class attribute that the class inherits. -/
def fieldDefault (chain : List (Cls E)) (n : Name) : Option (Dflt E) → Option (Dflt E)
  | some d => some d
  | none => (classAttr n chain).map .const

/-- A field added to the fields found so far: a field that is declared again keeps its position. -/
def insertField (fs : List (Name × Option (Dflt E))) (n : Name) (d : Option (Dflt E)) :
    List (Name × Option (Dflt E)) :=
  if n ∈ fs.map (·.1) then fs.map fun f => if f.1 = n then (n, d) else f else fs ++ [(n, d)]

/-- The fields of a class: those of its superclass, then its own annotated names except class
variables.  A class without the decorator declares no fields. -/
def pyFields : List (Cls E) → List (Name × Option (Dflt E))
  | [] => []
  | c :: cs =>
    if c.dataclass then
      c.body.foldl (fun fs m => match m with
        | .ann n d => insertField fs n (fieldDefault (c :: cs) n d)
        | _ => fs) (pyFields cs)
    else pyFields cs

/-- No field without default follows one with default; else the class cannot be created. -/
def Creatable (fs : List (Name × Option (Dflt E))) : Prop :=
  fs.Pairwise fun f g => f.2.isSome → g.2.isSome

/-- The value of a default. -/
def dfltVal : Dflt E → Val E
  | .const e => .dflt (.expr e)
  | .factory => .fresh

/-- The values of the fields, `i` being the position of the first of them. -/
def valuesFrom (ps : List E) (ks : List (Name × E)) : Nat → List (Name × Option (Dflt E)) →
    Option (List (Name × Val E))
  | _, [] => some []
  | i, (n, d) :: fs => do
    let v ← match ps[i]?, ks.lookup n, d with
      | some e, _, _ => some (Val.arg e)
      | none, some e, _ => some (.arg e)
      | none, none, some d => some (dfltVal d)
      | none, none, none => none
    let vs ← valuesFrom ps ks (i + 1) fs
    return (n, v) :: vs

/-- The call `C(*ps, **ks)` is accepted by the generated `__init__` with fields `fs` and gives the
fields the values `r`. -/
structure Constructs (fs : List (Name × Option (Dflt E))) (ps : List E) (ks : List (Name × E))
    (r : List (Name × Val E)) : Prop where
  /-- not too many positional arguments -/
  few : ps.length ≤ fs.length
  /-- keywords are different -/
  nodup : (ks.map (·.1)).Nodup
  /-- keywords are fields without positional argument -/
  known : ∀ k ∈ ks, k.1 ∈ (fs.drop ps.length).map (·.1)
  /-- every field has a value -/
  values : valuesFrom ps ks 0 fs = some r

/-- Attribute `n` of a new object with field values `r` is known to have the value `v`. -/
def Attr (chain : List (Cls E)) (r : List (Name × Val E)) (n : Name) (v : Val E) : Prop :=
  (n, v) ∈ r ∨ n ∉ r.map (·.1) ∧ ∃ e, classAttr n chain = some e ∧ v = .dflt (.expr e)

/-- The class, as an index into `chain`, whose `__init__` method the constructor runs, and whether
that method was generated. -/
def initOf (chain : List (Cls E)) : Option Nat := chain.findIdx? fun c => c.hasInit || c.dataclass

/-- The class whose `__post_init__` runs: a generated `__init__` calls `self.__post_init__()` if
the class it was generated for has that method, and the call is dispatched on the new object. -/
def postRuns (chain : List (Cls E)) : Option Nat :=
  match initOf chain with
  | none => none
  | some i =>
    match chain.drop i with
    | [] => none
    | c :: cs =>
      if c.hasInit then none
      else if (c :: cs).any (·.hasPost) then chain.findIdx? (·.hasPost) else none

end Nagini.Dataclasses.Py
