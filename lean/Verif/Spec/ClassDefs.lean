/-!
Specification for C152: what identifies a class in Python.
-/
namespace Nagini.ClassDefs

/-- A class is identified by the module that contains its definition (`none` for built-in classes) and its name there. -/
structure Cls where
  mod : Option Nat
  name : String
  deriving DecidableEq

mutual
/-- A module with its from-imports. -/
inductive Mod
  | mk (id : Nat) (imports : Imports)
/-- From-imports: `from m import *` has no names, `from m import a, b as c` has the names `(a, none)` and
`(b, some c)`. -/
inductive Imports
  | nil
  | cons (names : Option (List (String × Option String))) (m : Mod) (rest : Imports)
end

/-- The number of a module. -/
def Mod.id : Mod → Nat
  | .mk i _ => i

/-- What happens to classes while modules are analysed: a class is defined in a module; or a type is used that mypy says is
the class `n` of the module `m`, in a class with the type variables `tvs`. -/
inductive Event
  | define (m : Mod) (n : String)
  | use (m : Mod) (n : String) (tvs : List String)

/-- The module of the class. -/
def Event.mod : Event → Mod
  | .define m _ => m
  | .use m _ _ => m

/-- The name of the class. -/
def Event.name : Event → String
  | .define _ n => n
  | .use _ n _ => n

/-- The type variables of the class that contains the use. -/
def Event.tvars : Event → List String
  | .define _ _ => []
  | .use _ _ tvs => tvs

/-- The class in Python. -/
def Event.python (e : Event) : Cls := ⟨some e.mod.id, e.name⟩

/-- Names of `typing` for built-in classes, and the name that mypy uses for the class of `...`. -/
def typingNames : List String := ["Dict", "List", "Set", "Tuple", "Type", "ellipsis"]

/-- The classes that are defined. -/
def definitions : List Event → List Cls
  | [] => []
  | .define m n :: es => ⟨some m.id, n⟩ :: definitions es
  | .use _ _ _ :: es => definitions es

mutual
/-- No name is changed by the from-imports of a module, and of those that it imports. -/
def Mod.Plain : Mod → Prop
  | .mk _ imports => imports.Plain
/-- The same for a list of imports. -/
def Imports.Plain : Imports → Prop
  | .nil => True
  | .cons none m rest => m.Plain ∧ rest.Plain
  | .cons (some ns) m rest => (∀ p ∈ ns, p.2 = none ∨ p.2 = some p.1) ∧ m.Plain ∧ rest.Plain
end

end Nagini.ClassDefs
