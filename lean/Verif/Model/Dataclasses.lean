set_option linter.unusedVariables false

/-!
Model of data classes: the fields the analyzer collects for a class, the `__init__` method it
generates from them, the binding of constructor arguments to the parameters of that method, and the
call of `__post_init__`.

Names are natural numbers; default values and arguments are elements of an arbitrary type `E`.
Not modelled: types and annotations of fields (assumed to agree wherever a name occurs twice), the
permissions in the generated postconditions, starred arguments (see `Args`), and calls
`super().__init__(...)`.
-/
namespace Nagini.Dataclasses

/-- Names of fields and parameters.  Models the keys of `PythonClass.fields`,
lib/program_nodes.py:548. -/
abbrev Name := Nat

variable {E : Type}

/-- The value given in a declaration: `= e` with a literal or attribute, or
`= field(default_factory=list)`.  Models analyzer.py:1442-1465. -/
inductive Dflt (E : Type)
  | const (e : E)
  | factory
  deriving DecidableEq

/-- What the visitor meets in the body of a class, in order: `n: T [= d]`, `n: ClassVar[T] = e`,
`n = e`, a property, and an access to attribute `n` of an instance of the class (inside of a method,
or in code that the analyzer visits before the class).
Models the cases of analyzer.py:1396-1466, 834-869 and 1566-1599. -/
inductive Member (E : Type)
  | ann (n : Name) (d : Option (Dflt E))
  | classVar (n : Name) (e : E)
  | plain (n : Name) (e : E)
  | prop (n : Name)
  | access (n : Name)
  deriving DecidableEq

/-- A class: decorated with `dataclass`, with `frozen=True`, the body, and whether it contains
methods `__init__` and `__post_init__`.  Models `PythonClass`, lib/program_nodes.py:395-420. -/
structure Cls (E : Type) where
  /-- `dataclass` -/
  dataclass : Bool
  /-- `frozen` -/
  frozen : Bool
  /-- the class body -/
  body : List (Member E)
  /-- the class body defines `__init__` -/
  hasInit : Bool
  /-- the class body defines `__post_init__` -/
  hasPost : Bool
  deriving DecidableEq

/-- The default expression of a generated parameter: an expression of the program, or the `None`
that stands for a default factory.  Models analyzer.py:1457-1465. -/
inductive Src (E : Type)
  | expr (e : E)
  | sentinel
  deriving DecidableEq

/-- An entry of `fields` with the attributes `result` and `default_factory`.
Models analyzer.py:1443-1465. -/
structure Fld (E : Type) where
  /-- the key -/
  name : Name
  /-- `result` -/
  result : Option (Src E)
  /-- `default_factory` is set -/
  factory : Bool
  deriving DecidableEq

/-- `add_field`: an existing entry stays as it is.  Models lib/program_nodes.py:533-549 for names
that are not static fields. -/
def addField (fs : List (Fld E)) (n : Name) : List (Fld E) :=
  if n ∈ fs.map (·.name) then fs else fs ++ [⟨n, none, false⟩]

/-- `container[name] = func` for a property: an existing key keeps its position.
Models analyzer.py:836-837 and 866-869. -/
def putProperty (fs : List (Fld E)) (n : Name) : List (Fld E) :=
  if n ∈ fs.map (·.name) then fs.map fun f => if f.name = n then ⟨n, none, false⟩ else f
  else fs ++ [⟨n, none, false⟩]

/-- Stores the value of a declaration in the entry of the field.  Models analyzer.py:1442-1465. -/
def setResult (fs : List (Fld E)) (n : Name) : Option (Dflt E) → List (Fld E)
  | none => fs
  | some (.const e) => fs.map fun f => if f.name = n then { f with result := some (.expr e) } else f
  | some .factory =>
    fs.map fun f => if f.name = n then { f with result := some .sentinel, factory := true } else f

/-- A declaration in the body of a data class: a property for frozen classes, else a field.  All of
`n: T`, `n: ClassVar[T]` and `n = e` are treated in this way.  Models analyzer.py:1396-1466. -/
def declare (frozen : Bool) (fs : List (Fld E)) (n : Name) (d : Option (Dflt E)) : List (Fld E) :=
  setResult (if frozen then putProperty fs n else addField fs n) n d

/-- Visiting one member of the body.  Models analyzer.py:686-687 with 1396-1466, 819-869 and
1566-1599. -/
def visitMember (frozen : Bool) (fs : List (Fld E)) : Member E → List (Fld E)
  | .ann n d => declare frozen fs n d
  | .classVar n e => declare frozen fs n (some (.const e))
  | .plain n e => declare frozen fs n (some (.const e))
  | .prop n => putProperty fs n
  | .access n => addField fs n

/-- `current_class.fields` after the body was visited.  Models analyzer.py:686-689. -/
def fields (c : Cls E) : List (Fld E) := c.body.foldl (visitMember c.frozen) []

/-- The default of each parameter of the generated `__init__`: the list `defaults` has one element
per field with a value and belongs to the *last* parameters.
Models analyzer.py:711-715 and 1076-1080. -/
def paramDefaults (fs : List (Fld E)) : List (Option (Src E)) :=
  List.replicate (fs.length - (fs.filterMap (·.result)).length) none ++
    (fs.filterMap (·.result)).map some

/-- The value of a parameter: an argument, a default expression, or a list created by the default
factory.  Models the elements of `args` in translators/call.py:936-973. -/
inductive Val (E : Type)
  | arg (e : E)
  | dflt (s : Src E)
  | fresh
  deriving DecidableEq

/-- The loop over the keywords; unknown keywords are dropped because the generated method has no
`**kwargs`.  Models translators/call.py:948-958. -/
def bindKw (keys : List Name) (args : List (Option (Val E))) : List (Name × E) → List (Option (Val E))
  | [] => args
  | (n, e) :: ks =>
    bindKw keys (if n ∈ keys then args.set (keys.idxOf n) (some (.arg e)) else args) ks

/-- The loop that fills in default values: a default factory (stored by name) is preferred, then
the default expression (found by position); without either an assertion fails.
Models translators/call.py:960-973 and analyzer.py:726-730. -/
def fillIn : List (Fld E) → List (Option (Src E)) → List (Option (Val E)) →
    Option (List (Name × Val E))
  | f :: fs, d :: ds, a :: as =>
    match a, f.factory, d with
    | some v, _, _ => (fillIn fs ds as).map ((f.name, v) :: ·)
    | none, true, _ => (fillIn fs ds as).map ((f.name, .fresh) :: ·)
    | none, false, some s => (fillIn fs ds as).map ((f.name, .dflt s) :: ·)
    | none, false, none => none
  | _, _, _ => some []

/-- What a call of the generated `__init__` of class `c` makes the verifier assume: one equality
`self.n is v` per field; `none` if the translator fails.  Surplus positional arguments are dropped
because the method has no `*args`.
Models analyzer.py:693-734 and translators/call.py:930-987. -/
def initCall (c : Cls E) (ps : List E) (ks : List (Name × E)) : Option (List (Name × Val E)) :=
  let fs := fields c
  let args := (ps.take fs.length).map (fun e => some (Val.arg e))
  let args := args ++ List.replicate (fs.length - args.length) none
  fillIn fs (paramDefaults fs) (bindKw (fs.map (·.name)) args ks)

/-- An `__init__` method is generated for the class.  Models analyzer.py:688-689. -/
def generates (c : Cls E) : Bool := c.dataclass && !c.hasInit

/-- The class, as an index into the chain of superclasses, whose `__post_init__` a constructor call
runs after `__init__`.  `chain` starts with the constructed class.
Models translators/call.py:342-347 (`get_method` finds the nearest definition). -/
def postCall : List (Cls E) → Option Nat
  | [] => none
  | c :: cs => if c.dataclass && generates c then (c :: cs).findIdx? (·.hasPost) else none

end Nagini.Dataclasses
