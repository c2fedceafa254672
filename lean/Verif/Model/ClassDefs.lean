import Verif.Spec.ClassDefs

/-!
Model of `find_or_create_class`, and of its use for class definitions and for the types that mypy infers (analyzer.py).

Simplified: cyclic imports do not occur (C38); the module of a type is found (analyzer.py:1700-1704); uses of built-in classes, base classes and
classes in expressions, which are found by name (Scopes), are left out; what is in the classes is left out.
-/
namespace Nagini.ClassDefs

/-- The classes that have been created, and those that have been defined: `module.classes` and `cls.defined`.  A new class is
always stored with its own name in its own module.  Models analyzer.py:523-530 and analyzer.py:630-631. -/
structure State where
  has : Cls → Bool
  defined : Cls → Bool

/-- `module.classes`.  Models lib/program_nodes.py:150-165. -/
def State.classes (st : State) (m : Option Nat) (n : String) : Option Cls :=
  if st.has ⟨m, n⟩ then some ⟨m, n⟩ else none

/-- The first module in which the name occurs.  Models analyzer.py:519-522 and lib/views.py:34-36. -/
def findFirst (n : String) : List (String → Option Cls) → Option Cls
  | [] => none
  | c :: cs =>
    match c n with
    | some e => some e
    | none => findFirst n cs

/-- The dictionary `names` of a `CombinedDict`.  Models lib/views.py:21-26. -/
def viewNames : List (String × Option String) → String → Option String
  | [], _ => none
  | p :: ps, n =>
    match viewNames ps n with
    | some k => some k
    | none => if p.2.getD p.1 = n then some p.1 else none

/-- `classes` of a view.  Models lib/views.py:28-58 and lib/views.py:79-108. -/
def view (ns : List (String × Option String)) (modules : List (String → Option Cls)) (n : String) : Option Cls :=
  match viewNames ns n with
  | none => none
  | some k => findFirst k modules

mutual
/-- `classes` of the modules in `get_included_modules`, without the global module.  Models lib/program_nodes.py:275-288. -/
def Mod.included (st : State) : Mod → List (String → Option Cls)
  | .mk i imports => st.classes (some i) :: imports.included st
/-- The loop over `from_imports`: the copy of a module in a view has the from-imports of that module.
Models lib/program_nodes.py:283-285, lib/views.py:111-131. -/
def Imports.included (st : State) : Imports → List (String → Option Cls)
  | .nil => []
  | .cons none m rest => m.included st ++ rest.included st
  | .cons (some ns) (.mk i imports) rest =>
    view ns (st.classes (some i) :: imports.included st) :: (imports.included st ++ rest.included st)
end

/-- `aliases`.  Models analyzer.py:505-513. -/
def alias (n : String) : String :=
  match n with
  | "List" => "list"
  | "Tuple" => "tuple"
  | "Set" => "set"
  | "Dict" => "dict"
  | "Type" => "type"
  | "ellipsis" => "EllipsisType"
  | _ => n

/-- The result: a type variable or a class.  Models the value of analyzer.py:499-530. -/
inductive Found where
  | tvar (n : String)
  | cls (c : Cls)
  deriving DecidableEq

/-- `find_or_create_class`; `tvs` are the type variables of the current class.  Models analyzer.py:499-530. -/
def findOrCreate (st : State) (tvs : List String) (m : Mod) (n : String) : Found × State :=
  let a := alias n
  if a ∈ tvs then (.tvar a, st)
  else
    match findFirst a (m.included st ++ [st.classes none]) with
    | some c => (.cls c, st)
    | none =>
      let c : Cls := ⟨some m.id, a⟩
      (.cls c, { st with has := fun d => if d = c then true else st.has d })

/-- `define_new`, for classes: fails if the module contains a class with this name that has been defined.
Models analyzer.py:129-141.  Simplified: no functions and variables with that name. -/
def defineNew (st : State) (m : Mod) (n : String) : Bool :=
  match st.classes (some m.id) n with
  | some c => !st.defined c
  | none => true

/-- An event.  `none`: the program is rejected.  Models analyzer.py:625-631 and analyzer.py:1691-1707. -/
def step (st : State) : Event → Option (Found × State)
  | .define m n =>
    if defineNew st m n then
      match findOrCreate st [] m n with
      | (.cls c, st') => some (.cls c, { st' with defined := fun d => if d = c then true else st'.defined d })
      | (.tvar a, st') => some (.tvar a, st')
    else none
  | .use m n tvs => some (findOrCreate st tvs m n)

/-- All modules are analysed: what is found for each event.  Models analyzer.py:625-631 and analyzer.py:1691-1707. -/
def run : State → List Event → Option (List Found)
  | _, [] => some []
  | st, e :: es =>
    match step st e with
    | none => none
    | some (f, st') => (run st' es).map (f :: ·)

/-- Before the first module is analysed, there are the classes of the interface.  Models analyzer.py:285-301. -/
def initial (builtins : List String) : State where
  has := fun c => c.mod = none ∧ c.name ∈ builtins
  defined := fun c => c.mod = none ∧ c.name ∈ builtins

end Nagini.ClassDefs
