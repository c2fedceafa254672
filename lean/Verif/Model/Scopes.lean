/-!
Model of the resolution of names (lib/resolver.py, lib/views.py, lib/program_nodes.py,
translators/common.py, translators/call.py).  A module is given by its own definitions and by its
from-imports; cyclic imports are the topic of module Imports (C38) and do not occur here.
-/
namespace Nagini.Scopes

/-- Things that names stand for: classes, functions, variables and others, each with its own number.
Stands for the objects of class `PythonNode`, lib/program_nodes.py:301-305. -/
abbrev Ent := Nat

/-- The value of `get_contents`: what a container has for a name.
Models lib/program_nodes.py:290-298, lib/program_nodes.py:734-744, lib/program_nodes.py:1264-1271. -/
abbrev Contents := Nat → Option Ent

mutual
/-- A module: its own definitions, and its from-imports in order.
Models lib/program_nodes.py:134-175. -/
inductive Mod
  | mk (own : List (Nat × Ent)) (imports : Imports)
/-- From-imports: `from m import *` has no names, `from m import a, b as c` has the names `(a, none)` and
`(b, some c)`.  Models analyzer.py:195-214 and analyzer.py:263-266. -/
inductive Imports
  | nil
  | cons (names : Option (List (Nat × Option Nat))) (m : Mod) (rest : Imports)
end

/-- `find_entry`.  Models lib/resolver.py:175-185. -/
def findEntry (n : Nat) : List Contents → Option Ent
  | [] => none
  | c :: cs =>
    match c n with
    | some e => some e
    | none => findEntry n cs

/-- The dictionary `names` of a `CombinedDict`: the original name of a name in a view.
Models lib/views.py:20-25. -/
def viewNames (ns : List (Nat × Option Nat)) (n : Nat) : Option Nat :=
  ns.foldl (fun r p => if p.2.getD p.1 = n then some p.1 else r) none

/-- The contents of a view: those of the included modules of the module, under other names.
Models lib/views.py:27-58 and lib/views.py:79-107. -/
def viewContents (ns : List (Nat × Option Nat)) (modules : List Contents) : Contents := fun n =>
  match viewNames ns n with
  | none => none
  | some k => findEntry k modules

mutual
/-- `get_included_modules`, without the global module.  Models lib/program_nodes.py:275-288. -/
def Mod.included : Mod → List Contents
  | .mk own imports => (fun n => own.lookup n) :: imports.included
/-- The loop over `from_imports`.  The copy of a module made by a view has the from-imports of the
module.  Models lib/program_nodes.py:283-285, lib/views.py:113-131. -/
def Imports.included : Imports → List Contents
  | .nil => []
  | .cons none m rest => m.included ++ rest.included
  | .cons (some ns) (.mk own imports) rest =>
    viewContents ns ((fun n => own.lookup n) :: imports.included) :: (imports.included ++ rest.included)
end

/-- The place of a name: the aliases (variables bound by lambda expressions, for example), the current
class with its static methods, static fields and type variables, the current function with its arguments
and local variables, the module, and the global module.  Models translators/common.py:945-957. -/
structure Place where
  aliases : Contents
  cls : Option Contents
  function : Option Contents
  module : Mod
  builtins : Contents

/-- `get_target` for names.  Models translators/common.py:945-957 and lib/resolver.py:73-74. -/
def getTarget (p : Place) (n : Nat) : Option Ent :=
  findEntry n ([p.aliases] ++ p.cls.toList ++ p.function.toList ++ p.module.included ++ [p.builtins])

/-- A name is read or called.  Models translators/expression.py:948-949, translators/call.py:1381. -/
inductive Use
  | read (n : Nat)
  | call (n : Nat)

/-- What a name stands for.  `special` holds the names of contract functions, of built-in functions and
of `Thread`, whose calls are translated without looking for a target.
Models translators/call.py:1392-1424 and translators/expression.py:948-997. -/
def resolve (special : Nat → Bool) (p : Place) : Use → Option Ent
  | .read n => getTarget p n
  | .call n => if special n then p.builtins n else getTarget p n

end Nagini.Scopes
