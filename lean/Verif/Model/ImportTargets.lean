import Verif.Spec.ImportTargets

/-!
Model of how the module of a `from` import is found when its statements are to be executed.

Simplified: modules for which mypy has no name (their `file` is `None`) and modules in IGNORED_IMPORTS are left
out.
-/
namespace Nagini.ImportTargets

/-- `type_prefix.split('.')[0]`.  Models analyzer.py:246. -/
def firstPart (s : Str) : Str := s.takeWhile (· ≠ '.')

/-- `s[s.index(sub):]`; `none` is a `ValueError`.  Models analyzer.py:246. -/
def suffixFrom (sub : Str) : Str → Option Str
  | [] => if sub = [] then some [] else none
  | c :: s => if sub.isPrefixOf (c :: s) then some (c :: s) else suffixFrom sub s

/-- The attribute `file` of a module: its path from the first occurrence of the first part of its name on.  Models
analyzer.py:242-248. -/
def file (m : Module) : Option Str := suffixFrom (firstPart m.name) m.path

/-- Whether an element of `from_imports` is taken for the module `name`.  Models translators/statement.py:219-220. -/
def isTaken (name : Str) (m : Module) : Bool :=
  decide (m.name = name) || ((file m).map fun f => name.isPrefixOf f).getD false

/-- The module whose statements are executed for `from name import …`.  Models translators/statement.py:216-227. -/
def target (imports : List Module) (name : Str) : Option Module := imports.find? (isTaken name)

/-- The names of the modules whose statements are translated for the `from` imports of a module, in their order.  Models
translators/statement.py:200-227, where `from_imports` has an element for each import (analyzer.py:195-213,
264-266). -/
def executes (imports : List Module) : List (Option Str) :=
  imports.map fun m => (target imports m.name).map Module.name

end Nagini.ImportTargets
