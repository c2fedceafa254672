/-!
Specification for C145: `from m import …` executes the module whose name is `m`.
-/
namespace Nagini.ImportTargets

/-- Strings. -/
abbrev Str := List Char

/-- An imported module: its name (`pkg.mod`) and the absolute path of its file. -/
structure Module where
  name : Str
  path : Str
  deriving DecidableEq

/-- The modules named in the `from` imports of a module that Python executes.  Python finds modules by name. -/
def pythonExecutes (imports : List Module) : List Str := imports.map Module.name

end Nagini.ImportTargets
