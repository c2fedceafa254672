/-!
Specification for C147-C149: what dotted module names mean in Python.
-/
namespace Nagini.Packages

/-- A dotted name `a.b.c`. -/
abbrev Path := List Nat

/-- `import name` (or `import … as name`) in the module `into`, which imports the module in the file `file`. -/
structure Import where
  into : Nat
  name : Path
  file : Nat

/-- Names are not empty, and no module uses the same name for two modules. -/
def Consistent (is : List Import) : Prop :=
  (∀ i ∈ is, i.name ≠ []) ∧ ∀ i ∈ is, ∀ j ∈ is, i.into = j.into → i.name = j.name → i.file = j.file

/-- The module that `from` with `level` dots and `name` imports in the module `cur`, which is a package
(`__init__.py`) or not; `none` is an `ImportError`.  See `importlib._bootstrap._resolve_name` and
`_calc___package__`. -/
def pythonName (cur : Path) (isPackage : Bool) (level : Nat) (name : Path) : Option Path :=
  let package := if isPackage then cur else cur.dropLast
  if level = 0 then some name
  else if package.length < level then none
  else some (package.take (package.length + 1 - level) ++ name)

/-- The files that Python executes when it imports a module: those of its packages, and its own.  `files` are the files of
modules; directories without `__init__.py` have none. -/
def pythonExecutes (files : Path → Option Nat) : Path → Path → List Nat
  | _, [] => []
  | pre, x :: p => (files (pre ++ [x])).toList ++ pythonExecutes files (pre ++ [x]) p

end Nagini.Packages
