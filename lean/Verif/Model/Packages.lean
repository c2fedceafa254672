import Verif.Spec.Packages

/-!
Model of how the analyzer adds imported modules to the namespaces of other modules, how relative imports are resolved, and
which modules are executed.
-/
namespace Nagini.Packages

/-- The key of a module: its file, or `mod$n` for the directory `n`.  Models analyzer.py:228-238. -/
inductive Key where
  | file (f : Nat)
  | dir (n : Nat)
  deriving DecidableEq

/-- The namespaces of all modules, latest entry first.  Models lib/program_nodes.py:159 and analyzer.py:262. -/
abbrev Store := List ((Key × Nat) × Key)

/-- `namespaces[x]` of the module `k`.  Models lib/program_nodes.py:159. -/
def Store.get : Store → Key → Nat → Option Key
  | [], _, _ => none
  | ((k', x'), t) :: st, k, x => if k' = k ∧ x' = x then some t else Store.get st k x

/-- `add_module` for an `import`.  Models analyzer.py:226-238, 257-262. -/
def add (st : Store) (into : Key) : Path → Nat → Store
  | [], _ => st
  | [x], f => ((into, x), .file f) :: st
  | x :: y :: p, f => add (((into, x), .dir x) :: st) (.dir x) (y :: p) f

/-- All imports of a program, in the order in which they are collected.  Models analyzer.py:181-194. -/
def run (is : List Import) : Store := is.foldl (fun st i => add st (.file i.into) i.name i.file) []

/-- The module that a dotted name refers to in the module `k`; `none` is an exception.  Models
translators/statement.py:298-300. -/
def lookup (st : Store) : Key → Path → Option Key
  | k, [] => some k
  | k, x :: p =>
    match st.get k x with
    | some t => lookup st t p
    | none => none

/-- `get_relative_import_name`.  Models lib/program_nodes.py:179-187. -/
def relName (cur : Path) (level : Nat) (name : Path) : Path :=
  if level = 0 then name else cur.take (cur.length - level) ++ name

/-- The file of a `from` import: the main file if there is none with the name.  Models analyzer.py:195-207. -/
def importFile (files : Path → Option Nat) (main : Nat) (cur : Path) (level : Nat) (name : Path) : Nat :=
  (files (relName cur level name)).getD main

/-- Whether the statements of the module of a `from` import are executed, where `ignored` is `IGNORED_IMPORTS`.  Models
translators/statement.py:226-227. -/
def executed (ignored : List Path) (_cur : Path) (_level : Nat) (name : Path) : Bool := !ignored.contains name

/-- The files that are executed for `import name`: packages are dummy modules without statements.  Models analyzer.py:228-238 and
translators/statement.py:296-305. -/
def executes (files : Path → Option Nat) (name : Path) : List Nat := (files name).toList

end Nagini.Packages
