/-!
Model of `get_body_indices` (lib/util.py), which splits the body of a method or loop into its
contract and its code.
-/
namespace Nagini.Body

/-- Names, as far as they matter: the contract functions, names starting with `IOExists`, all
others.  Models the string comparisons of lib/util.py:176-214. -/
inductive Nm
  | invariant | requires | decreases | ensures | exsures | ioExists
  | user (n : Nat)
deriving DecidableEq

/-- The function part of a call: `f`, `e.f`, `g(...)`, `e[...]`, anything else.  Models the
cases of lib/util.py:122-130. -/
inductive Fn
  | name (n : Nm)
  | attr (n : Nm)
  | call (f : Fn)
  | subscript
  | weird
deriving DecidableEq

/-- Statements: a string literal, a global declaration, a call, anything else.  Models the
statements distinguished in lib/util.py:117-121, lib/util.py:196-202, lib/util.py:233. -/
inductive Stmt
  | str
  | glob
  | call (f : Fn)
  | other (n : Nat)
deriving DecidableEq

/-- `get_func_name` of the function part; the outer `none` is an exception.  Models
lib/util.py:122-131. -/
def fnName : Fn → Option (Option Nm)
  | .name n => some (some n)
  | .attr n => some (some n)
  | .call f => fnName f
  | .subscript => some none
  | .weird => none

/-- `get_func_name`.  Models lib/util.py:112-131. -/
def funcName : Stmt → Option (Option Nm)
  | .call f => fnName f
  | _ => some none

/-- `is_invariant`, `is_pre`, `is_decreases`, `is_post`, `is_exception_decl`.  Models
lib/util.py:176-193. -/
def isNamed (n : Nm) (s : Stmt) : Option Bool := (funcName s).map (· == some n)

/-- `is_docstring`.  Models lib/util.py:196-202. -/
def isDoc (s : Stmt) : Option Bool := some (s == .str)

/-- `isinstance(stmt, ast.Global)`.  Models lib/util.py:233. -/
def isGlobal (s : Stmt) : Option Bool := some (s == .glob)

/-- `is_io_existential`.  Models lib/util.py:205-214. -/
def isIO (s : Stmt) : Option Bool := some (s == .call (.call (.name .ioExists)))

/-- Number of leading statements with the property; running out of statements ends the
search.  Models one `while` loop of lib/util.py:231-246, with the `IndexError`
(lib/util.py:247). -/
def lead (p : Stmt → Option Bool) : List Stmt → Option Nat
  | [] => some 0
  | s :: ss =>
    match p s with
    | none => none
    | some false => some 0
    | some true => (lead p ss).map (· + 1)

/-- The `while` loops in order, from the given list of predicates; the list is what follows
`start_index`.  Models lib/util.py:231-246. -/
def phases : List (Stmt → Option Bool) → List Stmt → Option Nat
  | [], _ => some 0
  | p :: ps, ss =>
    match lead p ss with
    | none => none
    | some k => (phases ps (ss.drop k)).map (k + ·)

/-- The predicates of the loops in order.  Models lib/util.py:231-246. -/
def order : List (Stmt → Option Bool) :=
  [isDoc, isGlobal, isIO, isNamed .invariant, isNamed .requires, isNamed .decreases,
   isNamed .ensures, isNamed .exsures]

/-- `get_body_indices`; `none` is an `UnsupportedException`.  Models lib/util.py:217-254. -/
def bodyIndices (ss : List Stmt) : Option (Nat × Nat) :=
  match phases order ss with
  | none => none
  | some start =>
    if start ≠ ss.length then
      (lead (isNamed .ensures) ss.reverse).map fun k => (start, ss.length - k)
    else some (start, ss.length)

end Nagini.Body
