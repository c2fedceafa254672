import Mathlib.Data.Fin.Basic
/-!
Model of import handling: the modules visible in a module (lib/program_nodes.py, lib/views.py)
and the encoded execution of global statements (translators/statement.py).

A program has `N` files, numbered by `Fin N`.
-/
namespace Nagini.Imports
variable {N : Nat}

/-- An element of `from_imports`: the module itself for `from m import *`, a view of it for
`from m import x, y`.  `v` is the identity of the view object.  Models
analyzer.py:261-266. -/
inductive Entry (N : Nat)
  | star (m : Fin N)
  | view (v : Nat) (m : Fin N)
deriving DecidableEq

/-- The module an element of `from_imports` stands for.  Models the constructor argument,
lib/views.py:113-115. -/
def Entry.mod : Entry N → Fin N
  | .star m => m
  | .view _ m => m

/-- Module objects: the modules and the copies made by views (compared by identity).  Models
lib/views.py:114 (`copy.copy`), lib/program_nodes.py:134-175. -/
inductive Obj (N : Nat)
  | orig (m : Fin N)
  | copy (v : Nat) (m : Fin N)
deriving DecidableEq

/-- The file of a module object.  Models lib/views.py:113-115. -/
def Obj.mod : Obj N → Fin N
  | .orig m => m
  | .copy _ m => m

/-- The `from_imports` of each module; a copy shares the list of its original
(lib/views.py:114 is a shallow copy).  Models lib/program_nodes.py:162. -/
abbrev Graph (N : Nat) := Fin N → List (Entry N)

/-- `p.get_included_modules(exclude)` for one element `p` of `from_imports`: a view checks
`exclude`, a module does not.  Models lib/program_nodes.py:275-288 and
lib/views.py:127-131. -/
def enter (rec : List (Obj N) → Obj N → Option (List (Obj N))) (ex : List (Obj N)) :
    Entry N → Option (List (Obj N))
  | .star m => rec ex (.orig m)
  | .view v m => if .copy v m ∈ ex then some [] else rec ex (.copy v m)

/-- The loop over `from_imports`.  Models lib/program_nodes.py:283-285. -/
def enterAll (rec : List (Obj N) → Obj N → Option (List (Obj N))) (ex : List (Obj N)) :
    List (Entry N) → Option (List (Obj N))
  | [] => some []
  | e :: es =>
    match enter rec ex e with
    | none => none
    | some l =>
      match enterAll rec ex es with
      | none => none
      | some r => some (l ++ r)

/-- `get_included_modules`, with at most the given depth of recursive calls; `none` means the
depth is exceeded.  The global module, appended at the end, is left out.  Models
lib/program_nodes.py:275-288. -/
def included (G : Graph N) : Nat → List (Obj N) → Obj N → Option (List (Obj N))
  | 0, _, _ => none
  | n + 1, ex, o =>
    match enterAll (included G n) (o :: ex) (G o.mod) with
    | none => none
    | some l => some (o :: l)

/-! ### Global statements -/

/-- What an import statement does to the names of the importing module: nothing (`import m`,
whose combined names are not modelled), import the given names (with new names), import all
names.  Models translators/statement.py:229-262. -/
inductive Bind
  | none
  | names (l : List (Nat × Nat))
  | all

/-- Global statements: one with an observable effect `k`, one defining a name, one that needs
a name, an import.  Models the statements dispatched by translators/statement.py:180-181. -/
inductive Stmt (N : Nat)
  | act (k : Nat)
  | define (x : Nat)
  | use (x : Nat)
  | imp (m : Fin N) (b : Bind)

/-- Statements of the encoded main method.  `act`/`define`/`assertName`/`union` carry the
module whose names variable they use, `assertDef`/`setDef`/`ifUndef` the module whose
`defined` variable they use.  Models the Viper statements created in
translators/statement.py:140-262. -/
inductive TStmt (N : Nat)
  | act (m : Fin N) (k : Nat)
  | define (m : Fin N) (x : Nat)
  | assertName (m : Fin N) (x : Nat)
  | assertDef (m : Fin N)
  | setDef (m : Fin N)
  | union (m m' : Fin N)
  | ifUndef (m : Fin N) (body : List (TStmt N))

/-- The statements following the execution of the imported module `m`, for an import in
`cur`.  Models translators/statement.py:229-262. -/
def trBind (cur m : Fin N) : Bind → List (TStmt N)
  | .none => []
  | .names l => l.flatMap fun p => [.assertName m p.1, .define cur p.2]
  | .all => [.union cur m]

/-- Translation of a list of global statements of module `cur`; `stack` is
`imported_modules`.  Models translators/statement.py:140-262 (`_execute_module_statements`
is inlined at the import). -/
def trStmts (rec : List (Fin N) → Fin N → Option (List (TStmt N))) (stack : List (Fin N))
    (cur : Fin N) : List (Stmt N) → Option (List (TStmt N))
  | [] => some []
  | .act k :: r => (trStmts rec stack cur r).map (.act cur k :: ·)
  | .define x :: r => (trStmts rec stack cur r).map (.define cur x :: ·)
  | .use x :: r => (trStmts rec stack cur r).map (.assertName cur x :: ·)
  | .imp m b :: r =>
    let st := if cur ∈ stack then stack else cur :: stack
    if m ∈ st then
      (trStmts rec st cur r).map (fun t => .assertDef m :: (trBind cur m b ++ t))
    else
      match rec (m :: st) m with
      | none => none
      | some body =>
        (trStmts rec st cur r).map
          (fun t => .ifUndef m (.setDef m :: body) :: (trBind cur m b ++ t))

/-- Translation of the body of module `m`, with at most the given depth of nested imports
(`none`: exceeded).  Models translators/statement.py:180-184. -/
def trModule (P : Fin N → List (Stmt N)) : Nat → List (Fin N) → Fin N → Option (List (TStmt N))
  | 0, _, _ => none
  | n + 1, stack, m => trStmts (trModule P n) stack m (P m)

/-- State: the instances that are loaded, their names, and the trace of observable effects
(newest last).  Models the `defined` and `names` variables, translators/method.py:885-905. -/
structure St (I : Type) (N : Nat) where
  loaded : I → Bool
  names : I → Nat → Bool
  trace : List (Fin N × Nat)

/-- Result of an execution: a final state, or a failed check with the trace so far.  Models
the outcome of the assertions of translators/statement.py:155, translators/statement.py:258. -/
inductive Out (I : Type) (N : Nat)
  | ok (σ : St I N)
  | fail (t : List (Fin N × Nat))

variable {I : Type} [DecidableEq I]

/-- Records an effect.  Stands for the effect of a statement translated at
translators/statement.py:181. -/
def St.emit (σ : St I N) (f : Fin N) (k : Nat) : St I N := { σ with trace := σ.trace ++ [(f, k)] }
/-- Adds a name.  Models `_set_global_defined`, translators/common.py:322-340. -/
def St.addName (σ : St I N) (i : I) (x : Nat) : St I N :=
  { σ with names := fun j y => if j = i ∧ y = x then true else σ.names j y }
/-- Marks a module as executed.  Models translators/statement.py:156-159. -/
def St.load (σ : St I N) (i : I) : St I N :=
  { σ with loaded := fun j => if j = i then true else σ.loaded j }
/-- Adds all names of `j` to those of `i`.  Models translators/statement.py:243-246. -/
def St.union (σ : St I N) (i j : I) : St I N :=
  { σ with names := fun k y => if k = i then σ.names i y || σ.names j y else σ.names k y }

mutual
/-- Execution of an encoded statement: Viper's semantics of the statements created by
translators/statement.py:140-262. -/
def exec (τ : St (Fin N) N) : TStmt N → Out (Fin N) N
  | .act m k => .ok (τ.emit m k)
  | .define m x => .ok (τ.addName m x)
  | .assertName m x => if τ.names m x then .ok τ else .fail τ.trace
  | .assertDef m => if τ.loaded m then .ok τ else .fail τ.trace
  | .setDef m => .ok (τ.load m)
  | .union m m' => .ok (τ.union m m')
  | .ifUndef m body => if τ.loaded m then .ok τ else execList τ body
/-- Execution of a block, see translators/statement.py:197-199. -/
def execList (τ : St (Fin N) N) : List (TStmt N) → Out (Fin N) N
  | [] => .ok τ
  | s :: ss =>
    match exec τ s with
    | .ok τ' => execList τ' ss
    | .fail t => .fail t
end

/-- The initial state: only the main module is marked as executed, no names.  Models
translators/method.py:931-942. -/
def initT (main : Fin N) : St (Fin N) N := ⟨fun m => m = main, fun _ _ => false, []⟩

/-! ### Which module an import statement means -/

/-- What `translate_stmt_ImportFrom` looks at in an element of `from_imports`.  Models the
attributes `type_prefix`, `file`, lib/program_nodes.py:161-166. -/
structure ModInfo where
  typePrefix : List Char
  file : List Char
deriving DecidableEq

/-- Search for the imported module: the first element of `from_imports` whose type prefix is
the module name or whose file name *starts with* it.  Models
translators/statement.py:216-224. -/
def resolve (imps : List ModInfo) (name : List Char) : Option ModInfo :=
  imps.find? fun i => i.typePrefix == name || name.isPrefixOf i.file

end Nagini.Imports
