/-!
Specification for C146: what names and qualified names refer to in a Python module with imports.

Modules are objects with attributes.  A program is a list of modules in the order in which they are executed (C38, C39).
-/
namespace Nagini.ImportNames

/-- `a.b.x` is `[a, b, x]`; names are numbered (C22). -/
abbrev Path := List Int

/-- The value of a global name: a module with its attributes, or anything else. -/
inductive Obj where
  | val
  | mod (attrs : List (Int × Obj))

/-- Global variables or attributes; the first entry of a name counts. -/
abbrev Env := List (Int × Obj)

/-- The value of a name. -/
def get : Env → Int → Option Obj
  | [], _ => none
  | (y, o) :: env, x => if y = x then some o else get env x

/-- The value of a qualified name. -/
def resolve : Env → Path → Option Obj
  | _, [] => none
  | env, [x] => get env x
  | env, x :: y :: p =>
    match get env x with
    | some (.mod as) => resolve as (y :: p)
    | _ => none

/-- `import a.b` binds `a` to the package, which gets the attribute `b`; `import a.b as c` binds `c`. -/
def bind : Env → Path → Obj → Env
  | env, [], _ => env
  | env, [x], o => (x, o) :: env
  | env, x :: y :: p, o =>
    match get env x with
    | some (.mod as) => (x, .mod (bind as (y :: p) o)) :: env
    | _ => (x, .mod (bind [] (y :: p) o)) :: env

/-- Statements of a module.

* `define x`: a function, a class or an assignment;
* `imp path m`: `import path` or `import … as path` for module `m`;
* `from m x y`: `from m import x as y`;
* `all m`: `from m import *`;
* `use x p`: the (qualified) name `x.p` is used. -/
inductive Stmt where
  | define (x : Int)
  | imp (path : Path) (m : Nat)
  | from (m : Nat) (x y : Int)
  | all (m : Nat)
  | use (x : Int) (p : Path)

/-- Execution of a module, where `A m` are the attributes of module `m`; `none` is an error. -/
def exec (A : Nat → Env) : Env → List Stmt → Option Env
  | env, [] => some env
  | env, .define x :: ss => exec A ((x, .val) :: env) ss
  | env, .imp p m :: ss => exec A (bind env p (.mod (A m))) ss
  | env, .from m x y :: ss =>
    match get (A m) x with
    | some o => exec A ((y, o) :: env) ss
    | none => none
  | env, .all m :: ss => exec A (A m ++ env) ss
  | env, .use x p :: ss =>
    match resolve env (x :: p) with
    | some .val => exec A env ss
    | _ => none

/-- A name that is not bound to a module, so that binding it to a value hides nothing. -/
def NoModule (env : Env) (x : Int) : Prop := ∀ as, get env x ≠ some (.mod as)

/-- Binding `path` to a module replaces nothing: its last part is new, the others are packages or new. -/
def FreshPath : Env → Path → Prop
  | _, [] => False
  | env, [x] => get env x = none
  | env, x :: y :: p =>
    match get env x with
    | none => True
    | some (.mod as) => FreshPath as (y :: p)
    | some .val => False

/-- Modules and other values do not replace each other (mypy reports it if they do).  After `from m import x`, `x` is not a
module here; if it is one, the import is not accepted. -/
def Tidy (A : Nat → Env) : Env → List Stmt → Prop
  | _, [] => True
  | env, .define x :: ss => NoModule env x ∧ Tidy A ((x, .val) :: env) ss
  | env, .imp p m :: ss => FreshPath env p ∧ Tidy A (bind env p (.mod (A m))) ss
  | env, .from _ _ y :: ss =>
      NoModule env y ∧ Tidy A ((y, .val) :: env) ss
  | env, .all m :: ss =>
      (∀ x, get (A m) x ≠ none → get env x ≠ none →
        get (A m) x = some .val ∧ get env x = some .val) ∧ Tidy A (A m ++ env) ss
  | env, .use _ _ :: ss => Tidy A env ss

/-- Setting the attributes (or names) of module `m`. -/
def update {α : Type} (A : Nat → α) (m : Nat) (a : α) : Nat → α := fun k => if k = m then a else A k

/-- A program: its modules in the order in which they are executed. -/
abbrev Program := List (Nat × List Stmt)

/-- Execution of a program raises no error.  Uses of built-in names are no uses. -/
def Runs : (Nat → Env) → Program → Prop
  | _, [] => True
  | A, (m, ss) :: ms => ∃ env, exec A [] ss = some env ∧ Runs (update A m env) ms

/-- All modules are tidy. -/
def TidyAll : (Nat → Env) → Program → Prop
  | _, [] => True
  | A, (m, ss) :: ms =>
      Tidy A [] ss ∧ ∀ env, exec A [] ss = some env → TidyAll (update A m env) ms

/-- `from m import x` is not used for an attribute of `m` that is a module. -/
def NoFromModule : (Nat → Env) → Program → Prop
  | _, [] => True
  | A, (m, ss) :: ms => (∀ k x y, Stmt.from k x y ∈ ss → NoModule (A k) x) ∧
      ∀ env, exec A [] ss = some env → NoFromModule (update A m env) ms

/-! ### Interpretations of the domain of names -/

/-- An interpretation of the functions of the domain `_Name`. -/
structure Dom (N : Type) where
  combine : N → N → N
  single : Int → N
  prefixOf : N → N
  nameOf : N → N
  value : N → Int
  nameType : N → Bool
  isSingle : N → Bool
  isCombined : N → Bool

end Nagini.ImportNames
