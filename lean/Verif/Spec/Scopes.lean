import Verif.Model.Scopes

/-!
Python's resolution of names: local names, then global names, then built-in names.  Bodies of classes see
the names of the class, functions in classes do not.
-/
namespace Nagini.Scopes

/-- The name that `a` or `a as b` binds. -/
def bound (p : Nat × Option Nat) : Nat :=
  match p.2 with
  | some b => b
  | none => p.1

/-- What `from m import …` binds to the name `n`: the last one counts. -/
def pyNames (ns : List (Nat × Option Nat)) (n : Nat) : Option Nat :=
  (ns.reverse.find? (fun p => decide (bound p = n))).map (·.1)

mutual
/-- The global names of a module that begins with its imports. -/
def Mod.py : Mod → Nat → Option Ent
  | .mk own imports, n =>
    match own.lookup n with
    | some e => some e
    | none => imports.py n
/-- Later imports replace names bound by earlier ones. -/
def Imports.py : Imports → Nat → Option Ent
  | .nil, _ => none
  | .cons none m rest, n =>
    match rest.py n with
    | some e => some e
    | none => m.py n
  | .cons (some ns) m rest, n =>
    match rest.py n with
    | some e => some e
    | none =>
      match pyNames ns n with
      | some k => m.py k
      | none => none
end

/-- Python's resolution of a name. -/
def pyResolve (p : Place) (n : Nat) : Option Ent :=
  match p.aliases n with
  | some e => some e
  | none =>
    let outer := match p.module.py n with
      | some e => some e
      | none => p.builtins n
    match p.function, p.cls with
    | some f, _ => (f n).or outer
    | none, some c => (c n).or outer
    | none, none => outer

/-- The name used. -/
def Use.name : Use → Nat
  | .read n => n
  | .call n => n

mutual
/-- Some module binds the name, by a definition or in an import statement. -/
def Mod.occurs : Mod → Nat → Prop
  | .mk own imports, n => (∃ e, (n, e) ∈ own) ∨ imports.occurs n
/-- See `Mod.occurs`. -/
def Imports.occurs : Imports → Nat → Prop
  | .nil, _ => False
  | .cons none m rest, n => m.occurs n ∨ rest.occurs n
  | .cons (some ns) m rest, n => (∃ p ∈ ns, bound p = n) ∨ m.occurs n ∨ rest.occurs n
end

/-- The imports of a module. -/
def Mod.imports : Mod → Imports
  | .mk _ i => i

mutual
/-- A name that a module does not define itself comes from one of its imports only. -/
def Mod.clear : Mod → Nat → Prop
  | .mk own imports, n => (∃ e, (n, e) ∈ own) ∨ imports.clear n
/-- See `Mod.clear`: only one of the imports has to do with the name, and if names are imported from a
module and the name is not among them, the imports of that module do not have to do with it. -/
def Imports.clear : Imports → Nat → Prop
  | .nil, _ => True
  | .cons none m rest, n => m.clear n ∧ rest.clear n ∧ ¬ (m.occurs n ∧ rest.occurs n)
  | .cons (some ns) m rest, n =>
    match pyNames ns n with
    | some k => m.clear k ∧ (m.py k).isSome ∧ ¬ rest.occurs n
    | none => ¬ m.imports.occurs n ∧ rest.clear n
end

end Nagini.Scopes
