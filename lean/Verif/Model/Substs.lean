/-
Model of the types of members for receivers of generic types: `get_bound_type_vars`, `substitute`
(lib/program_nodes.py) and their use in lib/resolver.py.

Simplified: `None` as an argument of a generic type, for which `substitute` raises an exception, is left
out; the receiver is an instance of a class (or optional).
-/
import Verif.Spec.Substs

namespace Nagini.Substs

mutual
/-- `contains_type_var`.  Models lib/program_nodes.py:329-330, 378-379, 804-805, 936-937. -/
def containsVar : Ty → Bool
  | .cls _ => false
  | .gen _ as => containsVars as
  | .tuple ts => containsVars ts
  | .vtuple t => containsVar t
  | .var _ _ => true
  | .opt t => containsVar t
  | .union ts => containsVars ts
  | .none => false
/-- `any` over the arguments.  Models lib/program_nodes.py:804-805, 936-937. -/
def containsVars : List Ty → Bool
  | [] => false
  | t :: ts => containsVar t || containsVars ts
end

/-- The dictionary of bound type variables.  Models lib/program_nodes.py:796-799. -/
abbrev Env := List ((Nat × Nat) × Ty)

mutual
/-- `substitute`.  A tuple of any length is a `GenericType` with `exact_length = False`, which the new
`GenericType` does not have.  Models lib/program_nodes.py:332-333, 381-384, 794, 801-802, 932-934,
987-988. -/
def substitute (env : Env) : Ty → Ty
  | .cls c => .cls c
  | .gen c as => .gen c (substituteAll env as)
  | .tuple ts => .tuple (substituteAll env ts)
  | .vtuple t => .tuple [substitute env t]
  | .var c i => (env.lookup (c, i)).getD (.var c i)
  | .opt t => .opt (substitute env t)
  | .union ts => .union (substituteAll env ts)
  | .none => .none
/-- The arguments.  Models lib/program_nodes.py:801-802, 933. -/
def substituteAll (env : Env) : List Ty → List Ty
  | [] => []
  | t :: ts => substitute env t :: substituteAll env ts
end

/-- An argument of the superclass: only variables themselves are replaced.
Models lib/program_nodes.py:826-830. -/
def instArg (as : List Ty) : Ty → Ty
  | .var c i => as[i]?.getD (.var c i)
  | t => t

/-- `GenericType.superclass`.  Models lib/program_nodes.py:819-832. -/
def superOf (tbl : Table) (c : Nat) (as : List Ty) : Option Ty :=
  match tbl.sup c with
  | some (.gen e es) => some (.gen e (es.map (instArg as)))
  | s => s

/-- `zip(self.cls.type_vars.values(), self.type_args)`, from the given index on.
Models lib/program_nodes.py:797. -/
def zipVars (c : Nat) : Nat → Nat → List Ty → Env
  | i, n + 1, t :: ts => ((c, i), t) :: zipVars c (i + 1) n ts
  | _, _, _ => []

/-- `get_bound_type_vars`; `none` stands for an exception.  The first argument bounds the recursion.
An optional type is a `GenericType` whose class is its option; if that is generic itself, it has no
attribute `type_vars` (simplified: an option that is a class has no type variables).
Models lib/program_nodes.py:335-336, 429-432, 796-799, 983-992. -/
def bound (tbl : Table) : Nat → Ty → Option Env
  | 0, _ => none
  | n + 1, .cls c =>
    match tbl.sup c with
    | none => some []
    | some s => bound tbl n s
  | n + 1, .gen c as =>
    (match superOf tbl c as with
      | none => some []
      | some s => bound tbl n s).map (· ++ zipVars c 0 (tbl.nvars c) as)
  | n + 1, .opt (.cls c) =>
    match tbl.sup c with
    | none => some []
    | some s => bound tbl n s
  | _ + 1, .opt (.gen _ _) => none
  | _ + 1, _ => some []

/-- The class of a receiver, as the bound of the recursion.  Models the recursion over superclasses in
lib/program_nodes.py:429-432, 796-799. -/
def depth : Ty → Nat
  | .cls c => c + 1
  | .gen c _ => c + 1
  | .opt (.cls c) => c + 1
  | .opt (.gen c _) => c + 1
  | _ => 1

/-- The type of a field or of the result of a method, whose declared type is `ty`, for a receiver of type
`recv`.  Models lib/resolver.py:226-237, 238-246. -/
def memberType (tbl : Table) (recv ty : Ty) : Option Ty :=
  if containsVar ty then (bound tbl (depth recv) recv).map fun env => substitute env ty
  else some ty

end Nagini.Substs
