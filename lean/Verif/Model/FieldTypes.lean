/-
Model of how the types of fields are found: the types that mypy reports for accesses are recorded per
class and attribute (lib/typeinfo.py), looked up by the analyzer, which creates the fields
(analyzer.py, lib/program_nodes.py), and used for `Acc` (lib/resolver.py, translators/contract.py).

Simplified: receivers are variables; classes are user-defined, have no superclasses and at most one type
parameter; no global variable has the name of a field; accesses through variables whose type is a type
variable are left out; the assertion on types in `add_field`, which only stops the translation, is left
out.  The types recorded for later accesses (`alt_types`) are never used for fields
(analyzer.py:1806, 1827).
-/
import Verif.Spec.FieldTypes

namespace Nagini.FieldTypes

/-- The alternatives of a type except for `None`.  Models lib/typeinfo.py:74-88. -/
def heads : Ty → List Ty
  | .none => []
  | .union a b => heads a ++ heads b
  | t => [t]

/-- The class of a type.  Models `t.type`, lib/typeinfo.py:89-102. -/
def classOf : Ty → Option Nat
  | .cls c => some c
  | .gen c _ => some c
  | _ => none

/-- The classes of a receiver.  Models lib/typeinfo.py:74-102. -/
def classes (r : Ty) : List Nat := (heads r).filterMap classOf

/-- Accesses in the order in which `TypeVisitor` gets to them; `is` comparisons are not visited.
Models lib/typeinfo.py:64-105, 280-283; mypy_patches/visitor.py:170-171, 187-193, 270-273. -/
def visitExpr : Expr → List Access
  | .lit => []
  | .attr a => [a]
  | .op l r => visitExpr l ++ visitExpr r
  | .isCmp _ _ => []
  | .cond c a b => visitExpr c ++ (visitExpr a ++ visitExpr b)

/-- The same for statements; values are visited before targets, `del` is not visited.
Models lib/typeinfo.py:107-108, 117-126; mypy_patches/visitor.py:48-50, 94-100, 133-139. -/
def visitStmt : Stmt → List Access
  | .skip => []
  | .expr e => visitExpr e
  | .assign t v => visitExpr v ++ visitExpr t
  | .del _ => []
  | .ite c a b => visitExpr c ++ (visitStmt a ++ visitStmt b)
  | .seq a b => visitStmt a ++ visitStmt b

/-- `all_types`, restricted to attributes of classes.  Models lib/typeinfo.py:40-43. -/
abbrev Table := List ((Nat × Nat) × Ty)

/-- `set_type`: the first type stays.  Models lib/typeinfo.py:176-199. -/
def setType (t : Table) (k : Nat × Nat) (ty : Ty) : Table :=
  match t.lookup k with
  | some _ => t
  | none => (k, ty) :: t

/-- `visit_member_expr`: the type of the access is set for each class of the receiver.
Models lib/typeinfo.py:64-105. -/
def record (t : Table) (x : Access) : Table :=
  (classes x.recv).foldl (fun t c => setType t (c, x.attr) x.ty) t

/-- The types recorded for one file.  Models lib/typeinfo.py:411-421. -/
def collect (f : Stmt) : Table := (visitStmt f).foldl record []

/-- `dict.update`: new entries replace old ones.  Models lib/typeinfo.py:422. -/
def update (t new : Table) : Table := new ++ t

/-- The types recorded for the program.  Models lib/typeinfo.py:411-422. -/
def allTypes (files : List Stmt) : Table := files.foldl (fun t f => update t (collect f)) []

/-- The type variable that a receiver binds.  Models analyzer.py:1821-1825. -/
def binding (param : Nat → Option Nat) : Ty → Option (Nat × Ty)
  | .gen c t => (param c).map (·, t)
  | _ => none

/-- `convert_type`: bound type variables are replaced, but not in type arguments.
Models analyzer.py:1610-1633, 1712-1727, 1729-1732. -/
def conv (b : Option (Nat × Ty)) : Ty → Ty
  | .tvar n =>
    match b with
    | some (m, t) => if n = m then t else .tvar n
    | none => .tvar n
  | .union x y => .union (conv b x) (conv b y)
  | t => t

/-- The union of several types; `none` if there is none.  Models analyzer.py:1799-1808. -/
def unionOf : List Ty → Option Ty
  | [] => none
  | [t] => some t
  | t :: ts => (unionOf ts).map (.union t)

/-- `typeof` of an attribute.  `none` stands for an exception.  Models analyzer.py:1795-1830. -/
def typeofAttr (param : Nat → Option Nat) (tbl : Table) (recv : Ty) (a : Nat) : Option Ty :=
  match heads recv with
  | [r] => (classOf r).bind fun c => (tbl.lookup (c, a)).map (conv (binding param r))
  | rs => (rs.mapM fun r => (classOf r).bind fun c => tbl.lookup (c, a)).bind unionOf

/-- Accesses in the order in which the analyzer gets to them.
Models analyzer.py:458-471, 1566-1570. -/
def astExpr : Expr → List Access
  | .lit => []
  | .attr a => [a]
  | .op l r => astExpr l ++ astExpr r
  | .isCmp l r => astExpr l ++ astExpr r
  | .cond c a b => astExpr c ++ (astExpr a ++ astExpr b)

/-- The same for statements: targets come before values.  Models analyzer.py:458-471, 1566-1570. -/
def astStmt : Stmt → List Access
  | .skip => []
  | .expr e => astExpr e
  | .assign t v => astExpr t ++ astExpr v
  | .del t => astExpr t
  | .ite c a b => astExpr c ++ (astStmt a ++ astStmt b)
  | .seq a b => astStmt a ++ astStmt b

/-- `add_field`: an existing field stays as it is.  Models lib/program_nodes.py:533-549, 815-817. -/
def addField (fs : Table) (k : Nat × Nat) (ty : Ty) : Table :=
  match fs.lookup k with
  | some _ => fs
  | none => (k, ty) :: fs

/-- `visit_Attribute`.  Models analyzer.py:1566-1599. -/
def visitAttribute (param : Nat → Option Nat) (tbl fs : Table) (x : Access) : Option Table :=
  (typeofAttr param tbl x.recv x.attr).map fun ty =>
    (classes x.recv).foldl (fun fs c => addField fs (c, x.attr) ty) fs

/-- The fields of the program; the files are analyzed in another order than that in which the types were
recorded.  Models the visit of all files, analyzer.py:458-471, 1566-1599, 794. -/
def fields (param : Nat → Option Nat) (files order : List Stmt) : Option Table :=
  (order.flatMap astStmt).foldlM (visitAttribute param (allTypes files)) []

/-- `substitute`, which also replaces in type arguments.  Models lib/program_nodes.py:381-384, 801-802,
932-934, 987-988. -/
def substitute (b : Option (Nat × Ty)) : Ty → Ty
  | .tvar n =>
    match b with
    | some (m, t) => if n = m then t else .tvar n
    | none => .tvar n
  | .gen c x => .gen c (substitute b x)
  | .union x y => .union (substitute b x) (substitute b y)
  | t => t

/-- The type that `Acc(x.a)` checks and assumes for the field of a receiver of the given type.
Models translators/contract.py:248-260, 287-299; lib/resolver.py:238-246. -/
def accType (param : Nat → Option Nat) (files order : List Stmt) (recv : Ty) (a : Nat) : Option Ty :=
  (fields param files order).bind fun fs =>
    (classOf recv).bind fun c => (fs.lookup (c, a)).map (substitute (binding param recv))

end Nagini.FieldTypes
