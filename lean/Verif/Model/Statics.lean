import Verif.Spec.Statics

/-!
Model of static fields: `create_static_field_function` (translators/program.py),
`translate_static_field_access` and its uses (translators/expression.py), and how fields of classes are found
(analyzer.py, lib/program_nodes.py).

Simplified: values are integers (so that the function of a field returns its boxed value); enumerations,
union types and properties are left out.
-/
set_option linter.unusedVariables false
namespace Nagini.Statics

/-- The fields that `add_field` creates in a class: used attributes that are not static fields of the same
class (superclasses are not consulted).
Models lib/program_nodes.py:533-549 with analyzer.py:1566-1600 and 1558-1563. -/
def fields (c : Cls) : List Fld := c.used.filter fun f => (c.own.lookup f).isNone

/-- `get_field`.  Models lib/program_nodes.py:551-560. -/
def getField : Cls → Fld → Bool
  | .base n o u, f => (fields (.base n o u)).contains f
  | .sub n o u s, f => if (fields (.sub n o u s)).contains f then true else getField s f

/-- `get_static_field`: the class the field belongs to and its value.
Models lib/program_nodes.py:562-572. -/
def getStaticField : Cls → Fld → Option (Cls × Int)
  | .base n o u, f => (o.lookup f).map fun v => (.base n o u, v)
  | .sub n o u s, f => match o.lookup f with
    | some v => some (.sub n o u s, v)
    | none => getStaticField s f

/-- `overrides` is looked up in the contents of the direct superclass only, and must be a static field.
Models lib/program_nodes.py:1688-1696 and 734-744. -/
def accepted : Cls → Bool
  | .base _ _ _ => true
  | .sub _ o _ s => accepted s && o.all fun q => !(fields s).contains q.1

/-- The field at the top of the chain of `overrides`.
Models lib/program_nodes.py:1688-1696 and translators/program.py:1352-1354, translators/expression.py:1046-1047. -/
def rootOf : Cls → Fld → Cls
  | .base n o u, _ => .base n o u
  | .sub n o u s, f => if (s.own.lookup f).isSome then rootOf s f else .sub n o u s

/-- The postconditions of the function of a root field: for each class with a field that has this root,
`receiver == field.cls ==> result == value`, where `field.cls` is the class of the definition.
Models translators/program.py:120-170 and 1350-1355. -/
def posts (P : Program) (root : Name) (f : Fld) : List (Name × Int) :=
  P.classes.filterMap fun c => match getStaticField c f with
    | some (d, v) => if (rootOf d f).name = root then some (d.name, v) else none
    | none => none

/-- An interpretation of the functions of translators/program.py:120-170: root field, attribute name, receiver. -/
abbrev Interp := Name → Fld → Name → Int

/-- An interpretation satisfies the postconditions.  Models translators/program.py:144-170. -/
def Posts (P : Program) (h : Interp) : Prop := ∀ r f n v, (n, v) ∈ posts P r f → h r f n = v

/-- A translated attribute (translators/expression.py:1127-1190). -/
inductive Access
  | field
  | func (root : Name)
  deriving DecidableEq, Repr

/-- `C.f`.  Models translators/expression.py:1127-1132 and 1046-1047. -/
def readClass (t : Cls) (f : Fld) : Option Access :=
  (getStaticField t f).map fun q => .func (rootOf q.1 f).name

/-- `x.f` for an object whose static type is `t`; `none` stands for the KeyError (line 1025) and for
`field.nonexistent`.  Models translators/expression.py:1014-1034 and 1171-1177. -/
def readInst (t : Cls) (f : Fld) : Option Access :=
  if getField t f then some .field
  else match getStaticField t f with
    | some _ => if (t.own.lookup f).isSome then some (.func (rootOf t f).name) else none
    | none => none

/-- The statements in front of the translation of `e.f`, where `stmts` are those of `e`: they are left out if
the attribute is a static field.  Models translators/expression.py:1171-1177 and 1185-1190. -/
def attrStmts {S : Type} (stmts : List S) : Access → List S
  | .func _ => []
  | .field => stmts

/-- Objects of accepted programs: own attributes are assigned to through an expression whose static type is a
class with such a field (assignments to static fields through objects are rejected,
translators/statement.py:1434-1438 with analyzer.py:1596-1600). -/
def Legal (P : Program) (o : Obj) : Prop :=
  o.cls ∈ P.classes ∧ ∀ f, o.dict f ≠ none → ∃ c ∈ o.cls.mro, (fields c).contains f = true

/-- The location of a static field that is not final: the function of its root applied to its class.
Models translators/statement.py:378-385 and translators/expression.py:1064-1070. -/
def location (h : Interp) (c : Cls) (f : Fld) : Int := h (rootOf c f).name f c.name

end Nagini.Statics
