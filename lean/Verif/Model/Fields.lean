/-!
Attributes of objects: which Viper field an access to an attribute is translated to, and the permissions to create
attributes (lib/program_nodes.py:533-560, lib/program_nodes.py:643-653, lib/program_nodes.py:1856-1877,
translators/expression.py:1014-1034, translators/statement.py:417-442, translators/statement.py:1440-1495).

Simplified: single inheritance as in the code; class attributes are left out (C99); the code is not inlined, so that the
current class is the class of the current function; Viper fields and the integers that identify them in `_MaySet` are
given by the class and the name (fresh names: C22; the integers: C36).
-/
set_option linter.unusedVariables false
namespace Nagini.Fields

/-- Names of attributes and classes.  Models `node.attr` (translators/expression.py:1021). -/
abbrev Name := List Char

/-- What is stored in `fields`: a `PythonField`, or a `PythonMethod` for a property.  Models
lib/program_nodes.py:694-703. -/
inductive Kind where
  | field | prop
deriving DecidableEq

/-- Classes: the name and the dictionary `fields`.  Models lib/program_nodes.py:392-412. -/
structure Cls where
  name : Name
  members : List (Name × Kind)

/-- All classes of a program.  Models `module.classes` (lib/program_nodes.py:153). -/
abbrev Table := Nat → Cls

/-- `is_mangled`.  Models lib/program_nodes.py:1865-1866. -/
def isMangled (n : Name) : Bool := ['_', '_'].isPrefixOf n && !(['_', '_'].isSuffixOf n)

/-- `get_field`: the class in which the name is found, with its superclasses, and what is found.  A class is given by the
list of it and its superclasses.  Models lib/program_nodes.py:551-560. -/
def getField (T : Table) : List Nat → Name → Option (List Nat × Kind)
  | [], _ => none
  | c :: l, n => match (T c).members.lookup n with
    | some k => some (c :: l, k)
    | none => getField T l n

/-- `inherited` of the field with the given name of a class.  Models lib/program_nodes.py:1861-1863. -/
def inherited (T : Table) (l : List Nat) (n : Name) : Option (List Nat × Kind) :=
  if isMangled n then none else getField T l.tail n

/-- What an access denotes: a field or a property, with the class it belongs to.  Models the result of `actual_field`,
lib/program_nodes.py:1869-1877. -/
inductive Loc where
  | field (c : Nat) (n : Name)
  | prop (c : Nat) (n : Name)
deriving DecidableEq

/-- The loop of `actual_field`; the number bounds the number of iterations.  Models lib/program_nodes.py:1874-1877. -/
def actual (T : Table) : Nat → List Nat × Kind → Name → Loc
  | _, (l, .prop), n => .prop (l.headD 0) n
  | 0, (l, .field), n => .field (l.headD 0) n
  | k + 1, (l, .field), n => match inherited T l n with
    | none => .field (l.headD 0) n
    | some r => actual T k r n

/-- `get_field` and `actual_field`.  Models translators/expression.py:1021-1029. -/
def resolve (T : Table) (l : List Nat) (n : Name) : Option Loc := (getField T l n).map fun r => actual T l.length r n

/-- `_lookup_field` for a receiver whose type is the class `l`, in code of the class `encl`.  Models
translators/expression.py:1014-1034. -/
def lookupField (T : Table) (encl : Option Nat) (l : List Nat) (n : Name) : Option Loc :=
  match resolve T l n with
  | none => none
  | some (.prop c m) => some (.prop c m)
  | some (.field c m) => if isMangled m && encl != some c then none else some (.field c m)

/-- `all_fields`.  Models lib/program_nodes.py:643-653. -/
def allFields (T : Table) : List Nat → List (Nat × Name)
  | [] => []
  | c :: l => (((T c).members.filter fun e => e.2 == .field && (inherited T (c :: l) e.1).isNone).map fun e => (c, e.1)) ++
      allFields T l

/-- Properties may not override anything in the direct superclass.  Models lib/program_nodes.py:1139-1144 and
translators/program.py:108-109. -/
def checkProps (T : Table) : List Nat → Bool
  | [] => true
  | c :: l => ((T c).members.all fun e => e.2 != .prop || (match l with
      | [] => true
      | d :: _ => ((T d).members.lookup e.1).isNone)) && checkProps T l

/-- The predicate instance that `MayCreate(o, 'n')` and `MaySet(o, 'n')` refer to, for an object `o` of the class `l`.
Models translators/contract.py:313-316, translators/contract.py:342-345 and translators/common.py:288-289. -/
def mayCreateId (T : Table) (l : List Nat) (n : Name) : Option (Nat × Name) :=
  match getField T l n with
  | some (d, .field) => some (d.headD 0, n)
  | _ => none

/-- The field of which `del o.n` takes permission away.  Models translators/statement.py:428-439; such a field only
exists if it is not inherited (translators/program.py:98-101). -/
def deleted (T : Table) (l : List Nat) (n : Name) : Option (Nat × Name) :=
  match getField T l n with
  | some (d, .field) => if (inherited T d n).isNone then some (d.headD 0, n) else none
  | _ => none

end Nagini.Fields
