import Verif.Spec.Coverage
import Verif.Model.Names

/-!
Model of which generated Viper members are given to Viper: the Silver names (lib/program_nodes.py, C36), which
methods get bodies (analyzer.py), and the names that are collected and passed to the chopper
(translators/program.py).

Simplified: predicates of classes (C78-C80), IO operations, enumerations and data types are left out; override checks
for `__init__` of classes with class methods (C57) are left out; inherited members come from the classes of the
program.  The chopper keeps the members with the given names and what they depend on; nothing depends on checks or on
the main method, and methods that others depend on are kept without their bodies.
-/
set_option linter.unusedVariables false
namespace Nagini.Coverage

/-- `get_fresh_name`, with the loop of lib/program_nodes.py:82-93 run as often as needed (C36). -/
def fresh (used : List Str) (n : Str) : Str :=
  ((Names.getFreshName (used.length + 1) (fun _ => used) (.root 0) n).map Prod.fst).getD n

/-- Things that get Silver names: classes, members, other names in modules, override and inherit checks and the main
method.  Models the callers of `get_fresh_name` in lib/program_nodes.py:201-222, 675-706, 1113-1157,
translators/program.py:250 and 314, translators/method.py:990. -/
inductive Key
  | cls (c : Nat)
  | mem (i : Nat)
  | other (n : Str)
  | ovr (i : Nat)
  | inh (c i : Nat)
  | main
  deriving DecidableEq

/-- Names handed out one after the other.  Models lib/program_nodes.py:82-99. -/
def assign (used : List Str) : List (Key × Str) → List (Key × Str)
  | [] => []
  | (k, n) :: rs => (k, fresh used n) :: assign (fresh used n :: used) rs

/-- `_getter` and `_setter`, the suffixes of property accessors.  Models lib/program_nodes.py:696-697. -/
def suffix : Kind → Str
  | .getter => [95, 103, 101, 116, 116, 101, 114]
  | .setter => [95, 115, 101, 116, 116, 101, 114]
  | _ => []

/-- The name requested for a member: members of classes are prefixed with the name of the class.
Models lib/program_nodes.py:212-217 and 681-700. -/
def baseName (p : Program) (m : Member) : Str :=
  match m.cls.bind fun c => p.classes[c]? with
  | some cd => cd.name ++ 95 :: m.name ++ suffix m.kind
  | none => m.name

/-- The numbers of the members in the modules that are read.  Models translators/program.py:1332-1379. -/
def loadedMembers (p : Program) (M : Nat) : List Nat :=
  (List.range p.members.length).filter fun i =>
    match p.members[i]? with
    | some m => (p.loaded M).contains m.mod
    | none => false

/-- The numbers of the classes in the modules that are read.  Models translators/program.py:1332-1344. -/
def loadedClasses (p : Program) (M : Nat) : List Nat :=
  (List.range p.classes.length).filter fun c =>
    match p.classes[c]? with
    | some cd => (p.loaded M).contains cd.mod
    | none => false

/-- Whether a member is among the selected ones.  Models translators/program.py:558-561, and the same test in
analyzer.py:1991-2001. -/
def isSelected (p : Program) (sel : List Str) (m : Member) : Bool :=
  sel.contains m.name ||
    match m.cls.bind fun c => p.classes[c]? with
    | some cd => sel.contains (cd.name ++ 46 :: m.name) || sel.contains cd.name
    | none => false

/-- `contract_only`: functions, getters and predicates only if declared so; methods also if their module is imported
and nothing is selected, or if something is selected and not they.
Models analyzer.py:858-861, 883-884, 790-796 and 1990-2003. -/
def contractOnly (p : Program) (sel : List Str) (M : Nat) (m : Member) : Bool :=
  match m.kind with
  | .function | .getter | .predicate => m.declOnly
  | _ => (m.mod != M && sel.isEmpty) || m.declOnly || (!sel.isEmpty && !isSelected p sel m)

/-- The method of class `c` itself with a name.  Models lib/program_nodes.py:578-581. -/
def ownMethod (p : Program) (c : Nat) (n : Str) : Option Nat :=
  (List.range p.members.length).find? fun i =>
    match p.members[i]? with
    | some m => decide (m.cls = some c) && decide (m.name = n) &&
        (m.kind == .method || m.kind == .classMethod || m.kind == .staticMethod)
    | none => false

/-- `get_method`, following at most `fuel` superclasses.  Models lib/program_nodes.py:574-585. -/
def getMethod (p : Program) (n : Str) : Nat → Nat → Option Nat
  | 0, _ => none
  | fuel + 1, c =>
    match ownMethod p c n with
    | some i => some i
    | none =>
      match p.classes[c]? with
      | some cd =>
        match cd.sup with
        | some d => getMethod p n fuel d
        | none => none
      | none => none

/-- Whether a method overrides one of a superclass.  Models lib/program_nodes.py:1139-1152 (simplified: the code also
finds fields and functions of the superclass, with which it then rejects the program or fails). -/
def overrides (p : Program) (m : Member) : Bool :=
  match m.cls.bind fun c => p.classes[c]? with
  | some cd =>
    match cd.sup with
    | some d => (getMethod p m.name (d + 1) d).isSome
    | none => false
  | none => false

/-- The members for which override checks are made.  Models translators/program.py:1434-1447 and 1455-1460. -/
def overrideChecks (p : Program) (M : Nat) : List Nat :=
  (loadedMembers p M).filter fun i =>
    match p.members[i]? with
    | some m =>
      match m.kind with
      | .method | .classMethod => !m.inline && decide (m.name ≠ initStr) && overrides p m
      | .staticMethod => overrides p m
      | _ => false
    | none => false

/-- The inherit checks: for every class and every method it inherits, unless the method is `__init__`,
static or a class method, or has no body here.  Models translators/program.py:1461-1473. -/
def inheritChecks (p : Program) (sel : List Str) (M : Nat) : List (Nat × Nat) :=
  (loadedClasses p M).flatMap fun c =>
    ((loadedMembers p M).filter fun i =>
      match p.members[i]? with
      | some m => decide (getMethod p m.name (c + 1) c = some i) && decide (m.cls ≠ some c) && decide (m.name ≠ initStr) &&
          m.kind == .method && !contractOnly p sel M m
      | none => false).map fun i => (c, i)

/-- `main`, the name requested for the main method.  Models translators/method.py:990. -/
def mainStr : Str := [109, 97, 105, 110]

/-- All requests for names before the checks: classes, their members, and the other names.
Models analyzer.py:276-283 with lib/program_nodes.py:201-222. -/
def memberRequests (p : Program) (M : Nat) : List (Key × Str) :=
  (loadedClasses p M).map (fun c => (Key.cls c, (p.classes[c]?.map ClassDecl.name).getD [])) ++
  (loadedMembers p M).map (fun i => (Key.mem i, (p.members[i]?.map (baseName p)).getD [])) ++
  ((p.loaded M).flatMap p.others).map fun n => (Key.other n, n)

/-- The names of the checks: `_override_check` and `_inherit_check` are appended.
Models translators/program.py:250-251 and 314 (the prefix of override checks is the Silver name of the method;
simplified to the requested one). -/
def checkRequests (p : Program) (sel : List Str) (M : Nat) : List (Key × Str) :=
  (overrideChecks p M).map (fun i => (Key.ovr i, (p.members[i]?.map (baseName p)).getD [] ++
    [95, 111, 118, 101, 114, 114, 105, 100, 101, 95, 99, 104, 101, 99, 107])) ++
  (inheritChecks p sel M).map fun q => (Key.inh q.1 q.2,
    (p.classes[q.1]?.map ClassDecl.name).getD [] ++ 95 :: (p.members[q.2]?.map Member.name).getD [] ++
    [95, 105, 110, 104, 101, 114, 105, 116, 95, 99, 104, 101, 99, 107])

/-- The Silver names of everything; the main method is named after the members and checks.
Models analyzer.py:276-283, translators/program.py:1382-1488 and translators/method.py:990. -/
def namesOf (p : Program) (sel : List Str) (M : Nat) : List (Key × Str) :=
  assign p.reserved (memberRequests p M ++ checkRequests p sel M ++ [(Key.main, mainStr)])

/-- The Silver name of one thing, the first entry for its key.  Models the reads of `sil_name` in
translators/program.py:554. -/
def silName (p : Program) (sel : List Str) (M : Nat) (k : Key) : Option Str :=
  ((namesOf p sel M).find? fun e => decide (e.1 = k)).map Prod.snd

/-- The members of the generated program that check something, and what they check.  Methods without a body start
with `inhale false`.  Models translators/program.py:102-116, 1387-1488 and translators/method.py:594-600. -/
def generated (p : Program) (sel : List Str) (M : Nat) : List (Key × Obl) :=
  ((loadedMembers p M).filter fun i =>
    match p.members[i]? with
    | some m => !m.inline && !contractOnly p sel M m
    | none => false).map (fun i => (Key.mem i, Obl.body i)) ++
  (overrideChecks p M).map (fun i => (Key.ovr i, Obl.override i)) ++
  (inheritChecks p sel M).map (fun q => (Key.inh q.1 q.2, Obl.inherit q.1 q.2)) ++
  [(Key.main, Obl.code M)]

/-- `all_names`: the names of all members and checks.
Models translators/program.py:1343, 1370-1378, 106-116, 1446, 1451, 1459 and 1472. -/
def allKeys (p : Program) (sel : List Str) (M : Nat) : List Key :=
  (loadedClasses p M).map Key.cls ++ (loadedMembers p M).map Key.mem ++ (overrideChecks p M).map Key.ovr ++
  (inheritChecks p sel M).map fun q => Key.inh q.1 q.2

/-- `selected_names`: `track_dependencies` is called for functions, methods and predicates, for the checks with the
method they are about, and for the main method, whose name is `__main__`; not for properties.
Models translators/program.py:1393, 1401, 1405, 1422, 1438, 1447, 1454, 1460, 1473 and 1488. -/
def trackedKeys (p : Program) (sel : List Str) (M : Nat) : List Key :=
  let ok := fun i => match p.members[i]? with
    | some m => isSelected p sel m
    | none => false
  ((loadedMembers p M).filter fun i =>
    match p.members[i]? with
    | some m => m.kind != .getter && m.kind != .setter && ok i
    | none => false).map Key.mem ++
  ((overrideChecks p M).filter ok).map Key.ovr ++
  (((inheritChecks p sel M).filter fun q => ok q.2).map fun q => Key.inh q.1 q.2) ++
  (if sel.contains dunderMain then [Key.main] else [])

/-- The names given to the chopper.  Without a selection these are all names and the literal `main`.
Models translators/program.py:1535-1539. -/
def chopNames (p : Program) (sel : List Str) (M : Nat) : List Str :=
  if sel.isEmpty then (allKeys p sel M).filterMap (silName p sel M) ++ [mainStr]
  else (trackedKeys p sel M).filterMap (silName p sel M)

/-- What is checked when module `M` is verified with the selection `sel`: what the members check that the chopper
keeps with their bodies.  Models translators/program.py:1572. -/
def Checked (p : Program) (sel : List Str) (M : Nat) (o : Obl) : Prop :=
  ∃ k n, (k, o) ∈ generated p sel M ∧ silName p sel M k = some n ∧ n ∈ chopNames p sel M

end Nagini.Coverage
