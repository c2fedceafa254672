/-!
What has to be checked so that a program is verified: the bodies of all its members, the bodies of inherited methods
for every class that inherits them, the compatibility of overriding methods with what they override, and the code of
modules.  Which members a selection of names (`--select`) stands for.

Strings are lists of code points.
-/
namespace Nagini.Coverage

/-- Strings. -/
abbrev Str := List Nat

/-- Kinds of members of modules and classes. -/
inductive Kind
  | function | method | classMethod | staticMethod | getter | setter | predicate
  deriving DecidableEq, Repr

/-- A function, method, property accessor or predicate of a module (`cls` is `none`) or of a class; `declOnly` says
that it has a contract only, `inline` that calls of it are inlined. -/
structure Member where
  kind : Kind
  name : Str
  cls : Option Nat
  mod : Nat
  declOnly : Bool
  inline : Bool

/-- A class with its module and superclass. -/
structure ClassDecl where
  name : Str
  mod : Nat
  sup : Option Nat

/-- A program: its modules, the modules that are read when a module is verified (itself and what it imports), and
the further names used in a module (parameters, variables, ...). -/
structure Program where
  mods : List Nat
  classes : List ClassDecl
  members : List Member
  loaded : Nat → List Nat
  others : Nat → List Str
  reserved : List Str

/-- A method that instances have under the name `n`, defined in class `c` itself. -/
def Own (p : Program) (c : Nat) (n : Str) (i : Nat) : Prop :=
  ∃ m, p.members[i]? = some m ∧ m.cls = some c ∧ m.name = n ∧
    (m.kind = .method ∨ m.kind = .classMethod ∨ m.kind = .staticMethod)

/-- Python finds method `i` under the name `n` in class `c`. -/
inductive Finds (p : Program) (n : Str) : Nat → Nat → Prop
  | own {c i} : Own p c n i → Finds p n c i
  | up {c d i cd} : (∀ j, ¬ Own p c n j) → p.classes[c]? = some cd → cd.sup = some d → Finds p n d i → Finds p n c i

/-- `__init__`. -/
def initStr : Str := [95, 95, 105, 110, 105, 116, 95, 95]

/-- `__main__`. -/
def dunderMain : Str := [95, 95, 109, 97, 105, 110, 95, 95]

/-- What has to be checked. -/
inductive Obl
  | body (i : Nat)
  | inherit (c i : Nat)
  | override (i : Nat)
  | code (m : Nat)
  deriving DecidableEq, Repr

/-- What has to be checked for a program. -/
def Need (p : Program) : Obl → Prop
  | .body i => ∃ m, p.members[i]? = some m ∧ m.declOnly = false ∧ m.inline = false
  | .inherit c i => ∃ m cd, p.members[i]? = some m ∧ p.classes[c]? = some cd ∧ m.kind = .method ∧ m.name ≠ initStr ∧
      m.declOnly = false ∧ m.cls ≠ some c ∧ Finds p m.name c i
  | .override i => ∃ m c cd d j, p.members[i]? = some m ∧ m.cls = some c ∧ p.classes[c]? = some cd ∧ cd.sup = some d ∧
      (m.kind = .method ∨ m.kind = .classMethod ∨ m.kind = .staticMethod) ∧ m.name ≠ initStr ∧ m.inline = false ∧
      Finds p m.name d j
  | .code m => m ∈ p.mods

/-- A member is selected by its name, by the name of its class or by both with a dot (46) between them. -/
def MemberSelected (p : Program) (sel : List Str) (i : Nat) : Prop :=
  ∃ m, p.members[i]? = some m ∧ (m.name ∈ sel ∨
    ∃ c cd, m.cls = some c ∧ p.classes[c]? = some cd ∧ (cd.name ∈ sel ∨ cd.name ++ 46 :: m.name ∈ sel))

/-- What a selection asks to check. -/
def Selected (p : Program) (sel : List Str) : Obl → Prop
  | .body i => MemberSelected p sel i
  | .inherit c i => MemberSelected p sel i ∨ ∃ cd, p.classes[c]? = some cd ∧ cd.name ∈ sel
  | .override i => MemberSelected p sel i
  | .code _ => dunderMain ∈ sel

/-- What a check is about is read when module `M` is verified. -/
def Loaded (p : Program) (M : Nat) : Obl → Prop
  | .body i => ∃ m, p.members[i]? = some m ∧ m.mod ∈ p.loaded M
  | .inherit c i => ∃ m cd, p.members[i]? = some m ∧ p.classes[c]? = some cd ∧ m.mod ∈ p.loaded M ∧ cd.mod ∈ p.loaded M
  | .override i => ∃ m, p.members[i]? = some m ∧ m.mod ∈ p.loaded M
  | .code m => m = M

/-- Something that is read with module `M` is called `main`: a class, a member of a module, a parameter, a variable. -/
def UsesMain (p : Program) (M : Nat) : Prop :=
  [109, 97, 105, 110] ∈ p.reserved ∨
  (∃ cd ∈ p.classes, cd.mod ∈ p.loaded M ∧ cd.name = [109, 97, 105, 110]) ∨
  (∃ m ∈ p.members, m.mod ∈ p.loaded M ∧ m.cls = none ∧ m.name = [109, 97, 105, 110]) ∨
  (∃ d ∈ p.loaded M, [109, 97, 105, 110] ∈ p.others d)

/-- Well-formed programs: modules are read with what they import, members belong to modules of the program, class
members are in the module of the class, superclasses come first, a class has one method of a name, static methods are
not inlined (only one decorator is allowed then) and not constructors. -/
structure WF (p : Program) : Prop where
  self : ∀ m ∈ p.mods, m ∈ p.loaded m
  mem : ∀ m ∈ p.members, m.mod ∈ p.mods
  cmod : ∀ m ∈ p.members, ∀ c, m.cls = some c → ∃ cd, p.classes[c]? = some cd ∧ cd.mod = m.mod
  sup : ∀ (c : Nat) (cd : ClassDecl) (d : Nat), p.classes[c]? = some cd → cd.sup = some d → d < c
  once : ∀ c n i j, Own p c n i → Own p c n j → i = j
  static : ∀ m ∈ p.members, m.kind = .staticMethod → m.inline = false ∧ m.name ≠ initStr

end Nagini.Coverage
