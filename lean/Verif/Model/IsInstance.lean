/-!
Model of the translation of `isinstance` (translators/call.py, translators/type.py,
translators/type_domain_factory.py) for classes without type arguments and for variables that hold
classes.  Objects are represented by the class given by the domain function `typeof`; the domain function
`issubtype` is the reflexive and transitive closure of `extends_` (module TypeDomain, C24 and C25).
-/
namespace Nagini.IsInstance

/-- Built-in classes that have entries in resources/builtins.json:1-1150; the numbers are arbitrary.
Other classes have numbers from 10. -/
def objectC : Nat := 0
/-- See `objectC`; resources/builtins.json:372. -/
def floatC : Nat := 1
/-- See `objectC`; resources/builtins.json:242. -/
def intC : Nat := 2
/-- See `objectC`; resources/builtins.json:474. -/
def boolC : Nat := 3
/-- See `objectC`; resources/builtins.json:504. -/
def noneC : Nat := 4
/-- See `objectC`; resources/builtins.json:1131. -/
def typeC : Nat := 5
/-- See `objectC`; resources/builtins.json:1146. -/
def intEnumC : Nat := 6

/-- The superclasses of the program's classes and of those of the remaining built-in classes, whose
superclasses are Python's.  Models analyzer.py:303-337. -/
abbrev Classes := Nat → Option Nat

/-- The superclass of a class for the translator: the attribute `extends` for built-in classes.
Models resources/builtins.json:34, 369, 471, 501, 511, 1132, 1147 and analyzer.py:303-337. -/
def superclass (user : Classes) (c : Nat) : Option Nat :=
  if c = objectC then none
  else if c = floatC then some objectC
  else if c = intC then some floatC
  else if c = boolC then some intC
  else if c = noneC then some objectC
  else if c = typeC then some objectC
  else if c = intEnumC then some intC
  else user c

/-- `enum`: the direct superclass is `IntEnum`.  Models analyzer.py:665-673. -/
def enum (user : Classes) (c : Nat) : Bool := superclass user c == some intEnumC

/-- Subclasses of enumerations are rejected.  Models analyzer.py:670-671. -/
def accepted (user : Classes) : Prop := ∀ c p, superclass user c = some p → enum user p = false

/-- The second argument of `isinstance`: a class, or a variable (the parameter of a class method).
Models translators/call.py:91-92. -/
inductive Target
  | cls (c : Nat)
  | var (x : Nat)

/-- The expressions generated: `true`, `issubtype(typeof(o), C)`, `typeof(o) == C` and
`typeof(o) == x`.  Models translators/type.py:100, translators/type_domain_factory.py:781-812. -/
inductive Check
  | trueLit
  | subtype (c : Nat)
  | exact (c : Nat)
  | dynamic (x : Nat)

/-- `type_check`.  Models translators/type.py:87-103 and translators/type_domain_factory.py:814-836. -/
def typeCheck (user : Classes) (c : Nat) : Check :=
  if c = typeC then .trueLit
  else if enum user c then .exact c
  else .subtype c

/-- `_translate_isinstance`.  Models translators/call.py:88-100. -/
def translateIsinstance (user : Classes) : Target → Check
  | .cls c => typeCheck user c
  | .var x => .dynamic x

/-- `extends_` and the axioms about `issubtype`.
Models translators/type_domain_factory.py:383-463 and 660-731. -/
inductive Issubtype (user : Classes) : Nat → Nat → Prop
  | refl (c : Nat) : Issubtype user c c
  | step {c p d : Nat} : superclass user c = some p → Issubtype user p d → Issubtype user c d

/-- The value of a check for an object of class `d`, where variables hold classes.
Models the meaning of the Viper expressions created in translators/type_domain_factory.py:781-812. -/
def Check.holds (user : Classes) (env : Nat → Nat) (d : Nat) : Check → Prop
  | .trueLit => True
  | .subtype c => Issubtype user d c
  | .exact c => d = c
  | .dynamic x => d = env x

end Nagini.IsInstance
