/-!
Modules and the global names they use: which executions end with a NameError.

A body is given by the actions in it that look up names: reading a global variable, calling a function, creating an
object, calling a method of an object, calling a static method of a class and implicit calls of methods (operators,
properties, `with`).  An execution of a body performs some of its actions.
-/
namespace Nagini.GlobalNames

/-- Actions; variables and functions are given by their names, classes by their numbers.  For calls of methods, the
class is the static class of the receiver. -/
inductive Act
  | read (n : Nat)
  | call (f : Nat)
  | new (c : Nat)
  | meth (c m : Nat)
  | smeth (c m : Nat)
  | implicit (c m : Nat)
  deriving DecidableEq

/-- A class: its name, superclass, the bodies of its methods and the names of all its methods and fields. -/
structure Cls where
  name : Nat
  sup : Option Nat
  methods : Nat → Option (List Act)
  inner : List Nat

/-- The functions and classes of a module. -/
structure Prog where
  funs : Nat → Option (List Act)
  classes : List Cls

/-- Statements of a module: definitions of functions and classes, assignments and expression statements. -/
inductive Stm
  | def_ (f : Nat)
  | cls (c : Nat)
  | assign (x : Nat) (as : List Act)
  | eval (as : List Act)

/-- The method found under a name in a class. -/
inductive Finds (p : Prog) (m : Nat) : Nat → List Act → Prop
  | own {c cd b} : p.classes[c]? = some cd → cd.methods m = some b → Finds p m c b
  | up {c cd d b} : p.classes[c]? = some cd → cd.methods m = none → cd.sup = some d → Finds p m d b → Finds p m c b

/-- Subclasses. -/
inductive Sub (p : Prog) (c : Nat) : Nat → Prop
  | refl {cd} : p.classes[c]? = some cd → Sub p c c
  | up {d cd e} : p.classes[d]? = some cd → cd.sup = some e → Sub p c e → Sub p c d

/-- `n` is the name of class `c`. -/
def Named (p : Prog) (c n : Nat) : Prop := ∃ cd, p.classes[c]? = some cd ∧ cd.name = n

/-- The name of constructors. -/
def initName : Nat := 0

/-- The action may raise a NameError if the names in `D` are the defined ones.  Receivers are instances of classes
whose definitions have been executed. -/
inductive Bad (p : Prog) (D : List Nat) : Act → Prop
  | read {n} : n ∉ D → Bad p D (.read n)
  | callName {f} : f ∉ D → Bad p D (.call f)
  | callBody {f b a} : p.funs f = some b → a ∈ b → Bad p D a → Bad p D (.call f)
  | newName {c n} : Named p c n → n ∉ D → Bad p D (.new c)
  | newBody {c b a} : Finds p initName c b → a ∈ b → Bad p D a → Bad p D (.new c)
  | meth {c d m n b a} : Sub p c d → Named p d n → n ∈ D → Finds p m d b → a ∈ b → Bad p D a → Bad p D (.meth c m)
  | smethName {c m n} : Named p c n → n ∉ D → Bad p D (.smeth c m)
  | smethBody {c m b a} : Finds p m c b → a ∈ b → Bad p D a → Bad p D (.smeth c m)
  | implicit {c d m n b a} : Sub p c d → Named p d n → n ∈ D → Finds p m d b → a ∈ b → Bad p D a →
      Bad p D (.implicit c m)

/-- The statements of a module run without a NameError; `D` are the names defined before. -/
def Safe (p : Prog) : List Nat → List Stm → Prop
  | _, [] => True
  | D, .def_ f :: r => Safe p (f :: D) r
  | D, .cls c :: r => ∀ cd, p.classes[c]? = some cd →
      (∀ d n, cd.sup = some d → Named p d n → n ∈ D) ∧ Safe p (cd.name :: D) r
  | D, .assign x as :: r => (∀ a ∈ as, ¬ Bad p D a) ∧ Safe p (x :: D) r
  | D, .eval as :: r => (∀ a ∈ as, ¬ Bad p D a) ∧ Safe p D r

/-- The names in a statement of the module itself are defined (mypy reports the other modules: `used-before-def`). -/
def DirectAct (p : Prog) (D : List Nat) : Act → Prop
  | .read n | .call n => n ∈ D
  | .new c | .smeth c _ => ∀ n, Named p c n → n ∈ D
  | _ => True

/-- The modules that mypy does not report. -/
def Direct (p : Prog) : List Nat → List Stm → Prop
  | _, [] => True
  | D, .def_ f :: r => Direct p (f :: D) r
  | D, .cls c :: r => ∀ cd, p.classes[c]? = some cd →
      (∀ d n, cd.sup = some d → Named p d n → n ∈ D) ∧ Direct p (cd.name :: D) r
  | D, .assign x as :: r => (∀ a ∈ as, DirectAct p D a) ∧ Direct p (x :: D) r
  | D, .eval as :: r => (∀ a ∈ as, DirectAct p D a) ∧ Direct p D r

/-- Superclasses come first. -/
def WF (p : Prog) : Prop := ∀ (c : Nat) (cd : Cls) (d : Nat), p.classes[c]? = some cd → cd.sup = some d →
  d < c

/-- The statements define only classes that exist. -/
def Exists (p : Prog) (ss : List Stm) : Prop := ∀ c, Stm.cls c ∈ ss → ∃ cd, p.classes[c]? = some cd

end Nagini.GlobalNames
