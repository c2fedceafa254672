/-!
Class attributes in Python: classes with single inheritance, integer attributes, objects with a dictionary.
Independent of the model.
-/
namespace Nagini.Statics

abbrev Name := Nat
abbrev Fld := Nat

/-- A class: its name, the attributes assigned in its body, and the attribute names used with expressions
whose static type is this class (`self.f`, `x.f`), which is what the tool derives the fields from. -/
inductive Cls
  | base (n : Name) (own : List (Fld × Int)) (used : List Fld)
  | sub (n : Name) (own : List (Fld × Int)) (used : List Fld) (sup : Cls)
  deriving DecidableEq, Repr

namespace Cls

def name : Cls → Name
  | base n _ _ => n
  | sub n _ _ _ => n

def own : Cls → List (Fld × Int)
  | base _ o _ => o
  | sub _ o _ _ => o

def used : Cls → List Fld
  | base _ _ u => u
  | sub _ _ u _ => u

/-- The class and its superclasses, in the order in which Python searches them. -/
def mro : Cls → List Cls
  | base n o u => [base n o u]
  | sub n o u s => sub n o u s :: s.mro

end Cls

/-- `C.f`: the attribute of the first class that has it. -/
def pyClassAttr (c : Cls) (f : Fld) : Option Int := c.mro.findSome? fun d => d.own.lookup f

/-- An object: its class and its own attributes. -/
structure Obj where
  cls : Cls
  dict : Fld → Option Int

/-- `o.f`: an own attribute hides those of the classes. -/
def pyAttr (o : Obj) (f : Fld) : Option Int := (o.dict f).or (pyClassAttr o.cls f)

/-- Programs: the names of classes are different, superclasses are part of the program. -/
structure Program where
  classes : List Cls
  names : ∀ c ∈ classes, ∀ d ∈ classes, c.name = d.name → c = d
  closed : ∀ c ∈ classes, ∀ d ∈ c.mro, d ∈ classes

/-- All classes from `r` up to its superclass `t` have the attribute in their own body. -/
inductive DefinesUpTo (f : Fld) : Cls → Cls → Prop
  | here {t} : (t.own.lookup f).isSome → DefinesUpTo f t t
  | up {n o u s t} : (o.lookup f).isSome → DefinesUpTo f s t → DefinesUpTo f (.sub n o u s) t

end Nagini.Statics
