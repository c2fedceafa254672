/-!
Specification for C151: which values the parameters of a called function get in Python.
-/
namespace Nagini.Receivers

/-- Kinds of methods; functions are normal. -/
inductive Kind where
  | normal | static | cls
  deriving DecidableEq

/-- What is called: `f(..)`, `m.f(..)` for a module `m`, `C.f(..)` for a class `C`, `super().f(..)` in a method whose first
parameter is `s`, and `e.f(..)` for an expression with the value `o`, which is no class. -/
inductive Form (V : Type) where
  | name
  | module
  | klass (c : V)
  | super (s : V)
  | object (o : V)

/-- The value of a parameter: an object, nothing (for optional parameters of built-in methods), or the tuple for `*args`. -/
inductive Arg (V : Type) where
  | val (v : V)
  | null
  | tup (vs : List V)
  deriving DecidableEq

variable {V : Type}

/-- The values that Python adds in front of the arguments; `typ` is the class of an object. -/
def bound (typ : V → V) : Form V → Kind → List V
  | .name, _ => []
  | .module, _ => []
  | .klass c, .cls => [c]
  | .klass _, _ => []
  | .super s, .normal => [s]
  | .super s, .cls => [typ s]
  | .super _, .static => []
  | .object o, .normal => [o]
  | .object o, .cls => [typ o]
  | .object _, .static => []

/-- The values of the parameters: `n` parameters, possibly followed by `*args`; built-in methods have optional parameters. -/
def pyBind (n : Nat) (varArg optional : Bool) (as : List V) : Option (List (Arg V)) :=
  if optional then
    if as.length ≤ n then some (as.map .val ++ List.replicate (n - as.length) .null) else none
  else if varArg then
    if n ≤ as.length then some ((as.take n).map .val ++ [.tup (as.drop n)]) else none
  else if as.length = n then some (as.map .val) else none

end Nagini.Receivers
