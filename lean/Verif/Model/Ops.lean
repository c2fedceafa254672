import Verif.Model.Classes

/-!
Model of the choice of the operator method for a binary operation, once for typing
(lib/resolver.py `_do_get_type`) and once for the translation (translators/expression.py
`translate_operator`).

Operand types are classes (no type variables, unions or instantiated generics), so `try_box` and
`python_class` are identities.  Not modelled: primitive comparison of algebraic data types and the
replacement of `__pow__` by `__pow_unrolled__` for literal exponents.
-/
set_option linter.unusedVariables false
namespace Nagini.Ops

open Classes

/-- A method or function of a class: the class that contains it, the classes each parameter accepts
(several for a union), its result type, and whether it is only declared (builtins).  Models the
attributes `cls`, `args`, `type` and `interface` of `PythonMethod`, lib/program_nodes.py:1043-1089. -/
structure Meth where
  cls : Nat
  params : List (List Nat)
  result : Nat
  interface : Bool
  deriving DecidableEq

/-- The members of all classes for one operator: `__op__` and `__rop__` in the dictionaries
`functions` and `methods`, and whether `__rop__` is in one of the other dictionaries (static methods,
fields, predicates, ...).  Models lib/program_nodes.py:734-744 for these two names. -/
structure Members where
  lfuncs : Nat → Option Meth
  lmethods : Nat → Option Meth
  rfuncs : Nat → Option Meth
  rmethods : Nat → Option Meth
  rother : Nat → Bool

variable (H : Hier) (D : Members)

/-- The check of argument types in `get_compatible_func_or_method`: parameters and arguments are
zipped.  Models lib/program_nodes.py:621-629. -/
def accepts (m : Meth) (args : List Nat) : Bool :=
  (m.params.zip args).all fun pa => pa.1.any fun c => issubtype H pa.2 c

/-- `get_compatible_func_or_method`.  Models lib/program_nodes.py:616-629. -/
def compatible (funcs methods : Nat → Option Meth) (c : Nat) (args : List Nat) : Option Meth :=
  match getFuncOrMethod H funcs methods c with
  | none => none
  | some m => if accepts H m args then some m else none

/-- Whether `overrides` of a reflected operator method is set: the *direct* superclass of its class
contains something of that name.  Models lib/program_nodes.py:1132-1133, 1139-1152. -/
def overrides (m : Meth) : Bool :=
  !m.interface &&
    match H.sup m.cls with
    | none => false
    | some p => (D.rfuncs p).isSome || (D.rmethods p).isSome || D.rother p

/-- The method that is chosen, and whether it is the one of the left or of the right operand.
Models the variable `func` of lib/resolver.py:346-364 and the returns of
translators/expression.py:1312-1334. -/
inductive Choice
  | left (m : Meth)
  | right (m : Meth)
  deriving DecidableEq

/-- The result type of the chosen method.  Models lib/resolver.py:367. -/
def Choice.result : Choice → Nat
  | .left m => m.result
  | .right m => m.result

/-- The reflected method of the right operand, if it is taken without looking at the left operand;
`rf` is `right_func`.  Models lib/resolver.py:354-357 and translators/expression.py:1321-1325. -/
def rightFirst (L R : Nat) (rf : Option Meth) : Option Meth :=
  match rf with
  | none => none
  | some m =>
    if issubtype H R L then
      if overrides H D m || (compatible H D.rfuncs D.rmethods L [R, L]).isNone then some m else none
    else none

/-- The method whose result type is the type of `left op right`; `none` is an
`UnsupportedException`.  Models lib/resolver.py:343-366. -/
def typeChoice (L R : Nat) : Option Choice :=
  if L = R then (getFuncOrMethod H D.lfuncs D.lmethods L).map .left
  else
    let rf := compatible H D.rfuncs D.rmethods R [R, L]
    match rightFirst H D L R rf with
    | some m => some (.right m)
    | none =>
      let func := (compatible H D.lfuncs D.lmethods L [L, R]).map Choice.left
      match rf with
      | some m => some (.right m)
      | none => func

/-- `get_func_or_method_call`: which method is called (a function if the class has one, else a
method; `none` is an `UnsupportedException`).  Models translators/common.py:549-564. -/
def called (funcs methods : Nat → Option Meth) (c : Nat) : Option Meth :=
  if hasFunction H funcs c then lookup H funcs c else lookup H methods c

/-- The method that the translation of `left op right` calls; `none` is an exception.
Models translators/expression.py:1307-1334. -/
def callChoice (L R : Nat) : Option Choice :=
  if L = R then (called H D.lfuncs D.lmethods L).map .left
  else
    let rf := compatible H D.rfuncs D.rmethods R [R, L]
    match rightFirst H D L R rf with
    | some _ => (called H D.rfuncs D.rmethods R).map .right
    | none =>
      match compatible H D.lfuncs D.lmethods L [L, R] with
      | some _ => (called H D.lfuncs D.lmethods L).map .left
      | none =>
        match rf with
        | some _ => (called H D.rfuncs D.rmethods R).map .right
        | none => none

end Nagini.Ops
