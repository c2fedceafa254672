import Verif.Spec.Receivers

/-!
Model of the arguments of calls: which ones are translated for which parameters, whether a receiver is added, and how they
are passed to Viper methods and to inlined code.

Simplified: positional arguments only, and parameters of functions of the program have no default values (C14 is about how
arguments are matched with parameters); no constructors, predicates and receivers whose type is a union (C107, C108) or a
class (`cls.f()`).
-/
namespace Nagini.Receivers

variable {V : Type}

/-- The called method: its kind, the number of its parameters, whether there are `*args`, whether it is built in, and whether
it has the decorator `@Inline`.  Models lib/program_nodes.py:1070-1095. -/
structure Target where
  kind : Kind
  params : Nat
  varArg : Bool
  interface : Bool
  inline : Bool

/-- All parameters, with the one for `*args`.  Models translators/call.py:1334-1338. -/
def Target.total (t : Target) : Nat := t.params + (if t.varArg then 1 else 0)

/-- `_has_implicit_receiver_arg`.  Models translators/call.py:815-849. -/
def implicit : Form V → Kind → Bool
  | .super _, _ => true
  | .object _, .normal => true
  | _, .normal => false
  | _, .cls => true
  | _, .static => false

/-- `unpacked_args[:nargs]` and `unpacked_args[nargs:]`, where `nargs` may be -1.  Models translators/call.py:930-939. -/
def split (n : Nat) (imp : Bool) (args : List V) : List V × List V :=
  if imp then
    match n with
    | 0 => (args.dropLast, args.drop (args.length - 1))
    | m + 1 => (args.take m, args.drop m)
  else (args.take n, args.drop n)

/-- `translate_args`: fails if there are too many arguments for a built-in method, or an argument is missing.  Surplus
arguments are dropped if there are no `*args`.  Models translators/call.py:908-987. -/
def translateArgs (t : Target) (imp : Bool) (args : List V) : Option (List (Arg V)) :=
  if t.interface then
    if args.length ≤ t.params then some (args.map .val ++ List.replicate (t.params - args.length) .null) else none
  else
    let s := split t.params imp args
    if s.1.length < (if imp then t.params - 1 else t.params) then none
    else some (s.1.map .val ++ (if t.varArg then [.tup s.2] else []))

/-- The translation is rejected (by nagini or by Viper), or the parameters get these values.
Models the result of translators/call.py:1262-1366. -/
inductive Outcome (V : Type) where
  | rejected
  | passed (as : List (Arg V))
  deriving DecidableEq

/-- A call of a Viper method or function: surplus arguments are dropped by `zip`; Viper rejects calls with missing arguments.
Models translators/call.py:1333-1342. -/
def viperCall (t : Target) (as : List (Arg V)) : Outcome V :=
  if (as.take t.total).length = t.total then .passed (as.take t.total) else .rejected

/-- The variables that the code of an inlined method reads for its parameters: those created for the arguments, and for all
other parameters the Viper variable with the same name of the method that it is inlined into (`outer`), if there is one.
Models translators/call.py:1054-1055 and lib/program_nodes.py:1206-1227. -/
def fill (outer : Nat → Option (Arg V)) : List (Arg V) → Nat → Nat → Option (List (Arg V))
  | _, _, 0 => some []
  | a :: as, i, k + 1 => (fill outer as (i + 1) k).map (a :: ·)
  | [], i, k + 1 =>
    match outer i with
    | none => none
    | some a => (fill outer [] (i + 1) k).map (a :: ·)

/-- `_inline_call`: variables are created for `method.args`, which does not contain `*args`; `self` is only added for
`super()`.  Models translators/call.py:1115-1132. -/
def inlineCall (outer : Nat → Option (Arg V)) (t : Target) (self : Option V) (as : List (Arg V)) : Outcome V :=
  let vals : List (Arg V) := match self with
    | some s => .val s :: as
    | none => as
  match fill outer (vals.take t.params) 0 t.total with
  | none => .rejected
  | some ps => .passed ps

/-- The end of `translate_normal_call`: `_inline_call` translates the arguments again, to `raw`.
Models translators/call.py:1357-1366. -/
def finish (outer : Nat → Option (Arg V)) (t : Target) (raw as : List (Arg V)) : Outcome V :=
  if t.inline then inlineCall outer t none raw else viperCall t as

/-- `translate_normal_call`.  Models translators/call.py:1262-1366; a class method called with `super()` is rejected by
translators/call.py:169-175. -/
def call (outer : Nat → Option (Arg V)) (typ : V → V) (form : Form V) (t : Target) (args : List V) : Outcome V :=
  match translateArgs t (implicit form t.kind) args with
  | none => .rejected
  | some as =>
    match form with
    | .name => finish outer t as as
    | .module => finish outer t as as
    | .klass c =>
      match t.kind with
      | .static => finish outer t as as
      | .cls => finish outer t as (.val c :: as)
      | .normal => if t.interface then finish outer t as as else inlineCall outer t none as
    | .super s =>
      match t.kind with
      | .static => finish outer t as as
      | .cls => .rejected
      | .normal => if t.interface then finish outer t as as else inlineCall outer t (some s) as
    | .object o =>
      match t.kind with
      | .static => finish outer t as as
      | .cls => finish outer t as (.val (typ o) :: as)
      | .normal => finish outer t as (.val o :: as)

end Nagini.Receivers
