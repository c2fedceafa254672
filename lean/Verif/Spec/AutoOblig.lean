import Mathlib.Data.List.Basic

/-!
What obligations are needed for, independent of how the analyzer finds out.

Trusted: a call uses obligations if the translator encodes it with obligation predicates or wait levels, or if it is a
call of a method of `Lock`, whose contract mentions them.
-/
namespace Nagini.AutoOblig

/-- Identifiers that matter here. -/
inductive Name
  | mustTerminate | mustRelease | level | waitLevel
  | token | ctoken | open_ | eval | evalIO
  | noOpIO | splitIO | joinIO | gapIO | setVarIO
  | thread | lock | start | join | acquire | release | getOld
  | other (n : Nat)
  deriving DecidableEq

/-- A class: its name and the methods it defines, then those of its superclasses, up to `object`. -/
abbrev Cls := List (Name × List Name)

/-- Static types of receivers. -/
inductive Ty
  | cls (c : Cls)
  | generic (c : Cls)
  | optional (c : Cls)
  | union (cs : List Cls)
  deriving DecidableEq

/-- The classes whose methods a call on a receiver of this type may run. -/
def Ty.options : Ty → List Cls
  | .cls c => [c]
  | .generic c => [c]
  | .optional c => [c]
  | .union cs => cs

/-- `Resolves a n c`: looking up the method `a` in the class `c` finds the one defined in the class named `n`. -/
inductive Resolves (a n : Name) : Cls → Prop
  | here {ms rest} : a ∈ ms → Resolves a n ((n, ms) :: rest)
  | up {m ms rest} : a ∉ ms → Resolves a n rest → Resolves a n ((m, ms) :: rest)

/-- The called function: a name, or an attribute of an expression with its type (as the translator sees it) and the
type that the analyzer finds (nothing if it fails). -/
inductive Func
  | name (n : Name)
  | attr (real : Ty) (found : Option Ty) (a : Name)
  | other
  deriving DecidableEq

/-- The analyzer finds the real type or fails. -/
def Func.faithful : Func → Prop
  | .attr real found _ => found = none ∨ found = some real
  | _ => True

/-- Contract functions about obligations, wait levels and tokens. -/
inductive Spoken : Name → Prop
  | mustTerminate : Spoken .mustTerminate
  | mustRelease : Spoken .mustRelease
  | level : Spoken .level
  | waitLevel : Spoken .waitLevel
  | token : Spoken .token
  | ctoken : Spoken .ctoken
  | open_ : Spoken .open_
  | eval : Spoken .eval
  | evalIO : Spoken .evalIO
  | noOpIO : Spoken .noOpIO
  | splitIO : Spoken .splitIO
  | joinIO : Spoken .joinIO
  | gapIO : Spoken .gapIO
  | setVarIO : Spoken .setVarIO

/-- The call needs obligations. -/
inductive Uses : Func → Prop
  | spoken {n} : Spoken n → Uses (.name n)
  | thread {ms rest found a} : a = .start ∨ a = .join → Uses (.attr (.cls ((.thread, ms) :: rest)) found a)
  | lock {real found a c} : a = .acquire ∨ a = .release → c ∈ real.options → Resolves a .lock c →
      Uses (.attr real found a)

/-- A call with the calls inside its arguments. -/
inductive Call
  | mk (f : Func) (args : List Call)

/-- `Occurs f c`: the function `f` is called in the call expression `c`. -/
inductive Occurs (f : Func) : Call → Prop
  | here {args} : Occurs f (.mk f args)
  | arg {g args d} : d ∈ args → Occurs f d → Occurs f (.mk g args)

/-- Kinds of checks that can be turned off. -/
inductive Check
  | measureCheck | measures | methodLeak | loopLeak | callLeak | loopContextLeak | termination | mustInvoke | waitLevel
  | sections
  deriving DecidableEq

/-- A program: the calls in all analysed modules, whether there are ghost statements that need a terminating section,
and which kinds of checks succeed. -/
structure Prog where
  calls : List Call
  ghost : Bool
  holds : Check → Bool

/-- What the process is asked to verify: a program, or something that is rejected before the translation. -/
inductive Req
  | rejected
  | prog (p : Prog)

/-- Settings of the user: everything (nothing: decide automatically), and single kinds of checks. -/
structure Ini where
  all : Option Bool
  over : Check → Option Bool

/-- A verdict only depends on the settings of the user and the program. -/
def SameVerdict (accepts : Ini → List Req → Prog → Prop) : Prop :=
  ∀ i hist p, accepts i hist p ↔ accepts i [] p

end Nagini.AutoOblig
