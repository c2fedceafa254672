/-!
Specification for C150: what the function name of a call refers to in Python.
-/
namespace Nagini.Calls

/-- What a name refers to: a function or class of the program, or a function that is built in or from
`nagini_contracts`. -/
inductive Ref where
  | user (d : Nat)
  | lib (f : String)
  deriving DecidableEq

/-- The global names of a module: its definitions and what it imports (under which name ever). -/
abbrev Env := String → Option Ref

/-- The built-in functions and classes of Python that nagini handles specially. -/
def pythonBuiltins : List String :=
  ["bool", "bytearray", "enumerate", "float", "int", "isinstance", "len", "list", "range", "set", "str", "super", "type"]

/-- The functions and classes of `nagini_contracts` (and `typing`) that can be called in programs, except for `Forall4` and
`Forall5`. -/
def libFunctions : List String :=
  -- assertions and quantifiers
  ["Assert", "Assume", "Refute", "Implies", "Forall", "Forall2", "Forall3", "Forall6", "Exists", "Let", "IOForall",
   -- values
   "Old", "Result", "ResultT", "RaisedException", "Previous", "isNaN", "cast",
   -- permissions and predicates
   "Acc", "Rd", "Wildcard", "MaySet", "MayCreate", "Fold", "Unfold", "Unfolding", "Reveal",
   "list_pred", "set_pred", "dict_pred", "bytearray_pred",
   -- information flow
   "Low", "LowVal", "LowEvent", "LowExit", "Declassify", "TerminatesSif",
   -- ghost code
   "MarkGhost", "GInt", "GFloat", "GComplex", "GBool", "GStr",
   -- pure collections
   "PSeq", "PByteSeq", "PSet", "PMultiset", "ToSeq", "ToByteSeq", "ToMS",
   -- threads
   "Thread", "MayStart", "ThreadPost", "Joinable", "getMethod", "getArg", "getOld", "arg",
   -- IO and obligations
   "token", "ctoken", "Open", "Eval", "eval_io", "MustTerminate", "MustRelease", "Level", "WaitLevel"]

/-- The functions of `nagini_contracts` that are only allowed at the start of functions and loops. -/
def headFunctions : List String := ["Decreases", "Ensures", "Exsures", "Invariant", "Requires"]

/-- Python looks names up in the module first and then in `builtins`. -/
def pythonRef (env : Env) (f : String) : Option Ref :=
  match env f with
  | some r => some r
  | none => if f ∈ pythonBuiltins then some (.lib f) else none

end Nagini.Calls
