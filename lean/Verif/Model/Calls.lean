import Verif.Spec.Calls

/-!
Model of how a call `f(…)` is translated, as far as it is decided by the name `f`.

Simplified: calls of the parameter `cls` and of methods are left out; what a name that is not special refers to is C53.
-/
namespace Nagini.Calls

/-- `CONTRACT_WRAPPER_FUNCS`.  Models nagini_contracts/contracts.py:28. -/
def wrappers : List String := ["Requires", "Ensures", "Exsures", "Invariant", "Decreases"]

/-- `CONTRACT_FUNCS`.  Models nagini_contracts/contracts.py:30-38. -/
def contracts : List String :=
  ["Assume", "Assert", "Old", "Result", "ResultT", "Implies", "Forall", "IOForall", "Forall2", "Forall3", "Forall6",
   "Exists", "Low", "LowVal", "LowEvent", "Declassify", "TerminatesSif", "Acc", "Rd", "Wildcard", "Fold", "Unfold",
   "Unfolding", "Previous", "RaisedException", "ToSeq", "ToByteSeq", "ToMS", "MaySet", "MayCreate", "getMethod",
   "getArg", "getOld", "arg", "Joinable", "MayStart", "Let", "LowExit", "Refute", "isNaN", "Reveal", "MarkGhost",
   "PSeq", "PByteSeq", "PSet", "PMultiset", "GInt", "GFloat", "GComplex", "GBool", "GStr"]

/-- `IO_CONTRACT_FUNCS`.  Models nagini_contracts/io_contracts.py:31-37. -/
def ioContracts : List String := ["ctoken", "token", "Open", "Eval", "eval_io"]

/-- `OBLIGATION_CONTRACT_FUNCS`.  Models nagini_contracts/obligations.py:17-22. -/
def obligations : List String := ["MustTerminate", "MustRelease", "Level", "WaitLevel"]

/-- `BUILTINS`.  Models lib/constants.py:17-30. -/
def builtins : List String :=
  ["cast", "int", "float", "isinstance", "bool", "len", "str", "set", "super", "range", "type", "list", "enumerate",
   "bytearray"]

/-- `BUILTIN_PREDICATES`.  Models lib/constants.py:42. -/
def predicates : List String := ["list_pred", "set_pred", "dict_pred", "bytearray_pred", "MayStart", "ThreadPost"]

/-- How a call is treated: it is rejected, as a call of a library function, or as one of a definition of the program.  Models
translators/call.py:1392-1432. -/
inductive Treated where
  | invalid
  | as (r : Ref)
  deriving DecidableEq

/-- `translate_Call` for a function that is a name: the tables are tested before anything is resolved.  Models
translators/call.py:1392-1432, 773-813, 1249-1255.  Simplified: some of the library functions are rejected later
(translators/contract.py:1232-1238). -/
def dispatch (env : Env) (f : String) : Treated :=
  if f ∈ wrappers then .invalid
  else if f ∈ contracts then .as (.lib f)
  else if f ∈ ioContracts then .as (.lib f)
  else if f ∈ obligations then .as (.lib f)
  else if f ∈ builtins then .as (.lib f)
  else if f = "Thread" then .as (.lib f)
  else if f ∈ predicates then .as (.lib f)
  else
    match env f with
    | some (.user d) => .as (.user d)
    | _ => .invalid

end Nagini.Calls
