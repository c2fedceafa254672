/-
Model of the option `--sif` and of the checks that reject concurrent programs in the sequential
information flow mode: C118.

Sources: `main.py`, `translator.py`, `translators/call.py`.
-/
import Verif.Spec.SifMode

namespace Nagini.SifMode

/-- Python values of `ctx.sif`: a Boolean or a string (translator.py:96, main.py:323-328). -/
inductive Value where
  | bool (b : Bool)
  | str (m : Mode)
  deriving DecidableEq, Repr

/-- The value of `args.sif`: `False` without option, the constant `'true'` if it has no value, the
given text otherwise (main.py:323-328); other texts are errors (main.py:454-455). -/
def commandLine : Option (Option Mode) → Option Value
  | none => some (.bool false)
  | some none => some (.str .true)
  | some (some .other) => none
  | some (some m) => some (.str m)

/-- `ctx.sif is True` (translators/call.py:676, 1509, 1572, 1626).  A string is not `True`. -/
def isTrue (v : Value) : Bool := v = .bool true

/-- Whether a call is rejected with `concurrency.in.sif`: acquiring and releasing locks
(translators/call.py:673-677), creation (translators/call.py:1509-1510), start
(translators/call.py:1572-1573) and join (translators/call.py:1626-1627) of threads. -/
def rejects (v : Value) : Call → Bool
  | .acquire | .release => isTrue v
  | .threadCreate => isTrue v
  | .threadStart => isTrue v
  | .threadJoin => isTrue v
  | .other => false

/-- Translation of the calls of a program in their order: the first one that is rejected raises
`InvalidProgramException` (translators/call.py:676-677).  Simplified: only this reason. -/
def translate (v : Value) : List Call → Except Call Unit
  | [] => .ok ()
  | c :: cs => if rejects v c then .error c else translate v cs

end Nagini.SifMode
