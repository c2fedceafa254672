/-
Specification for C118: what a user asks for with the option `--sif`, and which programs have to be
rejected.
-/

namespace Nagini.SifMode

/-- What is written after `--sif` (`other` is any other text). -/
inductive Mode where
  | true | poss | prob | other
  deriving DecidableEq, Repr

/-- The calls of a program, by what they call. -/
inductive Call where
  | acquire | release | threadCreate | threadStart | threadJoin | other
  deriving DecidableEq, Repr

/-- Calls that start, join or synchronise threads. -/
def Call.Concurrent : Call → Prop
  | .other => False
  | _ => True

instance : DecidablePred Call.Concurrent := fun c => by cases c <;> simp only [Call.Concurrent] <;>
  infer_instance

/-- The option is given without a value or with value `true`: noninterference of sequential
programs. -/
def Sequential : Option (Option Mode) → Prop
  | some none => True
  | some (some .true) => True
  | _ => False

end Nagini.SifMode
