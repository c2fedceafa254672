import Mathlib.Logic.Basic

/-!
Model of the obligation settings of a process that verifies several programs: the configuration
section, the automatic detection in `translate`, the verification service and the old server loop.
-/
namespace Nagini.History

/-- A section of the configuration: the text stored under each key.
Models `SectionConfig._info`, lib/config.py:20-27. -/
abbrev Section := String → Option String

/-- How `configparser` reads a truth value; `none` stands for `ValueError`.  Models the use of
`getboolean`, lib/config.py:41 (the table is `ConfigParser.BOOLEAN_STATES`). -/
def parseBool (v : String) : Option Bool :=
  if v.toLower ∈ ["1", "yes", "true", "on"] then some true
  else if v.toLower ∈ ["0", "no", "false", "off"] then some false
  else none

/-- `getboolean` with a fallback.  An exception is `Except.error`.  Models lib/config.py:41, 51-100. -/
def getboolean (s : Section) (key : String) (fallback : Option Bool) : Except Unit (Option Bool) :=
  match s key with
  | none => .ok fallback
  | some v =>
    match parseBool v with
    | some b => .ok (some b)
    | none => .error ()

/-- Models the property `disable_all`, lib/config.py:38-41. -/
def disableAll (s : Section) : Except Unit (Option Bool) := getboolean s "disable_all" none

/-- Changes one entry.  Models the assignment in lib/config.py:46 and `del` in service.py:222. -/
def put (s : Section) (key : String) (v : Option String) : Section :=
  fun k => if k = key then v else s k

/-- Models the setter of `disable_all`, lib/config.py:43-46. -/
def setDisableAll (s : Section) (b : Bool) : Section :=
  put s "disable_all" (some (if b then "True" else "False"))

/-- Any of the flags.  `disable_all` is evaluated first, as an argument.  Models lib/config.py:48-100. -/
def flag (s : Section) (key : String) : Except Unit (Option Bool) :=
  match disableAll s with
  | .error e => .error e
  | .ok d => getboolean s key d

/-- A program as far as the settings depend on it: it is rejected before the detection, or it is
analysed and needs obligations or not.  Models main.py:136-163. -/
inductive Program
  | rejected
  | analysed (needs : Bool)
deriving DecidableEq

/-- What a translation does: it stops before the detection, fails with `ValueError`, or encodes the
program with some flags.  Models main.py:114-210. -/
inductive Outcome
  | rejected
  | crashed
  | encoded (flags : String → Except Unit (Option Bool))

/-- Models the detection in `translate`, main.py:163-166, followed by the encoding, which reads the
flags. -/
def translate (s : Section) : Program → Section × Outcome
  | .rejected => (s, .rejected)
  | .analysed needs =>
    if needs then (s, .encoded (flag s))
    else
      match disableAll s with
      | .error _ => (s, .crashed)
      | .ok (some _) => (s, .encoded (flag s))
      | .ok none => (setDisableAll s true, .encoded (flag (setDisableAll s true)))

/-- Command line options.  Models main.py:439-442. -/
inductive Arg
  | ignore | force | neither

/-- Models main.py:439-442. -/
def startup (s : Section) : Arg → Section
  | .ignore => setDisableAll s true
  | .force => setDisableAll s false
  | .neither => s

/-- Models `_reset_obligations`, service.py:212-224. -/
def reset (initial : Option Bool) (s : Section) : Section :=
  match initial with
  | none => put s "disable_all" none
  | some b => setDisableAll s b

/-- The settings the constructor stores.  Models service.py:159. -/
def construct (s : Section) : Except Unit (Option Bool) := disableAll s

/-- One request of the service.  Models service.py:345-352, 425-432. -/
def verify (initial : Option Bool) (s : Section) (p : Program) : Section × Outcome :=
  translate (reset initial s) p

/-- The settings after earlier requests of the service.  Models the life time of the service,
service.py:187-210. -/
def afterService (initial : Option Bool) (s : Section) : List Program → Section
  | [] => s
  | p :: ps => afterService initial (verify initial s p).1 ps

/-- The settings after earlier requests of the server loop.  Models main.py:484-494. -/
def afterServer (s : Section) : List Program → Section
  | [] => s
  | p :: ps => afterServer (translate s p).1 ps

end Nagini.History
