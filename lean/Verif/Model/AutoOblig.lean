import Verif.Spec.AutoOblig

/-!
Whether the checks of obligations are encoded: the automatic detection, and how its result is stored in the
configuration of a process that verifies several programs.  The values of the configuration are booleans (the setter
stores text that is parsed by `getboolean`).  The type the analyzer computes for a receiver is part of the program.
-/
namespace Nagini.AutoOblig

/-- nagini_contracts/obligations.py:18-23 `OBLIGATION_CONTRACT_FUNCS`. -/
def obligationFuncs : List Name := [.mustTerminate, .mustRelease, .level, .waitLevel]

/-- nagini_contracts/io_contracts.py:16-22 `BUILTIN_IO_OPERATIONS`. -/
def builtinIO : List Name := [.noOpIO, .splitIO, .joinIO, .gapIO, .setVarIO]

/-- nagini_contracts/io_contracts.py:31-37 `IO_CONTRACT_FUNCS`. -/
def ioFuncs : List Name := [.ctoken, .token, .open_, .eval, .evalIO]

/-- lib/program_nodes.py:723-726 `issubtype` of classes; a class is identified with the list of its superclasses. -/
def subtype (c d : Cls) : Bool := d.isSuffixOf c

/-- lib/program_nodes.py:718-732 `get_common_superclass`; the case of two roots (an assertion) gives no class. -/
def common : Cls → Cls → Cls
  | [], _ => []
  | c :: cs, d =>
    if subtype (c :: cs) d then d
    else if subtype d (c :: cs) then c :: cs
    else common cs d

/-- lib/program_nodes.py:777, 808, 940-957: `python_class`; for unions the common superclass of all options. -/
def Ty.python : Ty → Cls
  | .cls c => c
  | .generic c => c
  | .optional c => c
  | .union [] => []
  | .union (c :: cs) => (c :: cs).foldl common c

/-- analyzer.py:1285, 1292: `recv_type.python_class.name`. -/
def topName (c : Cls) : Option Name := c.head?.map (·.1)

/-- analyzer.py:1291-1295: the loop over the superclasses. -/
def hasLock : Cls → Bool
  | [] => false
  | c :: cs => if c.1 = .lock then true else hasLock cs

/-- analyzer.py:1272-1297 `_requires_obligations`. -/
def requires : Func → Bool
  | .name n => n ∈ obligationFuncs || n ∈ builtinIO || n ∈ ioFuncs
  | .attr _ found a =>
    if (a = .start ∨ a = .join) ∧ (found = none ∨ found.bind (topName ·.python) = some .thread) then true
    else if a = .release ∨ a = .acquire then
      match found with
      | none => true
      | some t => hasLock t.python
    else false
  | .other => false

/-- analyzer.py:1257-1260: the arguments of these calls are not visited. -/
def skipped : Func → Bool
  | .name n => n = .thread || n = .getOld
  | _ => false

mutual
/-- analyzer.py:1205-1270 `visit_Call`: whether a visited call sets `enable_obligations`. -/
def visit : Call → Bool
  | .mk f args => requires f || (!skipped f && visitAll args)
/-- analyzer.py:1270: `visit_default` visits the arguments. -/
def visitAll : List Call → Bool
  | [] => false
  | c :: cs => visit c || visitAll cs
end

/-- main.py:163: `needs_obligations`. -/
def needs (p : Prog) : Bool := visitAll p.calls || p.ghost

/-- main.py:114-166 `translate`, as far as it changes the configuration. -/
def translate (i : Ini) (p : Prog) : Ini :=
  if !needs p ∧ i.all = none then { i with all := some true } else i

/-- lib/config.py:47-111, translators/statement.py:96: whether a kind of checks is turned off.  Terminating sections
look at `disable_all` only. -/
def disabled (i : Ini) : Check → Bool
  | .sections => i.all.getD false
  | k => (i.over k).getD (i.all.getD false)

/-- main.py:137-140, 145-160: a program with type errors or that the analyzer rejects does not reach the change. -/
def step (i : Ini) : Req → Ini
  | .rejected => i
  | .prog p => translate i p

/-- main.py:466-495: the server; the configuration is kept from one request to the next. -/
def server (i : Ini) (hist : List Req) (p : Prog) : Ini := translate (hist.foldl step i) p

/-- service.py:159, 212-224 `_reset_obligations`. -/
def reset (initial : Option Bool) (i : Ini) : Ini :=
  match initial with
  | none => { i with all := none }
  | some b => { i with all := some b }

/-- service.py:345-352, 423-430: the service resets the configuration before each translation. -/
def service (i : Ini) (hist : List Req) (p : Prog) : Ini :=
  translate (reset i.all (hist.foldl (fun j r => step (reset i.all j) r) i)) p

/-- main.py:168-181: the program is accepted if all checks that are encoded succeed. -/
def accepted (i : Ini) (p : Prog) : Prop := ∀ k, disabled i k = false → p.holds k = true

/-- nagini_contracts/lock.py:49, 80: two of the calls that analysing the module of `Lock` visits. -/
def lockModule : List Call := [.mk (.name .mustTerminate) [], .mk (.name .mustRelease) []]

end Nagini.AutoOblig
