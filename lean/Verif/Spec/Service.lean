import Verif.Model.Service

/-!
What a verification request should do, described for a request that runs alone under one
configuration, and what cancellation should do.
-/
namespace Nagini.Service

variable {E P X D : Type}

/-- The translation of request `r` under configuration `c`. -/
def translationOf (W : World E P X D) (c : Conf) (r : Nat) : Translated E P D :=
  W.translate r c.sif c.bv c.float ⟨c.bv, c.sif, c.float⟩

/-- Requests that may overlap with others under configuration `c`. -/
def Overlaps (c : Conf) (arp : Bool) : Prop :=
  arp = false ∧ c.sif = false ∧ c.backend ≠ .other ∧ c.server = true

/-- The command line for configuration `c`. -/
def argsOf (c : Conf) : Args :=
  if c.backend = .carbon then .carbon c.tools else .silicon c.tools c.branch

/-- The result of a request under `c` if the backend returns `o` (`none`: the job was cancelled). -/
def resultOf (W : World E P X D) (c : Conf) (r : Nat) (o : Option (Out X)) : Result D :=
  match (translationOf W c r).out, o with
  | .error d, _ => .translationFailed d
  | .ok _, none => .cancelled
  | .ok _, some (.errors x) => .diagnostics (W.convert (translationOf W c r).dict x c.sif)
  | .ok _, some .ok => .success
  | .ok _, some .none => .internal

/-- Configuration `c` with the given options. -/
def override (c : Conf) (o : Options) : Conf where
  backend := o.backend.getD c.backend
  branch := o.branch.getD c.branch
  sif := o.sif.getD c.sif
  bv := o.bv.getD c.bv
  float := o.float.getD c.float
  server := o.server.getD c.server
  tools := o.tools.getD c.tools

/-- A job is what request `r` submits under `c`. -/
def JobOf (W : World E P X D) (c : Conf) (r : Nat) (job : Job P X) : Prop :=
  (translationOf W c r).out = .ok job.prog ∧ job.args = argsOf c ∧ job.backend = c.backend

/-- The jobs and the result of request `r` in `s` are those under configuration `c`. -/
def AsUnder (W : World E P X D) (c : Conf) (s : State E P X D) (r : Nat) (res : Result D) : Prop :=
  (∃ o, res = resultOf W c r o) ∧ ∀ j job, s.jobs j = some job → job.owner = r → JobOf W c r job

/-- Steps of request `r` that read the configuration. -/
def readsConf (r : Nat) : Label X → Prop
  | .choose r' | .translate r' | .readKind r' | .build r' | .submit r' | .convert r'
  | .serial r' _ => r' = r
  | _ => False

/-- In the execution of the schedule from `s`, all steps of `r` that read the configuration find `c`. -/
def ReadsOnly (W : World E P X D) (r : Nat) (c : Conf) (s : State E P X D) : List (Label X) → Prop
  | [] => True
  | l :: ls => (readsConf r l → s.conf = c) ∧ ∀ s', step W s l = some s' → ReadsOnly W r c s' ls

/-- The backend reported `x` for request `r`. -/
def Reported (ls : List (Label X)) (s : State E P X D) (r : Nat) (x : X) : Prop :=
  Label.serial r (.errors x) ∈ ls ∨
    ∃ j job, s.jobs j = some job ∧ job.owner = r ∧ job.status = .finished (.errors x)

/-- The request registered last under token `t`. -/
def lastRegistered (W : World E P X D) (t : Nat) (ls : List (Label X)) : Option Nat :=
  ls.reverse.findSome? fun l =>
    match l with
    | .register r => if W.token r = some t then some r else none
    | _ => none

/-- The request that submitted a job under token `t` last. -/
def lastSubmitted (W : World E P X D) (t : Nat) (ls : List (Label X)) : Option Nat :=
  ls.reverse.findSome? fun l =>
    match l with
    | .submit r => if W.token r = some t then some r else none
    | _ => none

/-- A job has been cancelled. -/
def Cancelled (s : State E P X D) (j : Nat) : Prop :=
  ∃ job, s.jobs j = some job ∧ job.status = .cancelled

end Nagini.Service
