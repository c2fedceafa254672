import Mathlib.Logic.Basic

/-!
Model of the concurrent verification service (service.py) as a transition system.

A step is one region of the code that other threads cannot observe half-done: a region that holds
`_state_lock`, or a single access to shared state outside of it.  `reconfigure` holds the lock, but
its writes are read by requests without the lock, so each write is a step.  The reads of the condition
in `_can_run_concurrently` are one step.  Translation, backends and the conversion of errors are
arbitrary functions.  The two dictionaries of the error manager (`_items`, `_conversion_rules`) are
Python objects with identity: a store maps references to pairs of dictionaries; the two are always
replaced together.  Not modelled: failures while loading Silver resources, `viper_text`, durations.
-/
set_option linter.unusedVariables false
namespace Nagini.Service

/-- Function update. Models assignment to one entry of a Python dictionary or attribute of one
thread, e.g. service.py:380. -/
def upd {α : Type} (f : Nat → α) (a : Nat) (b : α) : Nat → α := fun x => if x = a then b else f x

/-- Values of `_backend`.  Models service.py:149, 249. -/
inductive Backend
  | silicon | carbon | other
deriving DecidableEq

/-- The configuration of the service.  Models the attributes set in service.py:149-153,
`config.use_viper_server` and (as `tools`) `config.z3_path`, `config.boogie_path`, lib/config.py:306-322. -/
structure Conf where
  backend : Backend
  branch : Bool
  sif : Bool
  bv : Nat
  float : Nat
  server : Bool
  tools : Nat
deriving DecidableEq

/-- The options the parsed Silver resources `sil_programs` depend on.
Models main.py:107-111 and service.py:175-176. -/
structure Resources where
  bv : Nat
  sif : Bool
  float : Nat
deriving DecidableEq

/-- The resources loaded for a configuration.  Models service.py:330-331. -/
def load (c : Conf) : Resources := ⟨c.bv, c.sif, c.float⟩

/-- Command line of the backend, as far as it depends on the configuration.
Models verifier.py:26-65. -/
inductive Args
  | silicon (tools : Nat) (disableBranch : Bool)
  | carbon (tools : Nat)
deriving DecidableEq

/-- What the translation of a request produces: the entries added to the error manager, and a program
or a diagnostic.  Models main.py:114-210. -/
structure Translated (E P D : Type) where
  dict : List E × List E
  out : Except D P

/-- The environment: the token of each request, whether it asks for ARP, translation with the given
sif mode and sizes, conversion of backend errors with the dictionaries and a sif mode.
Models service.py:187-191, 348-352, 413-414. -/
structure World (E P X D : Type) where
  token : Nat → Option Nat
  arp : Nat → Bool
  translate : Nat → Bool → Nat → Nat → Resources → Translated E P D
  convert : List E × List E → X → Bool → D

/-- What a backend returns: errors, success or nothing.  Models service.py:382, 396-405. -/
inductive Out (X : Type)
  | errors (x : X) | ok | none

/-- Status of a job in ViperServer.  Models viper_server.py:116-138. -/
inductive Status (X : Type)
  | running | finished (o : Out X) | cancelled

/-- A job in ViperServer.  Models viper_server.py:101-114; `owner` is the submitting request. -/
structure Job (P X : Type) where
  owner : Nat
  prog : P
  args : Args
  backend : Backend
  status : Status X

/-- Results.  Models `VerifyResult`, service.py:92-98. -/
inductive Result (D : Type)
  | diagnostics (d : D) | success | cancelled | internal | translationFailed (d : D)

/-- Where a request is, with its local variables (`snapshot` is a reference to its dictionaries).
Models `verify` and `_verify_concurrent`, service.py:187-210, 336-417. -/
inductive Phase (P X D : Type)
  | idle
  | chosen (concurrent : Bool)
  | translated (snap : Nat) (prog : P)
  | kind (snap : Nat) (prog : P) (carbon : Bool)
  | built (snap : Nat) (prog : P) (args : Args)
  | submitted (snap : Nat) (job : Nat)
  | registered (snap : Nat) (job : Nat)
  | awaited (snap : Nat) (job : Nat) (out : Option (Out X))
  | failed (snap : Nat) (x : X)
  | done (r : Result D)

/-- A write of `reconfigure`.  Models service.py:303-331. -/
inductive Write
  | backend (b : Backend) | server (b : Bool) | branch (b : Bool) | sif (b : Bool) | bv (n : Nat)
  | float (n : Nat) | tools (n : Nat) | reload
deriving DecidableEq

/-- Options given to `reconfigure`.  Models service.py:288. -/
structure Options where
  backend : Option Backend := none
  server : Option Bool := none
  branch : Option Bool := none
  sif : Option Bool := none
  bv : Option Nat := none
  float : Option Nat := none
  tools : Option Nat := none

/-- A write of an option that needs a reload, if the value differs.  Models service.py:317-327. -/
def change {α : Type} [DecidableEq α] (o : Option α) (cur : α) (w : α → Write) : List Write :=
  match o with
  | some v => if v ≠ cur then [w v] else []
  | none => []

/-- The writes `reconfigure` performs, in order.  Models service.py:299-331. -/
def writes (c : Conf) (o : Options) : List Write :=
  let plain := (o.tools.map Write.tools).toList ++ (o.backend.map Write.backend).toList ++ (o.server.map Write.server).toList
    ++ (o.branch.map Write.branch).toList
  let changes := change o.sif c.sif .sif ++ change o.bv c.bv .bv ++ change o.float c.float .float
  plain ++ changes ++ (if changes.isEmpty then [] else [.reload])

/-- Shared state.  `lock`: the writes left of a `reconfigure` that holds the state lock.
`mgr`: the dictionaries of the error manager.  `cancels`: threads in `cancel` that have looked up a
token.  Models service.py:149-176 and lib/errors/manager.py:30-32. -/
structure State (E P X D : Type) where
  conf : Conf
  res : Resources
  lock : Option (List Write)
  store : Nat → List E × List E
  next : Nat
  mgr : Nat
  jobs : Nat → Option (Job P X)
  nextJob : Nat
  reg : Nat → Option Nat
  phase : Nat → Phase P X D
  cancels : Nat → Option (Nat × Option Nat)

/-- Steps. `r`: request, `j`: job, `t`: token, `k`: thread calling `cancel`.
Models service.py:187-417. -/
inductive Label (X : Type)
  | choose (r : Nat) | translate (r : Nat) | readKind (r : Nat) | build (r : Nat) | submit (r : Nat)
  | register (r : Nat) | verdict (j : Nat) (o : Out X) | await (r : Nat) | unregister (r : Nat)
  | convert (r : Nat) | serial (r : Nat) (o : Out X)
  | lookup (k t : Nat) | kill (k : Nat) | cancelAll
  | reconfigure (o : Options) | write | unlock

variable {E P X D : Type}

/-- Models `_can_run_concurrently`, service.py:248-256 (with a started server). -/
def concurrent (c : Conf) (arp : Bool) : Bool :=
  !(arp || c.sif || c.backend == .other || !c.server)

/-- Models `clear`, lib/errors/manager.py:45-48: the dictionaries are emptied in place. -/
def clear (st : Nat → List E × List E) (m : Nat) : Nat → List E × List E := upd st m ([], [])

/-- Entries added by a translation.  Models `add_error_information`, lib/errors/manager.py:34-43. -/
def fill (st : Nat → List E × List E) (m : Nat) (d : List E × List E) : Nat → List E × List E :=
  upd st m ((st m).1 ++ d.1, (st m).2 ++ d.2)

/-- The state after one write of `reconfigure`.  Models service.py:303-331. -/
def applyWrite (s : State E P X D) : Write → State E P X D
  | .backend b => { s with conf := { s.conf with backend := b } }
  | .server b => { s with conf := { s.conf with server := b } }
  | .branch b => { s with conf := { s.conf with branch := b } }
  | .sif b => { s with conf := { s.conf with sif := b } }
  | .bv n => { s with conf := { s.conf with bv := n } }
  | .float n => { s with conf := { s.conf with float := n } }
  | .tools n => { s with conf := { s.conf with tools := n } }
  | .reload => { s with res := load s.conf }

/-- Stops a running job.  Models `cancel_job`, viper_server.py:124-140 (without effect on a job
that is not running). -/
def stop (jobs : Nat → Option (Job P X)) (j : Nat) : Nat → Option (Job P X) :=
  match jobs j with
  | some job =>
    match job.status with
    | .running => upd jobs j (some { job with status := .cancelled })
    | _ => jobs
  | none => jobs

/-- One step; `none` if it is not possible.  Models service.py:187-417 (line ranges with the cases). -/
def step (W : World E P X D) (s : State E P X D) : Label X → Option (State E P X D)
  -- service.py:204
  | .choose r =>
    match s.phase r with
    | .idle => some { s with phase := upd s.phase r (.chosen (concurrent s.conf (W.arp r))) }
    | _ => none
  -- service.py:345-369
  | .translate r =>
    match s.phase r, s.lock with
    | .chosen true, none =>
      let t := W.translate r false s.conf.bv s.conf.float s.res
      let st := fill (clear s.store s.mgr) s.mgr t.dict
      match t.out with
      | .error d => some { s with store := st, phase := upd s.phase r (.done (.translationFailed d)) }
      | .ok p =>
        -- `dict(...)` makes a new object
        some { s with
          store := clear (upd st s.next (st s.mgr)) s.mgr
          next := s.next + 1
          phase := upd s.phase r (.translated s.next p) }
    | _, _ => none
  -- service.py:372
  | .readKind r =>
    match s.phase r with
    | .translated n p => some { s with phase := upd s.phase r (.kind n p (s.conf.backend == .carbon)) }
    | _ => none
  -- service.py:373-376
  | .build r =>
    match s.phase r with
    | .kind n p c =>
      some { s with phase := upd s.phase r (.built n p (if c then .carbon s.conf.tools
        else .silicon s.conf.tools s.conf.branch)) }
    | _ => none
  -- service.py:377
  | .submit r =>
    match s.phase r with
    | .built n p a =>
      some { s with
        jobs := upd s.jobs s.nextJob (some ⟨r, p, a, s.conf.backend, .running⟩)
        nextJob := s.nextJob + 1
        phase := upd s.phase r (.submitted n s.nextJob) }
    | _ => none
  -- service.py:378-380
  | .register r =>
    match s.phase r with
    | .submitted n j =>
      some { s with
        reg := match W.token r with
          | some t => upd s.reg t (some j)
          | none => s.reg
        phase := upd s.phase r (.registered n j) }
    | _ => none
  -- the backend finishes a job, viper_server.py:116-122
  | .verdict j o =>
    match s.jobs j with
    | some job =>
      match job.status with
      | .running => some { s with jobs := upd s.jobs j (some { job with status := .finished o }) }
      | _ => none
    | none => none
  -- service.py:381-387
  | .await r =>
    match s.phase r with
    | .registered n j =>
      match s.jobs j with
      | some job =>
        match job.status with
        | .running => none
        | .finished o => some { s with phase := upd s.phase r (.awaited n j (some o)) }
        | .cancelled => some { s with phase := upd s.phase r (.awaited n j none) }
      | none => none
    | _ => none
  -- service.py:386-405
  | .unregister r =>
    match s.phase r with
    | .awaited n j o =>
      some { s with
        reg := match W.token r with
          | some t => if s.reg t = some j then upd s.reg t none else s.reg
          | none => s.reg
        phase := upd s.phase r (match o with
          | none => .done .cancelled
          | some .none => .done .internal
          | some .ok => .done .success
          | some (.errors x) => .failed n x) }
    | _ => none
  -- service.py:406-417
  | .convert r =>
    match s.phase r, s.lock with
    | .failed n x, none =>
      some { s with
        mgr := n
        store := clear s.store n
        phase := upd s.phase r (.done (.diagnostics (W.convert (s.store n) x s.conf.sif))) }
    | _, _ => none
  -- service.py:208-210, 419-459
  | .serial r o =>
    match s.phase r, s.lock with
    | .chosen false, none =>
      let t := W.translate r s.conf.sif s.conf.bv s.conf.float s.res
      let st := fill (clear s.store s.mgr) s.mgr t.dict
      some { s with
        store := st
        phase := upd s.phase r (.done (match t.out, o with
          | .error d, _ => .translationFailed d
          | .ok _, .errors x => .diagnostics (W.convert (st s.mgr) x s.conf.sif)
          | .ok _, .ok => .success
          | .ok _, .none => .internal)) }
    | _, _ => none
  -- service.py:233-240
  | .lookup k t =>
    match s.cancels k with
    | none => some { s with cancels := upd s.cancels k (some (t, if s.conf.server then s.reg t else none)) }
    | some _ => none
  -- service.py:241-242
  | .kill k =>
    match s.cancels k with
    | some (_, some j) => some { s with jobs := stop s.jobs j, cancels := upd s.cancels k none }
    | some (_, none) => some { s with cancels := upd s.cancels k none }
    | none => none
  -- service.py:233-244, viper_server.py:147-150
  | .cancelAll => some (if s.conf.server then { s with jobs := fun j => stop s.jobs j j } else s)
  -- service.py:299-331
  | .reconfigure o =>
    match s.lock with
    | none => some { s with lock := some (writes s.conf o) }
    | some _ => none
  | .write =>
    match s.lock with
    | some (w :: ws) => some { applyWrite s w with lock := some ws }
    | _ => none
  | .unlock =>
    match s.lock with
    | some [] => some { s with lock := none }
    | _ => none

/-- All steps of a schedule.  Models an execution of the threads of service.py:187-417. -/
def run (W : World E P X D) (s : State E P X D) : List (Label X) → Option (State E P X D)
  | [] => some s
  | l :: ls =>
    match step W s l with
    | some s' => run W s' ls
    | none => none

/-- The state after construction.  Models `__init__`, service.py:149-176. -/
def init (c : Conf) : State E P X D where
  conf := c
  res := load c
  lock := none
  store := fun _ => ([], [])
  next := 1
  mgr := 0
  jobs := fun _ => none
  nextJob := 0
  reg := fun _ => none
  phase := fun _ => .idle
  cancels := fun _ => none

end Nagini.Service
