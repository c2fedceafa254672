import Verif.Lemmas.ServiceRuns

/-!
C44: diagnostics of concurrent requests; C46: cancellation; C47: reconfiguration.
Statements are about every schedule of requests, backends, cancellations and reconfigurations.
-/
set_option linter.unusedVariables false
namespace Nagini.Service

variable {E P X D : Type} {W : World E P X D}

/-! ### Diagnostics -/

/-- **C44**: in every execution, the diagnostics a request returns are the conversion of errors the
backend reported for a job of this request, with the entries its own translation recorded (nothing
of other translations), where that translation used resources that belong to its configuration. -/
theorem C44_own_diagnostics (c0 : Conf) (ls : List (Label X)) (s : State E P X D)
    (h : run W (init c0) ls = some s) (r : Nat) (d : D) (hd : s.phase r = .done (.diagnostics d)) :
    ∃ b c x sif, d = W.convert (W.translate r b c.bv c.float (load c)).dict x sif ∧ Reported ls s r x :=
  (own_run c0 ls s h).2 r d hd

/-- **C44**, for requests without diagnostics: success is reported only if the backend accepted
the request's own program. -/
theorem C44_own_success (c0 : Conf) (ls : List (Label X)) (s : State E P X D)
    (h : run W (init c0) ls = some s) (r : Nat) (hd : s.phase r = .done .success) :
    Label.serial r .ok ∈ ls ∨ ∃ c j job, s.jobs j = some job ∧
      (W.translate r false c.bv c.float (load c)).out = .ok job.prog ∧ job.status = .finished .ok := by
  obtain ⟨-, h2, h3⟩ := progs_run c0 ls s h
  rcases h3 r hd with h | ⟨j, job, hj, rfl, hs⟩
  · exact Or.inl h
  · obtain ⟨c, hc⟩ := h2 j job hj
    exact Or.inr ⟨c, j, job, hj, hc, hs⟩

/-- A world for examples: request `r` records `r`, translates to `r`; all requests use token 0. -/
def demo : World Nat Nat Nat (List Nat × Nat × Bool) where
  token := fun _ => some 0
  arp := fun _ => false
  translate := fun r _ _ _ _ => ⟨([r], [r]), .ok r⟩
  convert := fun d x b => (d.1, x, b)

/-- A configuration for examples. -/
def cfg : Conf := ⟨.silicon, false, false, 8, 0, true, 0⟩

/-- Steps of a request up to its registration. -/
def upto (r : Nat) : List (Label Nat) :=
  [.choose r, .translate r, .readKind r, .build r, .submit r, .register r]

/-- Two overlapping requests; the second finishes first. -/
def overlap : List (Label Nat) :=
  upto 0 ++ upto 1 ++ [.verdict 1 (.errors 71), .verdict 0 (.errors 70), .await 1, .unregister 1,
    .await 0, .unregister 0, .convert 1, .convert 0]

/-- Both get their own diagnostics. -/
example : ∃ s, run demo (init cfg) overlap = some s ∧
    s.phase 0 = .done (.diagnostics ([0], 70, false)) ∧
    s.phase 1 = .done (.diagnostics ([1], 71, false)) := ⟨_, rfl, rfl, rfl⟩

example : ∃ s, run demo (init cfg) (upto 0 ++ upto 1 ++ [.verdict 1 .ok, .await 1, .unregister 1]) = some s ∧
    s.phase 1 = .done .success := ⟨_, rfl, rfl⟩

/-! ### Cancellation -/

/-- **C46** (full claim): in every execution, a cancellation of a token that is looked up and carried
out at once stops the running job of the request that submitted last under this token; jobs of other
tokens are only stopped by requests to stop all jobs, and finished requests are not registered. -/
def C46 : Prop :=
  ∀ (E P X D : Type) (W : World E P X D) (c0 : Conf) (ls : List (Label X)) (s : State E P X D),
    run W (init c0) ls = some s →
    (∀ t r j job k s1 s2, lastSubmitted W t ls = some r → s.jobs j = some job → job.owner = r →
      step W s (.lookup k t) = some s1 → step W s1 (.kill k) = some s2 →
      ∀ job', s2.jobs j = some job' → job'.status ≠ .running) ∧
    (∀ l s' j, step W s l = some s' → ¬ Cancelled s j → Cancelled s' j → l = .cancelAll ∨
      ∃ k t job, l = .kill k ∧ (∃ x, s.cancels k = some (t, x)) ∧ s.jobs j = some job ∧
        W.token job.owner = some t) ∧
    (∀ t j job, s.reg t = some j → s.jobs j = some job → ∀ res, s.phase job.owner ≠ .done res)

/-- **C46**, other tokens: a step that stops a job is a request to stop all jobs, or belongs to a
cancellation of the token of the job. -/
theorem C46_precise_partial (c0 : Conf) (ls : List (Label X)) (s s' : State E P X D)
    (h : run W (init c0) ls = some s) (l : Label X) (j : Nat) (hs : step W s l = some s')
    (hn : ¬ Cancelled s j) (hc : Cancelled s' j) : l = .cancelAll ∨
      ∃ k t job, l = .kill k ∧ (∃ x, s.cancels k = some (t, x)) ∧ s.jobs j = some job ∧
        W.token job.owner = some t := by
  have hi := inv_run c0 ls s h
  have hreg := hi.reg.cancels
  have same : (∀ job, s'.jobs j = some job → s.jobs j = some job) → False := by
    intro hh
    obtain ⟨job, h1, h2⟩ := hc
    exact hn ⟨job, hh job h1, h2⟩
  cases l
  case cancelAll => exact Or.inl rfl
  case kill k =>
    simp only [step] at hs
    split at hs <;> cases hs
    · rename_i t j' hk
      obtain ⟨job', hj', hst⟩ := hc
      obtain ⟨job, hj, e⟩ := (stop_iff s.jobs j' j job').1 hj'
      by_cases hjj : j = j'
      · subst hjj
        obtain ⟨job2, k1, k2⟩ := hreg k t j hk
        exact Or.inr ⟨k, t, job2, rfl, ⟨_, hk⟩, k1, k2⟩
      · exfalso
        refine hn ⟨job, hj, ?_⟩
        rw [← hst, e]
        cases hjs : job.status <;> simp [hjj, hjs]
    · exact absurd hc (fun hc => same fun _ h => h)
  case verdict j' o =>
    exfalso
    simp only [step] at hs
    (repeat' split at hs) <;> cases hs
    obtain ⟨job', hj', hst⟩ := hc
    by_cases hjj : j = j'
    · subst hjj
      simp only [upd, if_true, Option.some.injEq] at hj'
      subst hj'
      simp at hst
    · exact hn ⟨job', by simpa [upd, hjj] using hj', hst⟩
  case submit r =>
    exfalso
    simp only [step] at hs
    (repeat' split at hs) <;> cases hs
    obtain ⟨job', hj', hst⟩ := hc
    by_cases hjj : j = s.nextJob
    · subst hjj
      simp only [upd, if_true, Option.some.injEq] at hj'
      subst hj'
      simp at hst
    · exact hn ⟨job', by simpa [upd, hjj] using hj', hst⟩
  all_goals
    exfalso
    refine same ?_
    simp only [step] at hs
    (repeat' split at hs) <;> (try cases hs) <;> (try simp only [applyWrite_jobs]) <;> exact fun _ h => h

/-- **C46**, registrations: a registered job belongs to a request with that token that is waiting. -/
theorem C46_no_leak_partial (c0 : Conf) (ls : List (Label X)) (s : State E P X D)
    (h : run W (init c0) ls = some s) (t j : Nat) (job : Job P X) (hr : s.reg t = some j)
    (hj : s.jobs j = some job) :
    W.token job.owner = some t ∧ ∀ res, s.phase job.owner ≠ .done res := by
  have hi := inv_run c0 ls s h
  obtain ⟨r, n, ht, hp⟩ := hi.reg.reg t j hr
  obtain ⟨job', hj', ho⟩ := hi.jobs.own r j (by rcases hp with hp | ⟨o, hp⟩ <;> rw [hp] <;> rfl)
  rw [hj] at hj'
  cases hj'
  rw [ho]
  exact ⟨ht, fun res hd => by rcases hp with hp | ⟨o, hp⟩ <;> rw [hd] at hp <;> cases hp⟩

/-- **C46**, exact effect: a cancellation stops a running job iff the server is used and the job is
the one found under the token. -/
theorem C46_stops_iff_partial (s s1 s2 : State E P X D) (t j k : Nat) (job : Job P X)
    (hj : s.jobs j = some job) (hr : job.status = .running)
    (h1 : step W s (.lookup k t) = some s1) (h2 : step W s1 (.kill k) = some s2) :
    Cancelled s2 j ↔ s.conf.server = true ∧ s.reg t = some j := by
  simp only [step] at h1
  split at h1 <;> cases h1
  simp only [step, upd, if_true] at h2
  have hjj : ¬ Cancelled s j := by
    rintro ⟨job', hj', hs⟩
    rw [hj] at hj'; cases hj'; rw [hr] at hs; cases hs
  by_cases hsv : s.conf.server = true
  · simp only [hsv, if_true] at h2
    cases hrt : s.reg t with
    | none =>
      rw [hrt] at h2
      cases h2
      simp only [reduceCtorEq, and_false, iff_false]
      exact hjj
    | some i =>
      rw [hrt] at h2
      cases h2
      by_cases hij : j = i
      · subst hij
        simp only [hsv, and_self, iff_true]
        exact ⟨{ job with status := .cancelled }, (stop_iff ..).2 ⟨job, hj, by simp [hr]⟩, rfl⟩
      · constructor
        · rintro ⟨job', hj', hs⟩
          obtain ⟨jb, k1, rfl⟩ := (stop_iff s.jobs i j job').1 hj'
          rw [hj] at k1; cases k1
          rw [hr] at hs
          simp [hij, hr] at hs
        · rintro ⟨-, e⟩
          exact absurd (Option.some.inj e).symm hij
  · simp only [if_neg hsv] at h2
    cases h2
    exact ⟨fun hh => absurd hh hjj, fun hh => absurd hh.1 hsv⟩

/-- Other steps do not disturb a cancellation under way. -/
theorem cancels_frame (s s' : State E P X D) (l : Label X) (h : step W s l = some s') (k : Nat)
    (v : Nat × Option Nat) (hk : s.cancels k = some v) (hl : l ≠ .kill k) : s'.cancels k = some v := by
  cases l
  case lookup k' t =>
    simp only [step] at h
    split at h <;> cases h
    grind [upd]
  case kill k' =>
    have : k ≠ k' := by rintro rfl; exact hl rfl
    simp only [step] at h
    split at h <;> cases h <;> simp [upd, this, hk]
  all_goals
    simp only [step] at h
    (repeat' split at h) <;> (try cases h) <;> first | exact hk | (simp only [applyWrite_cancels]; exact hk)

theorem cancels_run (ls : List (Label X)) (s s' : State E P X D) (h : run W s ls = some s') (k : Nat)
    (v : Nat × Option Nat) (hk : s.cancels k = some v) (hl : ∀ l ∈ ls, l ≠ .kill k) :
    s'.cancels k = some v := by
  induction ls generalizing s with
  | nil => cases h; exact hk
  | cons l ls ih =>
    simp only [run] at h
    cases hs : step W s l with
    | none => rw [hs] at h; cases h
    | some s1 =>
      rw [hs] at h
      exact ih s1 h (cancels_frame s s1 l hs k v hk (hl l List.mem_cons_self))
        (fun l' h' => hl l' (List.mem_cons_of_mem _ h'))

/-- **C46**, stopping the newest job, weaker than claimed: if the request that *registered* last under
the token is waiting for its job when the token is looked up, and the server is used at that
time, then the job does not run after the cancellation, whatever happens between its two steps.
Missing: the time between submission and registration, registrations in another order than
submissions, and a server switched off with jobs running. -/
theorem C46_stops_partial (c0 : Conf) (ls ls' : List (Label X)) (s s1 s2 s3 : State E P X D)
    (h : run W (init c0) ls = some s) (t r n j k : Nat) (hl : lastRegistered W t ls = some r)
    (hp : s.phase r = .registered n j) (hsv : s.conf.server = true)
    (h1 : step W s (.lookup k t) = some s1) (hr : run W s1 ls' = some s2)
    (hk : ∀ l ∈ ls', l ≠ .kill k) (h2 : step W s2 (.kill k) = some s3) (job : Job P X)
    (hj : s3.jobs j = some job) : job.status ≠ .running := by
  have hreg := regLast_run c0 ls s h t r n j hl (Or.inl hp)
  have hc : s1.cancels k = some (t, some j) := by
    simp only [step] at h1
    split at h1 <;> cases h1
    simp [upd, hsv, hreg]
  have hc2 := cancels_run ls' s1 s2 hr k _ hc hk
  simp only [step, hc2] at h2
  cases h2
  obtain ⟨jb, -, rfl⟩ := (stop_iff s2.jobs j j job).1 hj
  intro hh
  cases hs : jb.status <;> simp [hs] at hh

/-- Stopping the job of request 0, which is waiting, although request 2 registers in between. -/
example : ∃ s s', run demo (init cfg) (upto 0) = some s ∧ lastRegistered demo 0 (upto 0) = some 0 ∧
    s.phase 0 = .registered 1 0 ∧
    run demo s ([.lookup 9 0] ++ upto 2 ++ [.kill 9]) = some s' ∧ Cancelled s' 0 ∧ ¬ Cancelled s' 1 := by
  refine ⟨_, _, rfl, rfl, rfl, rfl, ⟨_, rfl, rfl⟩, ?_⟩
  rintro ⟨job, hj, hs⟩
  cases hj
  cases hs

/-- The claim fails: (a) a job that is submitted but not yet registered is not found. -/
theorem C46_unregistered_fails : ¬ C46 := by
  intro hC
  have h := (hC Nat Nat Nat _ demo cfg
    [.choose 0, .translate 0, .readKind 0, .build 0, .submit 0] _ rfl).1 0 0 0 _ 9 _ _ rfl rfl rfl rfl rfl _ rfl
  exact h rfl

/-- (b) Request 1 submits after request 0 but registers before it: the older job is stopped. -/
theorem C46_order_fails : ¬ C46 := by
  intro hC
  have h := (hC Nat Nat Nat _ demo cfg
    [.choose 0, .translate 0, .readKind 0, .build 0, .submit 0,
     .choose 1, .translate 1, .readKind 1, .build 1, .submit 1, .register 1, .register 0] _ rfl).1
       0 1 1 _ 9 _ _ rfl rfl rfl rfl rfl _ rfl
  exact h rfl

/-- (c) After the server has been switched off, running jobs are not stopped. -/
theorem C46_server_fails : ¬ C46 := by
  intro hC
  have h := (hC Nat Nat Nat _ demo cfg (upto 0 ++ [.reconfigure { server := some false }, .write, .unlock])
    _ rfl).1 0 0 0 _ 9 _ _ rfl rfl rfl rfl rfl _ rfl
  exact h rfl

/-! ### Reconfiguration -/

/-- **C47** (full claim): in every execution, the jobs and the result of a finished request are those
under one configuration. -/
def C47 : Prop :=
  ∀ (E P X D : Type) (W : World E P X D) (c0 : Conf) (ls : List (Label X)) (s : State E P X D),
    run W (init c0) ls = some s → ∀ r res, s.phase r = .done res → ∃ c, AsUnder W c s r res

/-- **C47**, weaker than claimed: if all reads of the configuration by a request find the same
configuration (which may differ from those of other requests, and of this one while it reads nothing),
its jobs and its result are those under this configuration.  In particular no mixture of old and new
Silver resources is ever used, and reconfigurations between the reads of different requests are
harmless.  Missing: executions in which the configuration changes between two reads of a request. -/
theorem C47_consistent_partial (c0 c : Conf) (ls : List (Label X)) (s : State E P X D) (r : Nat)
    (h : run W (init c0) ls = some s) (hc : ReadsOnly W r c (init c0) ls) (res : Result D)
    (hd : s.phase r = .done res) : AsUnder W c s r res := by
  obtain ⟨h1, h2⟩ := under_run c r ls (init c0) s (inv_init c0)
    ⟨trivial, fun j job hj => by cases hj⟩ hc h
  rw [hd] at h1
  exact ⟨h1, h2⟩

/-- The effect of all writes of `reconfigure`. -/
theorem foldl_override (s : State E P X D) (o : Options) :
    ((writes s.conf o).foldl applyWrite s).conf = override s.conf o := by
  obtain ⟨ob, os, obr, osif, obv, ofl, ot⟩ := o
  unfold writes override
  rw [List.foldl_append, List.foldl_append]
  have h1 : ∀ s : State E P X D, ∀ b : Bool,
      ((if b then [] else [Write.reload]).foldl applyWrite s).conf = s.conf := by
    intro s b; cases b <;> rfl
  rw [h1]
  have h2 : ∀ (α : Type) [DecidableEq α] (o : Option α) (cur : α) (w : α → Write) (s : State E P X D)
      (put : Conf → α → Conf), (∀ s : State E P X D, ∀ v, (applyWrite s (w v)).conf = put s.conf v) →
      put s.conf cur = s.conf → ((change o cur w).foldl applyWrite s).conf = put s.conf (o.getD cur) := by
    intro α _ o cur w s put hw hp
    cases o with
    | none => exact hp.symm
    | some v =>
      unfold change
      by_cases hv : v = cur
      · subst hv; simp [hp]
      · simp [hv, hw]
  rw [List.foldl_append, List.foldl_append]
  cases ob <;> cases os <;> cases obr <;> cases ot <;>
    simp only [Option.map_none, Option.map_some, Option.toList_none, Option.toList_some, List.nil_append,
      List.append_nil, List.singleton_append, List.cons_append, List.foldl_cons, List.foldl_nil,
      Option.getD_none, Option.getD_some] <;>
    (rw [h2 _ ofl s.conf.float .float _ (fun c v => { c with float := v }) (fun _ _ => rfl)] <;>
      rw [h2 _ obv s.conf.bv .bv _ (fun c v => { c with bv := v }) (fun _ _ => rfl)] <;>
      rw [h2 _ osif s.conf.sif .sif _ (fun c v => { c with sif := v }) (fun _ _ => rfl)] <;> rfl)

/-- While one reconfiguration runs, its remaining writes lead to the requested configuration. -/
def Towards (c : Conf) (s : State E P X D) : Prop :=
  match s.lock with
  | none => s.conf = c
  | some ws => (ws.foldl applyWrite s).conf = c

theorem foldl_conf_congr (ws : List Write) (s s' : State E P X D) (h : s.conf = s'.conf) :
    (ws.foldl applyWrite s).conf = (ws.foldl applyWrite s').conf := by
  induction ws generalizing s s' with
  | nil => exact h
  | cons w ws ih =>
    simp only [List.foldl_cons]
    refine ih _ _ ?_
    cases w <;> simp [applyWrite, h]

theorem towards_step (c : Conf) (s s' : State E P X D) (l : Label X) (h : step W s l = some s')
    (ht : Towards c s) (hl : ∀ o, l ≠ .reconfigure o) : Towards c s' := by
  cases l
  case reconfigure o => exact absurd rfl (hl o)
  case write =>
    simp only [step] at h
    split at h <;> cases h
    rename_i w ws hlk
    unfold Towards at ht ⊢
    rw [hlk] at ht
    dsimp only at ht ⊢
    rw [← ht]
    exact foldl_conf_congr ws _ _ rfl
  case unlock =>
    simp only [step] at h
    split at h <;> cases h
    rename_i hlk
    unfold Towards at ht ⊢
    rw [hlk] at ht
    exact ht
  all_goals
    have hcl : s'.conf = s.conf ∧ s'.lock = s.lock := by
      simp only [step] at h
      (repeat' split at h) <;> (try cases h) <;> (try exact ⟨rfl, rfl⟩) <;> (try (cases ‹_›; exact ⟨rfl, rfl⟩))
    unfold Towards at ht ⊢
    rw [hcl.2]
    cases hlk : s.lock with
    | none => rw [hlk] at ht; exact hcl.1.trans ht
    | some ws => rw [hlk] at ht; exact (foldl_conf_congr ws _ _ hcl.1).trans ht

/-- **C47**, what `reconfigure` does: when it has returned, and no other reconfiguration started since,
the configuration is the old one with the given options, and the resources belong to it, whatever
requests did in between. -/
theorem C47_reconfigure_partial (c0 : Conf) (ls ls' : List (Label X)) (s s' : State E P X D) (o : Options)
    (h : run W (init c0) ls = some s) (hl : s.lock = none)
    (h' : run W s (.reconfigure o :: ls') = some s') (hn : ∀ o', Label.reconfigure o' ∉ ls')
    (hu : s'.lock = none) : s'.conf = override s.conf o ∧ s'.res = load (override s.conf o) := by
  have hconf : s'.conf = override s.conf o := by
    simp only [run, step, hl] at h'
    have key : ∀ (ls' : List (Label X)) (s1 : State E P X D), (∀ o', Label.reconfigure o' ∉ ls') →
        Towards (override s.conf o) s1 → run W s1 ls' = some s' → Towards (override s.conf o) s' := by
      intro ls'
      induction ls' with
      | nil => intro s1 _ ht hr; cases hr; exact ht
      | cons l ls' ih =>
        intro s1 hn ht hr
        simp only [run] at hr
        cases hs : step W s1 l with
        | none => rw [hs] at hr; cases hr
        | some s2 =>
          rw [hs] at hr
          exact ih s2 (fun o' h => hn o' (List.mem_cons_of_mem _ h))
            (towards_step _ s1 s2 l hs ht (fun o' h => hn o' (h ▸ List.mem_cons_self))) hr
    have := key ls' _ hn (by
      unfold Towards
      dsimp only
      rw [← foldl_override s o]
      exact foldl_conf_congr _ _ _ rfl) h'
    unfold Towards at this
    rw [hu] at this
    exact this
  refine ⟨hconf, ?_⟩
  have hrun : run W (init c0) (ls ++ .reconfigure o :: ls') = some s' := by
    rw [run_append, h]; exact h'
  have := (inv_run c0 _ s' hrun).settled
  unfold Settled at this
  rw [hu] at this
  rw [← hconf]
  exact this

example : ∃ s', run demo (init cfg) [.choose 0, .reconfigure { sif := some true, bv := some 8 }, .write,
    .choose 1, .write, .unlock] = some s' ∧ s'.conf = { cfg with sif := true } ∧ s'.res.sif = true :=
  ⟨_, rfl, rfl, rfl⟩

/-- A request that reads the configuration after one reconfiguration and finishes during the next. -/
example : ∃ s, run demo (init cfg)
    ([.reconfigure { backend := some .carbon }, .write, .unlock] ++ upto 0 ++
      [.reconfigure { bv := some 9 }, .verdict 0 .ok, .write, .await 0, .unregister 0]) = some s ∧
    s.phase 0 = .done .success ∧ s.conf ≠ cfg ∧
    ∃ job, s.jobs 0 = some job ∧ job.args = .carbon 0 ∧ job.backend = .carbon :=
  ⟨_, rfl, rfl, by decide, _, rfl, rfl, rfl⟩

/-- In the same execution, the request reads only the configuration with Carbon. -/
example : ReadsOnly demo 0 { cfg with backend := .carbon } (init cfg)
    ([.reconfigure { backend := some .carbon }, .write, .unlock] ++ upto 0 ++
      [.reconfigure { bv := some 9 }, .verdict 0 .ok, .write, .await 0, .unregister 0]) := by
  repeat
    refine ⟨by first | exact fun _ => rfl | exact fun h => h.elim, fun s h => ?_⟩
    obtain rfl := Option.some.inj h
    clear h
  trivial

/-- The claim fails: (a) the backend changes after the arguments have been built: Carbon is started
with the arguments for Silicon. -/
theorem C47_backend_fails : ¬ C47 := by
  intro hC
  have hrun : ∃ s, run demo (init cfg)
      [.choose 0, .translate 0, .readKind 0, .build 0, .reconfigure { backend := some .carbon }, .write,
       .unlock, .submit 0, .register 0, .verdict 0 .ok, .await 0, .unregister 0] = some s ∧
      s.phase 0 = .done .success ∧ ∃ job, s.jobs 0 = some job ∧ job.owner = 0 ∧
        job.args = .silicon 0 false ∧ job.backend = .carbon := ⟨_, rfl, rfl, _, rfl, rfl, rfl, rfl⟩
  obtain ⟨s, hs, hp, job, hj, ho, ha, hb⟩ := hrun
  obtain ⟨c, -, h⟩ := hC Nat Nat Nat _ demo cfg _ s hs 0 _ hp
  obtain ⟨-, h2, h3⟩ := h 0 job hj ho
  unfold argsOf at h2
  rw [if_pos (h3.symm.trans hb), ha] at h2
  cases h2

/-- A world whose programs and diagnostics show the sif mode. -/
def sifWorld : World Nat Bool Nat Bool where
  token := fun _ => none
  arp := fun _ => false
  translate := fun _ b _ _ _ => ⟨([], []), .ok b⟩
  convert := fun _ _ b => b

/-- (b) The sif mode changes while the backend works on a submitted job: the errors of a program
translated without it are converted as if it had been translated with it. -/
theorem C47_sif_fails : ¬ C47 := by
  intro hC
  have hrun : ∃ s, run sifWorld (init cfg)
      (upto 0 ++ [.reconfigure { sif := some true }, .write, .write, .unlock, .verdict 0 (.errors 5),
        .await 0, .unregister 0, .convert 0]) = some s ∧
      s.phase 0 = .done (.diagnostics true) ∧ ∃ job, s.jobs 0 = some job ∧ job.owner = 0 ∧
        job.prog = false := ⟨_, rfl, rfl, _, rfl, rfl, rfl⟩
  obtain ⟨s, hs, hp, job, hj, ho, hb⟩ := hrun
  obtain ⟨c, ⟨o, h1⟩, h⟩ := hC Nat Bool Nat Bool sifWorld cfg _ s hs 0 _ hp
  obtain ⟨h2, -, -⟩ := h 0 job hj ho
  rw [hb] at h2
  have h2' : c.sif = false := Except.ok.inj h2
  unfold resultOf translationOf sifWorld at h1
  rw [h2'] at h1
  rcases o with _ | (x | _ | _) <;> simp at h1

end Nagini.Service
