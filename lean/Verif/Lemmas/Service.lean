import Verif.Spec.Service

/-! Invariants of the verification service. -/
set_option linter.unusedVariables false
set_option linter.unusedSimpArgs false
namespace Nagini.Service

variable {E P X D : Type} {W : World E P X D}

theorem run_append (s : State E P X D) (l1 l2 : List (Label X)) :
    run W s (l1 ++ l2) = (run W s l1).bind fun s' => run W s' l2 := by
  induction l1 generalizing s with
  | nil => rfl
  | cons l ls ih =>
    simp only [List.cons_append, run]
    cases h : step W s l with
    | none => rfl
    | some s' => exact ih s'

/-- Invariants indexed by the schedule so far. -/
theorem run_inv (I : List (Label X) → State E P X D → Prop) (s0 : State E P X D) (h0 : I [] s0)
    (hstep : ∀ ls s l s', I ls s → step W s l = some s' → I (ls ++ [l]) s')
    (ls : List (Label X)) (s : State E P X D) (h : run W s0 ls = some s) : I ls s := by
  suffices ∀ pre s0, I pre s0 → run W s0 ls = some s → I (pre ++ ls) s by
    simpa using this [] s0 h0 h
  clear h0 h
  induction ls with
  | nil => intro pre s0 hI h; cases h; simpa using hI
  | cons l ls ih =>
    intro pre s0 hI h
    simp only [run] at h
    cases h' : step W s0 l with
    | none => rw [h'] at h; cases h
    | some s1 =>
      rw [h'] at h
      have := ih (pre ++ [l]) s1 (hstep _ _ _ _ hI h') h
      simpa using this

/-- The reference to its dictionaries a request holds. -/
def snapOf : Phase P X D → Option Nat
  | .translated n _ | .kind n _ _ | .built n _ _ | .submitted n _ | .registered n _ | .awaited n _ _
  | .failed n _ => some n
  | _ => none

/-- The job a request waits for. -/
def jobOf : Phase P X D → Option Nat
  | .submitted _ j | .registered _ j | .awaited _ j _ => some j
  | _ => none

/-- References are not shared. -/
structure Mem (s : State E P X D) : Prop where
  mgr_lt : s.mgr < s.next
  snap_lt : ∀ r n, snapOf (s.phase r) = some n → n < s.next ∧ n ≠ s.mgr
  inj : ∀ r r' n, snapOf (s.phase r) = some n → snapOf (s.phase r') = some n → r = r'

@[simp, grind =] theorem applyWrite_store (s : State E P X D) (w) : (applyWrite s w).store = s.store := by
  cases w <;> rfl
@[simp, grind =] theorem applyWrite_next (s : State E P X D) (w) : (applyWrite s w).next = s.next := by
  cases w <;> rfl
@[simp, grind =] theorem applyWrite_mgr (s : State E P X D) (w) : (applyWrite s w).mgr = s.mgr := by
  cases w <;> rfl
@[simp, grind =] theorem applyWrite_jobs (s : State E P X D) (w) : (applyWrite s w).jobs = s.jobs := by
  cases w <;> rfl
@[simp, grind =] theorem applyWrite_nextJob (s : State E P X D) (w) :
    (applyWrite s w).nextJob = s.nextJob := by
  cases w <;> rfl
@[simp, grind =] theorem applyWrite_reg (s : State E P X D) (w) : (applyWrite s w).reg = s.reg := by
  cases w <;> rfl
@[simp, grind =] theorem applyWrite_phase (s : State E P X D) (w) : (applyWrite s w).phase = s.phase := by
  cases w <;> rfl
@[simp, grind =] theorem applyWrite_cancels (s : State E P X D) (w) :
    (applyWrite s w).cancels = s.cancels := by
  cases w <;> rfl

/-- Rewrites the parts of the state that a write of `reconfigure` leaves alone. -/
macro "aw" : tactic => `(tactic| try simp only [applyWrite_store, applyWrite_next, applyWrite_mgr,
  applyWrite_jobs, applyWrite_nextJob, applyWrite_reg, applyWrite_phase, applyWrite_cancels])

theorem mem_step (s s' : State E P X D) (l : Label X) (hm : Mem s) (h : step W s l = some s') :
    Mem s' := by
  obtain ⟨h1, h2, h3⟩ := hm
  cases l <;> simp only [step] at h <;> (repeat' split at h) <;> (try cases h) <;>
    constructor <;> aw <;> grind [upd, snapOf, clear, fill]

/-- Requests that have not submitted a job. -/
def early : Phase P X D → Bool
  | .idle | .chosen _ | .translated _ _ | .kind _ _ _ | .built _ _ _ => true
  | _ => false

/-- Jobs belong to requests. -/
structure Jobs (s : State E P X D) : Prop where
  lt : ∀ j job, s.jobs j = some job → j < s.nextJob
  own : ∀ r j, jobOf (s.phase r) = some j → ∃ job, s.jobs j = some job ∧ job.owner = r
  uniq : ∀ j j' job job', s.jobs j = some job → s.jobs j' = some job' → job.owner = job'.owner → j = j'
  early : ∀ r, early (s.phase r) = true → ∀ j job, s.jobs j = some job → job.owner ≠ r
  awaited : ∀ r n j o, s.phase r = .awaited n j (some o) →
    ∃ job, s.jobs j = some job ∧ job.owner = r ∧ job.status = .finished o
  failed : ∀ r n x, s.phase r = .failed n x →
    ∃ j job, s.jobs j = some job ∧ job.owner = r ∧ job.status = .finished (.errors x)

/-- Stopping jobs changes nothing but running jobs, which become cancelled. -/
theorem stop_iff (jobs : Nat → Option (Job P X)) (j i : Nat) (job' : Job P X) :
    stop jobs j i = some job' ↔ ∃ job, jobs i = some job ∧
      job' = (match job.status with
        | .running => if i = j then { job with status := .cancelled } else job
        | _ => job) := by
  unfold stop
  by_cases hij : i = j
  · subst hij
    cases hj : jobs i with
    | none => simp [hj]
    | some job => cases hs : job.status <;> simp [upd, hj, hs, eq_comm]
  · cases hj : jobs j with
    | none =>
      cases hi : jobs i with
      | none => simp [hi]
      | some job => cases hs : job.status <;> simp [hi, hij, hs, eq_comm]
    | some jb =>
      cases hi : jobs i with
      | none => cases hs : jb.status <;> simp [upd, hi, hij, hs]
      | some job => cases hs : jb.status <;> cases hs' : job.status <;> simp [upd, hi, hij, hs, hs', eq_comm]

/-- Two job tables that agree except for the status of unfinished jobs. -/
def SameJobs (jobs jobs' : Nat → Option (Job P X)) : Prop :=
  ∀ i, (jobs i = none ∧ jobs' i = none) ∨ ∃ job job', jobs i = some job ∧ jobs' i = some job' ∧
    job'.owner = job.owner ∧ job'.prog = job.prog ∧ job'.args = job.args ∧ job'.backend = job.backend ∧
    (∀ o, job.status = .finished o → job'.status = .finished o)

theorem sameJobs_stop (jobs : Nat → Option (Job P X)) (j : Nat) : SameJobs jobs (stop jobs j) := by
  intro i
  cases h : jobs i with
  | none =>
    left
    refine ⟨rfl, ?_⟩
    cases h' : stop jobs j i with
    | none => rfl
    | some job' =>
      obtain ⟨job, hj, -⟩ := (stop_iff jobs j i job').1 h'
      rw [h] at hj; cases hj
  | some job =>
    right
    refine ⟨job, _, rfl, (stop_iff jobs j i _).2 ⟨job, h, rfl⟩, ?_⟩
    cases hs : job.status <;> simp [hs]
    split <;> simp

theorem sameJobs_stopAll (jobs : Nat → Option (Job P X)) : SameJobs jobs (fun j => stop jobs j j) :=
  fun i => sameJobs_stop jobs i i

theorem sameJobs_finish (jobs : Nat → Option (Job P X)) (j : Nat) (job : Job P X) (o : Out X)
    (h : jobs j = some job) (hs : job.status = .running) :
    SameJobs jobs (upd jobs j (some { job with status := .finished o })) := by
  intro i
  by_cases hij : i = j
  · subst hij
    right
    exact ⟨job, { job with status := .finished o }, h, by simp [upd], rfl, rfl, rfl, rfl,
      fun o' h' => by rw [hs] at h'; cases h'⟩
  · cases hi : jobs i with
    | none => left; simp [upd, hij, hi]
    | some jb => right; exact ⟨jb, jb, rfl, by simp [upd, hij, hi], rfl, rfl, rfl, rfl, fun _ h => h⟩

theorem SameJobs.back {jobs jobs' : Nat → Option (Job P X)} (h : SameJobs jobs jobs') {i job'}
    (hi : jobs' i = some job') : ∃ job, jobs i = some job ∧ job.owner = job'.owner ∧ job.prog = job'.prog ∧
      job.args = job'.args ∧ job.backend = job'.backend := by
  rcases h i with ⟨-, h'⟩ | ⟨job, job'', h1, h2, h3, h4, h5, h6, -⟩
  · rw [hi] at h'; cases h'
  · rw [hi] at h2; cases h2; exact ⟨job, h1, h3.symm, h4.symm, h5.symm, h6.symm⟩

theorem SameJobs.forth {jobs jobs' : Nat → Option (Job P X)} (h : SameJobs jobs jobs') {i job}
    (hi : jobs i = some job) : ∃ job', jobs' i = some job' ∧ job'.owner = job.owner ∧
      (∀ o, job.status = .finished o → job'.status = .finished o) := by
  rcases h i with ⟨h', -⟩ | ⟨jb, job'', h1, h2, h3, h4, h5, h6, h7⟩
  · rw [hi] at h'; cases h'
  · rw [hi] at h1; cases h1; exact ⟨job'', h2, h3, h7⟩

theorem jobs_same (s : State E P X D) (jobs' : Nat → Option (Job P X)) (h : SameJobs s.jobs jobs')
    (hj : Jobs s) (s' : State E P X D) (e1 : s'.jobs = jobs') (e2 : s'.nextJob = s.nextJob)
    (e3 : s'.phase = s.phase) : Jobs s' := by
  obtain ⟨h1, h2, h3, h4, h5, h6⟩ := hj
  refine ⟨?_, ?_, ?_, ?_, ?_, ?_⟩ <;> rw [e1] <;> try rw [e2]
  all_goals try rw [e3]
  · intro j job hj
    obtain ⟨jb, hjb, -⟩ := h.back hj
    exact h1 j jb hjb
  · intro r j hr
    obtain ⟨jb, hjb, ho⟩ := h2 r j hr
    obtain ⟨job', hj', ho', -⟩ := h.forth hjb
    exact ⟨job', hj', ho'.trans ho⟩
  · intro j j' job job' hj hj' ho
    obtain ⟨jb, hjb, hob, -⟩ := h.back hj
    obtain ⟨jb', hjb', hob', -⟩ := h.back hj'
    exact h3 j j' jb jb' hjb hjb' (by rw [hob, hob', ho])
  · intro r hr j job hj
    obtain ⟨jb, hjb, hob, -⟩ := h.back hj
    rw [← hob]
    exact h4 r hr j jb hjb
  · intro r n j o hr
    obtain ⟨jb, hjb, ho, hs⟩ := h5 r n j o hr
    obtain ⟨job', hj', ho', hs'⟩ := h.forth hjb
    exact ⟨job', hj', ho'.trans ho, hs' _ hs⟩
  · intro r n x hr
    obtain ⟨j, jb, hjb, ho, hs⟩ := h6 r n x hr
    obtain ⟨job', hj', ho', hs'⟩ := h.forth hjb
    exact ⟨j, job', hj', ho'.trans ho, hs' _ hs⟩

theorem jobs_step (s s' : State E P X D) (l : Label X) (hj : Jobs s) (h : step W s l = some s') :
    Jobs s' := by
  cases l
  case verdict j o =>
    simp only [step] at h
    (repeat' split at h) <;> cases h
    rename_i _ job hjob _ hs
    exact jobs_same s _ (sameJobs_finish s.jobs j job o hjob hs) hj _ rfl rfl rfl
  case kill k =>
    simp only [step] at h
    (repeat' split at h) <;> cases h
    · rename_i t j hc
      exact jobs_same s _ (sameJobs_stop s.jobs j) hj _ rfl rfl rfl
    · obtain ⟨h1, h2, h3, h4, h5, h6⟩ := hj
      exact ⟨h1, h2, h3, h4, h5, h6⟩
  case cancelAll =>
    simp only [step] at h
    split at h <;> cases h
    · exact jobs_same s _ (sameJobs_stopAll s.jobs) hj _ rfl rfl rfl
    · exact hj
  case submit r =>
    obtain ⟨h1, h2, h3, h4, h5, h6⟩ := hj
    simp only [step] at h
    split at h <;> cases h
    rename_i n p a hp
    have hfree : s.jobs s.nextJob = none := by
      cases hf : s.jobs s.nextJob with
      | none => rfl
      | some job => exact absurd (h1 _ _ hf) (Nat.lt_irrefl _)
    have hnot := h4 r (by rw [hp]; rfl)
    refine ⟨?_, ?_, ?_, ?_, ?_, ?_⟩ <;> dsimp only
    · grind [upd]
    · intro r' j hr
      by_cases hrr : r' = r
      · subst hrr
        simp only [upd, if_true, jobOf] at hr
        cases hr
        exact ⟨⟨r', p, a, s.conf.backend, .running⟩, by simp [upd], rfl⟩
      · simp only [upd, hrr, if_false] at hr
        obtain ⟨job, hj, ho⟩ := h2 r' j hr
        have : j ≠ s.nextJob := by rintro rfl; rw [hfree] at hj; cases hj
        exact ⟨job, by simp [upd, this, hj], ho⟩
    · grind [upd]
    · grind [upd, early]
    · intro r' n' j o hr
      by_cases hrr : r' = r
      · subst hrr; simp [upd] at hr
      · simp only [upd, hrr, if_false] at hr
        obtain ⟨job, hj, ho⟩ := h5 r' n' j o hr
        have : j ≠ s.nextJob := by rintro rfl; rw [hfree] at hj; cases hj
        exact ⟨job, by simp [upd, this, hj], ho⟩
    · intro r' n' x hr
      by_cases hrr : r' = r
      · subst hrr; simp [upd] at hr
      · simp only [upd, hrr, if_false] at hr
        obtain ⟨j, job, hj, ho⟩ := h6 r' n' x hr
        have : j ≠ s.nextJob := by rintro rfl; rw [hfree] at hj; cases hj
        exact ⟨j, job, by simp [upd, this, hj], ho⟩
  case await r =>
    obtain ⟨h1, h2, h3, h4, h5, h6⟩ := hj
    simp only [step] at h
    cases hp : s.phase r with
    | registered n j =>
      obtain ⟨job, hjob, ho⟩ := h2 r j (by rw [hp]; rfl)
      simp only [hp, hjob] at h
      split at h <;> cases h <;> constructor <;> grind [upd, jobOf, early]
    | _ => simp [hp] at h
  all_goals
    obtain ⟨h1, h2, h3, h4, h5, h6⟩ := hj
    simp only [step] at h
    (repeat' split at h) <;> (try cases h) <;>
    constructor <;> aw <;> grind [upd, jobOf, early]

/-- The registry contains jobs of waiting requests, under their tokens. -/
structure Reg (W : World E P X D) (s : State E P X D) : Prop where
  reg : ∀ t j, s.reg t = some j → ∃ r n, W.token r = some t ∧
    (s.phase r = .registered n j ∨ ∃ o, s.phase r = .awaited n j o)
  cancels : ∀ k t j, s.cancels k = some (t, some j) →
    ∃ job, s.jobs j = some job ∧ W.token job.owner = some t

theorem step_sameJobs (s s' : State E P X D) (l : Label X) (hj : Jobs s) (h : step W s l = some s')
    {i : Nat} {job : Job P X} (hi : s.jobs i = some job) :
    ∃ job', s'.jobs i = some job' ∧ job'.owner = job.owner ∧
      (∀ o, job.status = .finished o → job'.status = .finished o) := by
  cases l
  case verdict j o =>
    simp only [step] at h
    (repeat' split at h) <;> cases h
    rename_i _ jb hjob _ hs
    exact (sameJobs_finish s.jobs j jb o hjob hs).forth hi
  case kill k =>
    simp only [step] at h
    (repeat' split at h) <;> cases h
    · exact (sameJobs_stop s.jobs _).forth hi
    · exact ⟨job, hi, rfl, fun _ h => h⟩
  case cancelAll =>
    simp only [step] at h
    split at h <;> cases h
    · exact (sameJobs_stopAll s.jobs).forth hi
    · exact ⟨job, hi, rfl, fun _ h => h⟩
  case submit r =>
    simp only [step] at h
    split at h <;> cases h
    have := hj.lt i job hi
    exact ⟨job, by simp [upd, Nat.ne_of_lt this, hi], rfl, fun _ h => h⟩
  all_goals
    simp only [step] at h
    (repeat' split at h) <;> (try cases h) <;> aw <;> exact ⟨job, hi, rfl, fun _ h => h⟩

theorem reg_step (s s' : State E P X D) (l : Label X) (hj : Jobs s) (hr : Reg W s)
    (h : step W s l = some s') : Reg W s' := by
  obtain ⟨h1, h2⟩ := hr
  have hsame := @step_sameJobs _ _ _ _ W s s' l hj h
  have hc : ∀ k t j, s.cancels k = some (t, some j) →
      ∃ job, s'.jobs j = some job ∧ W.token job.owner = some t := by
    intro k t j hk
    obtain ⟨job, hjob, ht⟩ := h2 k t j hk
    obtain ⟨job', hj', ho, -⟩ := hsame hjob
    exact ⟨job', hj', by rw [ho, ht]⟩
  cases l
  case lookup k t =>
    simp only [step] at h
    split at h <;> cases h
    refine ⟨h1, ?_⟩
    intro k' t' j hk'
    by_cases hkk : k' = k
    · subst hkk
      simp only [upd, if_true, Option.some.injEq, Prod.mk.injEq] at hk'
      obtain ⟨rfl, hreg⟩ := hk'
      split at hreg
      · obtain ⟨r, n, ht, hp⟩ := h1 t j hreg
        obtain ⟨job, hjob, ho⟩ := hj.own r j (by rcases hp with hp | ⟨o, hp⟩ <;> rw [hp] <;> rfl)
        exact ⟨job, hjob, by rw [ho, ht]⟩
      · cases hreg
    · simp only [upd, hkk, if_false] at hk'
      exact hc k' t' j hk'
  case register r =>
    simp only [step] at h
    cases hp : s.phase r with
    | submitted n j =>
      simp only [hp] at h
      cases h
      refine ⟨?_, fun k t j hk => hc k t j hk⟩
      intro t j' hreg
      dsimp only at hreg ⊢
      by_cases hown : W.token r = some t ∧ j' = j
      · exact ⟨r, n, hown.1, Or.inl (by simp [upd, hown.2])⟩
      · have hreg' : s.reg t = some j' := by
          revert hreg
          cases htok : W.token r with
          | none => exact id
          | some t' =>
            simp only
            by_cases htt : t = t'
            · subst htt
              simp only [upd, if_true, Option.some.injEq]
              intro hreg
              exact absurd ⟨htok, hreg.symm⟩ hown
            · simp [upd, htt]
        obtain ⟨r', n', ht, hp'⟩ := h1 t j' hreg'
        have : r' ≠ r := by rintro rfl; rw [hp] at hp'; simp at hp'
        exact ⟨r', n', ht, by simpa [upd, this] using hp'⟩
    | _ => simp [hp] at h
  case unregister r =>
    simp only [step] at h
    cases hp : s.phase r with
    | awaited n j o =>
      simp only [hp] at h
      cases h
      refine ⟨?_, fun k t j hk => hc k t j hk⟩
      intro t j' hreg
      dsimp only at hreg ⊢
      have hreg' : s.reg t = some j' ∧ (W.token r = some t → j' ≠ j) := by
        revert hreg
        cases htok : W.token r with
        | none => simp
        | some t' =>
          simp only
          split
          · rename_i hh
            by_cases htt : t = t'
            · subst htt; simp [upd]
            · simp only [upd, htt, if_false]
              intro hreg
              exact ⟨hreg, fun h => absurd (Option.some.inj h).symm htt⟩
          · rename_i hh
            intro hreg
            refine ⟨hreg, fun h => ?_⟩
            cases h
            rintro rfl
            exact hh hreg
      obtain ⟨r', n', ht, hp'⟩ := h1 t j' hreg'.1
      have : r' ≠ r := by
        rintro rfl
        rw [hp] at hp'
        simp at hp'
        exact hreg'.2 ht hp'.2.symm
      exact ⟨r', n', ht, by simpa [upd, this] using hp'⟩
    | _ => simp [hp] at h
  case await r =>
    simp only [step] at h
    cases hp : s.phase r with
    | registered n j =>
      obtain ⟨job, hjob, ho⟩ := hj.own r j (by rw [hp]; rfl)
      simp only [hp, hjob] at h
      split at h <;> cases h
      all_goals
        refine ⟨?_, fun k t j hk => hc k t j hk⟩
        intro t j' hreg
        obtain ⟨r', n', ht, hp'⟩ := h1 t j' hreg
        by_cases hrr : r' = r
        · subst hrr
          rw [hp] at hp'
          simp at hp'
          obtain ⟨rfl, rfl⟩ := hp'
          exact ⟨r', n, ht, Or.inr ⟨_, if_pos rfl⟩⟩
        · exact ⟨r', n', ht, by simpa [upd, hrr] using hp'⟩
    | _ => simp [hp] at h
  case kill k =>
    simp only [step] at h
    (repeat' split at h) <;> cases h
    all_goals
      refine ⟨h1, fun k' t j hk => ?_⟩
      refine hc k' t j ?_
      simp only [upd] at hk
      split at hk
      · cases hk
      · exact hk
  all_goals
    simp only [step] at h
    (repeat' split at h) <;> (try cases h) <;>
    first
    | exact ⟨h1, fun k t j hk => hc k t j hk⟩
    | (refine ⟨?_, fun k t j hk => hc k t j (by simpa using hk)⟩
       aw
       intro t j' hreg
       obtain ⟨r', n', ht, hp'⟩ := h1 t j' hreg
       refine ⟨r', n', ht, ?_⟩
       grind [upd])

end Nagini.Service
