import Verif.Lemmas.Service

/-! Invariants of the verification service: configurations, results, registrations. -/
set_option linter.unusedVariables false
set_option linter.unusedSimpArgs false
namespace Nagini.Service

variable {E P X D : Type} {W : World E P X D}

/-! ### Configuration and resources -/

theorem foldl_lock (ws : List Write) (s : State E P X D) (x : Option (List Write)) :
    ws.foldl applyWrite { s with lock := x } = { ws.foldl applyWrite s with lock := x } := by
  induction ws generalizing s with
  | nil => rfl
  | cons w ws ih =>
    simp only [List.foldl_cons]
    rw [← ih]
    cases w <;> rfl

/-- The resources belong to the configuration, or will when `reconfigure` has finished. -/
def Settled (s : State E P X D) : Prop :=
  match s.lock with
  | none => s.res = load s.conf
  | some ws => (ws.foldl applyWrite s).res = load (ws.foldl applyWrite s).conf

/-- Writes that do not need a reload. -/
def plain : Write → Bool
  | .backend _ | .server _ | .branch _ | .tools _ => true
  | _ => false

theorem foldl_plain (ws : List Write) (h : ∀ w ∈ ws, plain w = true) (s : State E P X D)
    (hs : s.res = load s.conf) : (ws.foldl applyWrite s).res = load (ws.foldl applyWrite s).conf := by
  induction ws generalizing s with
  | nil => exact hs
  | cons w ws ih =>
    simp only [List.foldl_cons]
    refine ih (fun w hw => h w (List.mem_cons_of_mem _ hw)) _ ?_
    have := h w List.mem_cons_self
    cases w <;> first | exact hs | simp [plain] at this

theorem foldl_writes (s : State E P X D) (o : Options) (hs : s.res = load s.conf) :
    ((writes s.conf o).foldl applyWrite s).res = load ((writes s.conf o).foldl applyWrite s).conf := by
  unfold writes
  dsimp only
  split
  · rename_i hc
    rw [List.isEmpty_iff.1 hc]
    refine foldl_plain _ ?_ s hs
    intro w hw
    rcases o with ⟨b, sv, br, sf, bv, fl, tl⟩
    cases b <;> cases sv <;> cases br <;> cases tl <;> simp at hw <;>
      (try rcases hw with hw | hw) <;> (try rcases hw with hw | hw) <;> (try rcases hw with hw | hw) <;>
      simp_all [plain]
  · rw [List.foldl_append]
    rfl

theorem foldl_congr (ws : List Write) (s1 s2 : State E P X D) (h1 : s1.conf = s2.conf)
    (h2 : s1.res = s2.res) : (ws.foldl applyWrite s1).conf = (ws.foldl applyWrite s2).conf ∧
      (ws.foldl applyWrite s1).res = (ws.foldl applyWrite s2).res := by
  induction ws generalizing s1 s2 with
  | nil => exact ⟨h1, h2⟩
  | cons w ws ih => refine ih _ _ ?_ ?_ <;> cases w <;> simp [applyWrite, h1, h2]

theorem settled_congr (s s' : State E P X D) (h1 : s'.conf = s.conf) (h2 : s'.res = s.res)
    (h3 : s'.lock = s.lock) (hs : Settled s) : Settled s' := by
  unfold Settled at hs ⊢
  rw [h3]
  cases hl : s.lock with
  | none => rw [hl] at hs; dsimp only at hs ⊢; rw [h1, h2, hs]
  | some ws =>
    rw [hl] at hs
    dsimp only at hs ⊢
    obtain ⟨k1, k2⟩ := foldl_congr ws s' s h1 h2
    rw [k1, k2, hs]

theorem settled_step (s s' : State E P X D) (l : Label X) (hs : Settled s) (h : step W s l = some s') :
    Settled s' := by
  cases l
  case reconfigure o =>
    simp only [step] at h
    split at h <;> cases h
    rename_i hl
    unfold Settled at hs ⊢
    rw [hl] at hs
    dsimp only
    rw [foldl_lock]
    exact foldl_writes s o hs
  case write =>
    simp only [step] at h
    split at h <;> cases h
    rename_i w ws hl
    unfold Settled at hs ⊢
    rw [hl] at hs
    dsimp only
    rw [foldl_lock]
    exact hs
  case unlock =>
    simp only [step] at h
    split at h <;> cases h
    rename_i hl
    unfold Settled at hs ⊢
    rw [hl] at hs
    exact hs
  all_goals
    simp only [step] at h
    (repeat' split at h) <;> (try cases h) <;> exact settled_congr s _ rfl rfl rfl hs

/-! ### Frames -/

/-- The request that performs a step. -/
def actor : Label X → Option Nat
  | .choose r | .translate r | .readKind r | .build r | .submit r | .register r | .await r
  | .unregister r | .convert r | .serial r _ => some r
  | _ => none

theorem phase_frame (s s' : State E P X D) (l : Label X) (h : step W s l = some s') (r : Nat)
    (hr : actor l ≠ some r) : s'.phase r = s.phase r := by
  cases l <;> simp only [step] at h <;> (repeat' split at h) <;> (try cases h) <;> aw <;>
    (try rfl) <;> simp only [actor, ne_eq, Option.some.injEq] at hr <;>
    simp [upd, Ne.symm hr]

theorem done_frame (s s' : State E P X D) (l : Label X) (h : step W s l = some s') (r : Nat)
    (x : Result D) (hr : s.phase r = .done x) : s'.phase r = .done x := by
  by_cases ha : actor l = some r
  · cases l <;> simp only [actor, Option.some.injEq, reduceCtorEq] at ha <;> subst ha <;>
      simp [step, hr] at h
  · rw [phase_frame s s' l h r ha, hr]

theorem store_frame (s s' : State E P X D) (l : Label X) (hm : Mem s) (h : step W s l = some s')
    (r n : Nat) (h1 : snapOf (s.phase r) = some n) (h2 : snapOf (s'.phase r) = some n) :
    s'.store n = s.store n := by
  obtain ⟨m1, m2, m3⟩ := hm
  obtain ⟨hlt, hne⟩ := m2 r n h1
  cases l
  case translate r' =>
    simp only [step] at h
    (repeat' split at h) <;> cases h
    · simp [fill, clear, upd, hne]
    · simp [fill, clear, upd, hne, Nat.ne_of_lt hlt]
  case serial r' o =>
    simp only [step] at h
    (repeat' split at h) <;> cases h
    all_goals simp [fill, clear, upd, hne]
  case convert r' =>
    simp only [step] at h
    (repeat' split at h) <;> cases h
    rename_i n' x hp hl
    have hnn : n ≠ n' := by
      rintro rfl
      have := m3 r r' n h1 (by rw [hp]; rfl)
      subst this
      simp [upd, snapOf] at h2
    simp [clear, upd, hnn]
  all_goals
    simp only [step] at h
    (repeat' split at h) <;> (try cases h) <;> aw

theorem jobs_back (s s' : State E P X D) (l : Label X) (h : step W s l = some s') (j : Nat)
    (job' : Job P X) (hj : s'.jobs j = some job') :
    (∃ job, s.jobs j = some job ∧ job.owner = job'.owner ∧ job.prog = job'.prog ∧
      job.args = job'.args ∧ job.backend = job'.backend) ∨
    (∃ r n p a, l = .submit r ∧ s.phase r = .built n p a ∧ j = s.nextJob ∧
      job' = ⟨r, p, a, s.conf.backend, .running⟩) := by
  cases l
  case verdict j' o =>
    simp only [step] at h
    (repeat' split at h) <;> cases h
    rename_i _ jb hjob _ hs
    exact Or.inl ((sameJobs_finish s.jobs j' jb o hjob hs).back hj)
  case kill k =>
    simp only [step] at h
    (repeat' split at h) <;> cases h
    · exact Or.inl ((sameJobs_stop s.jobs _).back hj)
    · exact Or.inl ⟨job', hj, rfl, rfl, rfl, rfl⟩
  case cancelAll =>
    simp only [step] at h
    split at h <;> cases h
    · exact Or.inl ((sameJobs_stopAll s.jobs).back hj)
    · exact Or.inl ⟨job', hj, rfl, rfl, rfl, rfl⟩
  case submit r =>
    simp only [step] at h
    split at h <;> cases h
    rename_i n p a hp
    dsimp only [upd] at hj
    split at hj
    · cases hj
      exact Or.inr ⟨r, n, p, a, rfl, hp, by assumption, rfl⟩
    · exact Or.inl ⟨job', hj, rfl, rfl, rfl, rfl⟩
  all_goals
    simp only [step] at h
    (repeat' split at h) <;> (try cases h) <;> (try simp only [applyWrite_jobs] at hj) <;>
    exact Or.inl ⟨job', hj, rfl, rfl, rfl, rfl⟩

/-! ### Everything together -/

/-- All invariants. -/
structure Inv (W : World E P X D) (s : State E P X D) : Prop where
  mem : Mem s
  jobs : Jobs s
  reg : Reg W s
  settled : Settled s

theorem inv_init (c : Conf) : Inv W (init c) := by
  refine ⟨⟨Nat.zero_lt_one, ?_, ?_⟩, ⟨?_, ?_, ?_, ?_, ?_, ?_⟩, ⟨?_, ?_⟩, rfl⟩ <;> simp [init, snapOf, jobOf]

theorem inv_step (s s' : State E P X D) (l : Label X) (hi : Inv W s) (h : step W s l = some s') :
    Inv W s' :=
  ⟨mem_step s s' l hi.mem h, jobs_step s s' l hi.jobs h, reg_step s s' l hi.jobs hi.reg h,
    settled_step s s' l hi.settled h⟩

theorem inv_run (c : Conf) (ls : List (Label X)) (s : State E P X D)
    (h : run W (init c) ls = some s) : Inv W s :=
  run_inv (fun _ s => Inv W s) _ (inv_init c) (fun _ s l s' hi hs => inv_step s s' l hi hs) ls s h

/-! ### Results -/

/-- Diagnostics are computed from the request's own translation and errors. -/
def OwnResults (W : World E P X D) (ls : List (Label X)) (s : State E P X D) : Prop :=
  (∀ r n, snapOf (s.phase r) = some n → ∃ c, s.store n = (W.translate r false c.bv c.float (load c)).dict) ∧
  ∀ r d, s.phase r = .done (.diagnostics d) → ∃ b c x sif,
    d = W.convert (W.translate r b c.bv c.float (load c)).dict x sif ∧ Reported ls s r x

theorem reported_step (ls : List (Label X)) (s s' : State E P X D) (l : Label X) (hj : Jobs s)
    (h : step W s l = some s') (r : Nat) (x : X) (hr : Reported ls s r x) :
    Reported (ls ++ [l]) s' r x := by
  rcases hr with hr | ⟨j, job, hjob, ho, hs⟩
  · exact Or.inl (List.mem_append_left _ hr)
  · obtain ⟨job', hj', ho', hs'⟩ := step_sameJobs s s' l hj h hjob
    exact Or.inr ⟨j, job', hj', ho'.trans ho, hs' _ hs⟩

theorem fill_clear (st : Nat → List E × List E) (m : Nat) (d : List E × List E) :
    fill (clear st m) m d m = d := by simp [fill, clear, upd]

theorem own_step (ls : List (Label X)) (s s' : State E P X D) (l : Label X) (hi : Inv W s)
    (ho : OwnResults W ls s) (h : step W s l = some s') : OwnResults W (ls ++ [l]) s' := by
  obtain ⟨h1, h2⟩ := ho
  have hrep := fun r x => reported_step ls s s' l hi.jobs h r x
  have hdone : ∀ r d, s.phase r = .done (.diagnostics d) → ∃ b c x sif,
      d = W.convert (W.translate r b c.bv c.float (load c)).dict x sif ∧ Reported (ls ++ [l]) s' r x := by
    intro r d hd
    obtain ⟨b, c, x, sif, e, hx⟩ := h2 r d hd
    exact ⟨b, c, x, sif, e, hrep r x hx⟩
  -- requests that keep their dictionaries
  have hkeep : ∀ r n, snapOf (s.phase r) = some n → snapOf (s'.phase r) = some n →
      ∃ c, s'.store n = (W.translate r false c.bv c.float (load c)).dict := by
    intro r n hn hn'
    obtain ⟨c, hc⟩ := h1 r n hn
    exact ⟨c, (store_frame s s' l hi.mem h r n hn hn').trans hc⟩
  have hset := hi.settled
  cases l
  case translate r' =>
    simp only [step] at h
    split at h
    case h_2 => cases h
    rename_i hp hl
    have hres : s.res = load s.conf := by unfold Settled at hset; rwa [hl] at hset
    split at h <;> cases h
    · refine ⟨fun r n hn => ?_, fun r d hd => ?_⟩ <;> by_cases hrr : r = r'
      · subst hrr; simp [upd, snapOf] at hn
      · exact hkeep r n (by simpa [upd, hrr] using hn) hn
      · subst hrr; simp [upd] at hd
      · exact hdone r d (by simpa [upd, hrr] using hd)
    · refine ⟨fun r n hn => ?_, fun r d hd => ?_⟩ <;> by_cases hrr : r = r'
      · subst hrr
        simp only [upd, if_true, snapOf, Option.some.injEq] at hn
        subst hn
        refine ⟨s.conf, ?_⟩
        have := Nat.ne_of_gt hi.mem.mgr_lt
        rw [← hres]
        simp only [clear, upd, this, if_false, if_true]
        exact fill_clear _ _ _
      · exact hkeep r n (by simpa [upd, hrr] using hn) hn
      · subst hrr; simp [upd] at hd
      · exact hdone r d (by simpa [upd, hrr] using hd)
  case convert r' =>
    simp only [step] at h
    split at h <;> cases h
    rename_i n' x hp hl
    refine ⟨fun r n hn => ?_, fun r d hd => ?_⟩ <;> by_cases hrr : r = r'
    · subst hrr; simp [upd, snapOf] at hn
    · exact hkeep r n (by simpa [upd, hrr] using hn) hn
    · subst hrr
      simp only [upd, if_true, Phase.done.injEq, Result.diagnostics.injEq] at hd
      obtain ⟨c, hc⟩ := h1 r n' (by rw [hp]; rfl)
      refine ⟨false, c, x, s.conf.sif, ?_, Or.inr (hi.jobs.failed r n' x hp)⟩
      rw [← hd, hc]
    · exact hdone r d (by simpa [upd, hrr] using hd)
  case serial r' o =>
    simp only [step] at h
    split at h <;> cases h
    rename_i hp hl
    have hres : s.res = load s.conf := by unfold Settled at hset; rwa [hl] at hset
    refine ⟨fun r n hn => ?_, fun r d hd => ?_⟩ <;> by_cases hrr : r = r'
    · subst hrr; simp [upd, snapOf] at hn
    · exact hkeep r n (by simpa [upd, hrr] using hn) hn
    · subst hrr
      simp only [upd, if_true, Phase.done.injEq] at hd
      split at hd
      all_goals try cases hd
      rename_i x' e
      refine ⟨s.conf.sif, s.conf, x', s.conf.sif, ?_, Or.inl (by simp)⟩
      rw [← hres, fill_clear]
    · exact hdone r d (by simpa [upd, hrr] using hd)
  all_goals
    refine ⟨fun r n hn => hkeep r n ?_ hn, fun r d hd => hdone r d ?_⟩
    all_goals
      simp only [step] at h
      (repeat' split at h) <;> (try cases h) <;> (try simp only [applyWrite_phase] at *) <;>
      grind [upd, snapOf]

theorem own_run (c : Conf) (ls : List (Label X)) (s : State E P X D)
    (h : run W (init c) ls = some s) : OwnResults W ls s := by
  refine (run_inv (fun ls s => Inv W s ∧ OwnResults W ls s) _ ⟨inv_init c, ?_⟩
    (fun ls s l s' hi hs => ⟨inv_step s s' l hi.1 hs, own_step ls s s' l hi.1 hi.2 hs⟩) ls s h).2
  constructor <;> simp [init, snapOf]

/-! ### Success -/

/-- The program a request is about to submit. -/
def progOf : Phase P X D → Option P
  | .translated _ p | .kind _ p _ | .built _ p _ => some p
  | _ => none

/-- Programs come from the own translation, and success is that of an own job. -/
def OwnProgs (W : World E P X D) (ls : List (Label X)) (s : State E P X D) : Prop :=
  (∀ r p, progOf (s.phase r) = some p → ∃ c, (W.translate r false c.bv c.float (load c)).out = .ok p) ∧
  (∀ j job, s.jobs j = some job →
    ∃ c, (W.translate job.owner false c.bv c.float (load c)).out = .ok job.prog) ∧
  ∀ r, s.phase r = .done .success → Label.serial r .ok ∈ ls ∨
    ∃ j job, s.jobs j = some job ∧ job.owner = r ∧ job.status = .finished .ok

theorem progs_step (ls : List (Label X)) (s s' : State E P X D) (l : Label X) (hi : Inv W s)
    (ho : OwnProgs W ls s) (h : step W s l = some s') : OwnProgs W (ls ++ [l]) s' := by
  obtain ⟨h1, h2, h3⟩ := ho
  have hset := hi.settled
  have hjobs : ∀ j job, s'.jobs j = some job →
      ∃ c, (W.translate job.owner false c.bv c.float (load c)).out = .ok job.prog := by
    intro j job hj
    rcases jobs_back s s' l h j job hj with ⟨jb, hjb, e1, e2, e3, e4⟩ | ⟨r', n, p, a, rfl, hp, rfl, rfl⟩
    · obtain ⟨c, hc⟩ := h2 j jb hjb
      exact ⟨c, by rw [← e1, ← e2]; exact hc⟩
    · exact h1 r' p (by rw [hp]; rfl)
  have hdone : ∀ r, s.phase r = .done .success → Label.serial r .ok ∈ ls ++ [l] ∨
      ∃ j job, s'.jobs j = some job ∧ job.owner = r ∧ job.status = .finished .ok := by
    intro r hd
    rcases h3 r hd with h' | ⟨j, job, hj, ho, hs⟩
    · exact Or.inl (List.mem_append_left _ h')
    · obtain ⟨job', hj', ho', hs'⟩ := step_sameJobs s s' l hi.jobs h hj
      exact Or.inr ⟨j, job', hj', ho'.trans ho, hs' _ hs⟩
  refine ⟨?_, hjobs, ?_⟩
  · intro r p hp
    cases l
    case translate r' =>
      simp only [step] at h
      split at h
      case h_2 => cases h
      rename_i hp' hl
      have hres : s.res = load s.conf := by unfold Settled at hset; rwa [hl] at hset
      split at h <;> cases h
      · grind [upd, progOf]
      · rename_i p' hok
        by_cases hrr : r = r'
        · subst hrr
          simp only [upd, if_true, progOf, Option.some.injEq] at hp
          subst hp
          exact ⟨s.conf, by rw [← hres]; exact hok⟩
        · exact h1 r p (by simpa [upd, hrr] using hp)
    all_goals
      refine h1 r p ?_
      simp only [step] at h
      (repeat' split at h) <;> (try cases h) <;> (try simp only [applyWrite_phase] at *) <;>
      grind [upd, progOf]
  · intro r hd
    cases l
    case serial r' o =>
      by_cases hrr : r = r'
      · subst hrr
        cases o with
        | ok => exact Or.inl (by simp)
        | errors x | none =>
          exfalso
          simp only [step] at h
          split at h <;> cases h
          simp only [upd, if_true, Phase.done.injEq] at hd
          split at hd <;> simp_all
      · refine hdone r ?_
        rw [← phase_frame s s' _ h r (by simpa [actor] using Ne.symm hrr)]
        exact hd
    case unregister r' =>
      by_cases hrr : r = r'
      · subst hrr
        have haw := fun n j o hp => hi.jobs.awaited r n j o hp
        simp only [step] at h
        split at h <;> cases h
        rename_i n j o hp
        simp only [upd, if_true] at hd
        rcases o with _ | (x | _ | _) <;> simp at hd
        obtain ⟨job, k1, k2, k3⟩ := haw n j _ hp
        exact Or.inr ⟨j, job, k1, k2, k3⟩
      · refine hdone r ?_
        rw [← phase_frame s s' _ h r (by simpa [actor] using Ne.symm hrr)]
        exact hd
    all_goals
      refine hdone r ?_
      simp only [step] at h
      (repeat' split at h) <;> (try cases h) <;> (try simp only [applyWrite_phase] at *) <;>
      grind [upd]

theorem progs_run (c : Conf) (ls : List (Label X)) (s : State E P X D)
    (h : run W (init c) ls = some s) : OwnProgs W ls s := by
  refine (run_inv (fun ls s => Inv W s ∧ OwnProgs W ls s) _ ⟨inv_init c, ?_⟩
    (fun ls s l s' hi hs => ⟨inv_step s s' l hi.1 hs, progs_step ls s s' l hi.1 hi.2 hs⟩) ls s h).2
  refine ⟨?_, ?_, ?_⟩ <;> simp [init, progOf]

/-! ### One configuration -/

/-- What holds of a request all of whose reads find `c`. -/
def PhaseOk (W : World E P X D) (c : Conf) (r : Nat) (store : Nat → List E × List E) :
    Phase P X D → Prop
  | .idle => True
  | .chosen b => b = true ↔ Overlaps c (W.arp r)
  | .translated n p => Overlaps c (W.arp r) ∧ (translationOf W c r).out = .ok p ∧
      store n = (translationOf W c r).dict
  | .kind n p k => Overlaps c (W.arp r) ∧ (translationOf W c r).out = .ok p ∧
      store n = (translationOf W c r).dict ∧ (k = true ↔ c.backend = .carbon)
  | .built n p a => Overlaps c (W.arp r) ∧ (translationOf W c r).out = .ok p ∧
      store n = (translationOf W c r).dict ∧ a = argsOf c
  | .submitted n _ | .registered n _ | .awaited n _ _ | .failed n _ =>
      Overlaps c (W.arp r) ∧ (∃ p, (translationOf W c r).out = .ok p) ∧
        store n = (translationOf W c r).dict
  | .done res => ∃ o, res = resultOf W c r o

/-- What holds of a request and its jobs. -/
def Under (W : World E P X D) (c : Conf) (r : Nat) (s : State E P X D) : Prop :=
  PhaseOk W c r s.store (s.phase r) ∧
    ∀ j job, s.jobs j = some job → job.owner = r → JobOf W c r job

theorem phaseOk_congr (c : Conf) (r : Nat) (st st' : Nat → List E × List E) (p : Phase P X D)
    (h : ∀ n, snapOf p = some n → st' n = st n) (hp : PhaseOk W c r st p) : PhaseOk W c r st' p := by
  cases p <;> simp only [PhaseOk, snapOf] at * <;> first | exact hp | (rw [h _ rfl]; exact hp)

theorem overlaps_iff (c : Conf) (arp : Bool) : concurrent c arp = true ↔ Overlaps c arp := by
  unfold concurrent Overlaps
  cases arp <;> cases c.sif <;> cases c.backend <;> cases c.server <;> decide

theorem translation_overlaps (c : Conf) (r : Nat) (h : Overlaps c (W.arp r)) :
    W.translate r false c.bv c.float (load c) = translationOf W c r := by
  unfold translationOf load
  rw [h.2.1]

theorem under_step (s s' : State E P X D) (l : Label X) (c : Conf) (r : Nat) (hi : Inv W s)
    (hu : Under W c r s) (hc : readsConf r l → s.conf = c) (h : step W s l = some s') :
    Under W c r s' := by
  obtain ⟨h1, h2⟩ := hu
  -- jobs
  have hjobs : ∀ j job, s'.jobs j = some job → job.owner = r → JobOf W c r job := by
    intro j job hj ho
    rcases jobs_back s s' l h j job hj with ⟨jb, hjb, e1, e2, e3, e4⟩ | ⟨r', n, p, a, rfl, hp, rfl, rfl⟩
    · obtain ⟨k1, k2, k3⟩ := h2 j jb hjb (e1.trans ho)
      exact ⟨by rw [← e2]; exact k1, by rw [← e3]; exact k2, by rw [← e4]; exact k3⟩
    · dsimp only at ho
      subst ho
      rw [hp] at h1
      obtain ⟨-, k1, -, k2⟩ := h1
      exact ⟨k1, k2, by rw [hc rfl]⟩
  refine ⟨?_, hjobs⟩
  by_cases ha : actor l = some r
  · have hset := hi.settled
    have hst := store_frame s s' l hi.mem h r
    cases l <;> simp only [actor, Option.some.injEq, reduceCtorEq] at ha <;> subst ha
    case choose r =>
      have hc := hc rfl
      simp only [step] at h
      split at h <;> cases h
      simp only [upd, if_true, PhaseOk]
      rw [hc]
      exact overlaps_iff c _
    case translate r =>
      have hc := hc rfl
      simp only [step] at h
      split at h
      case h_2 => cases h
      rename_i hp hl
      have hres : s.res = load s.conf := by unfold Settled at hset; rwa [hl] at hset
      rw [hp] at h1
      have hov : Overlaps c (W.arp r) := h1.1 rfl
      have htr : W.translate r false s.conf.bv s.conf.float s.res = translationOf W c r := by
        rw [hres, hc]; exact translation_overlaps c r hov
      rw [htr] at h
      split at h <;> cases h
      · rename_i d hd
        simp only [upd, if_true, PhaseOk]
        exact ⟨none, by unfold resultOf; rw [hd]⟩
      · rename_i p hp'
        simp only [upd, if_true, PhaseOk]
        refine ⟨hov, hp', ?_⟩
        have := Nat.ne_of_gt hi.mem.mgr_lt
        simp only [clear, upd, this, if_false, if_true]
        exact fill_clear _ _ _
    case readKind r =>
      have hc := hc rfl
      simp only [step] at h
      split at h <;> cases h
      rename_i n p hp
      rw [hp] at h1
      obtain ⟨k1, k2, k3⟩ := h1
      simp only [upd, if_true, PhaseOk]
      refine ⟨k1, k2, k3, ?_⟩
      rw [hc]; simp
    case build r =>
      have hc := hc rfl
      simp only [step] at h
      split at h <;> cases h
      rename_i n p k hp
      rw [hp] at h1
      obtain ⟨k1, k2, k3, k4⟩ := h1
      simp only [upd, if_true, PhaseOk]
      refine ⟨k1, k2, k3, ?_⟩
      unfold argsOf
      rw [hc]
      cases k with
      | true => rw [if_pos rfl, if_pos (k4.1 rfl)]
      | false => rw [if_neg (by simp), if_neg (fun h => by simpa using k4.2 h)]
    case submit r =>
      simp only [step] at h
      split at h <;> cases h
      rename_i n p a hp
      rw [hp] at h1
      obtain ⟨k1, k2, k3, -⟩ := h1
      simp only [upd, if_true, PhaseOk]
      exact ⟨k1, ⟨p, k2⟩, k3⟩
    case register r =>
      simp only [step] at h
      split at h <;> cases h
      rename_i n j hp
      rw [hp] at h1
      simpa only [upd, if_true, PhaseOk] using h1
    case await r =>
      simp only [step] at h
      (repeat' split at h) <;> cases h
      all_goals
        rename_i n j hp _ _ _ _ _
        simp only [upd, if_true, PhaseOk]
        have := h1
        simp_all [PhaseOk]
    case unregister r =>
      simp only [step] at h
      split at h <;> cases h
      rename_i n j o hp
      rw [hp] at h1
      obtain ⟨k1, ⟨p, k2⟩, k3⟩ := h1
      simp only [upd, if_true]
      rcases o with _ | (x | _ | _)
      · exact ⟨none, by unfold resultOf; rw [k2]⟩
      · exact ⟨k1, ⟨p, k2⟩, k3⟩
      · exact ⟨some .ok, by unfold resultOf; rw [k2]⟩
      · exact ⟨some .none, by unfold resultOf; rw [k2]⟩
    case convert r =>
      have hc := hc rfl
      simp only [step] at h
      split at h <;> cases h
      rename_i n x hp hl
      rw [hp] at h1
      obtain ⟨k1, ⟨p, k2⟩, k3⟩ := h1
      simp only [upd, if_true, PhaseOk]
      exact ⟨some (.errors x), by unfold resultOf; rw [k2, k3, hc]⟩
    case serial r o =>
      have hc := hc rfl
      simp only [step] at h
      split at h <;> cases h
      rename_i hp hl
      have hres : s.res = load s.conf := by unfold Settled at hset; rwa [hl] at hset
      simp only [upd, if_true, PhaseOk]
      refine ⟨some o, ?_⟩
      rw [fill_clear, hres, hc]
      unfold resultOf
      change _ = match (translationOf W c r).out, some o with
        | .error d, _ => Result.translationFailed d
        | .ok _, none => .cancelled
        | .ok _, some (.errors x) => .diagnostics (W.convert (translationOf W c r).dict x c.sif)
        | .ok _, some .ok => .success
        | .ok _, some .none => .internal
      have e : W.translate r c.sif c.bv c.float (load c) = translationOf W c r := rfl
      rw [e]
      cases (translationOf W c r).out <;> cases o <;> rfl
  · have hp := phase_frame s s' l h r ha
    rw [hp]
    refine phaseOk_congr c r s.store s'.store _ ?_ h1
    intro n hn
    exact store_frame s s' l hi.mem h r n hn (by rw [hp]; exact hn)

theorem under_run (c : Conf) (r : Nat) (ls : List (Label X)) (s s' : State E P X D) (hi : Inv W s)
    (hu : Under W c r s) (hr : ReadsOnly W r c s ls) (h : run W s ls = some s') : Under W c r s' := by
  induction ls generalizing s with
  | nil => cases h; exact hu
  | cons l ls ih =>
    simp only [run] at h
    cases hs : step W s l with
    | none => rw [hs] at h; cases h
    | some s1 =>
      rw [hs] at h
      exact ih s1 (inv_step s s1 l hi hs) (under_step s s1 l c r hi hu hr.1 hs) (hr.2 s1 hs) h

/-! ### Registrations -/

theorem lastRegistered_snoc (t : Nat) (ls : List (Label X)) (l : Label X) :
    lastRegistered W t (ls ++ [l]) = (match l with
      | .register r => if W.token r = some t then some r else lastRegistered W t ls
      | _ => lastRegistered W t ls) := by
  unfold lastRegistered
  simp only [List.reverse_append, List.reverse_singleton, List.singleton_append, List.findSome?_cons]
  cases l <;> simp
  rename_i r
  by_cases ht : W.token r = some t <;> simp [ht]

/-- The request registered last is found under its token as long as it waits. -/
def RegLast (W : World E P X D) (ls : List (Label X)) (s : State E P X D) : Prop :=
  ∀ t r n j, lastRegistered W t ls = some r →
    (s.phase r = .registered n j ∨ ∃ o, s.phase r = .awaited n j o) → s.reg t = some j

theorem lastRegistered_token (t : Nat) (ls : List (Label X)) (r : Nat)
    (h : lastRegistered W t ls = some r) : W.token r = some t := by
  unfold lastRegistered at h
  obtain ⟨l, -, hl⟩ := List.exists_of_findSome?_eq_some h
  split at hl
  · split at hl
    · cases hl; assumption
    · cases hl
  · cases hl

/-- A request registers only once. -/
def RegOnce (W : World E P X D) (ls : List (Label X)) (s : State E P X D) : Prop :=
  ∀ t r n j, lastRegistered W t ls = some r → s.phase r ≠ .submitted n j ∧ early (s.phase r) = false

theorem regLast_step (ls : List (Label X)) (s s' : State E P X D) (l : Label X) (hi : Inv W s)
    (hr : RegLast W ls s) (hro : RegOnce W ls s) (h : step W s l = some s') :
    RegLast W (ls ++ [l]) s' ∧ RegOnce W (ls ++ [l]) s' := by
  have hown := hi.jobs.own
  have key : (∀ r0, l ≠ .register r0) → (∀ t, lastRegistered W t (ls ++ [l]) = lastRegistered W t ls) := by
    intro hne t
    rw [lastRegistered_snoc]
    cases l <;> first | rfl | exact absurd rfl (hne _)
  cases l
  case register r0 =>
    simp only [step] at h
    split at h <;> cases h
    rename_i n0 j0 hp0
    refine ⟨?_, ?_⟩
    · intro t r n j hl hp
      rw [lastRegistered_snoc] at hl
      dsimp only at hl hp ⊢
      split at hl
      · rename_i ht
        cases hl
        simp only [upd, if_true, reduceCtorEq, exists_false, or_false, Phase.registered.injEq] at hp
        rw [ht]
        simp [upd, hp.2]
      · rename_i ht
        by_cases hrr : r = r0
        · subst hrr; exact absurd hp0 (hro t r n0 j0 hl).1
        · simp only [upd, hrr, if_false] at hp
          have := hr t r n j hl hp
          cases htok : W.token r0 with
          | none => exact this
          | some t0 =>
            have hne : t ≠ t0 := by rintro rfl; exact ht htok
            simp [upd, hne, this]
    · intro t r n j hl
      rw [lastRegistered_snoc] at hl
      dsimp only at hl ⊢
      by_cases hrr : r = r0
      · subst hrr; simp [upd, early]
      · simp only [upd, hrr, if_false]
        split at hl
        · cases hl; exact absurd rfl hrr
        · exact hro t r n j hl
  case unregister r0 =>
    simp only [step] at h
    split at h <;> cases h
    rename_i n0 j0 o0 hp0
    refine ⟨?_, ?_⟩
    · intro t r n j hl hp
      rw [key (by intro _; simp)] at hl
      dsimp only at hp ⊢
      by_cases hrr : r = r0
      · subst hrr
        exfalso
        simp only [upd, if_true] at hp
        rcases o0 with _ | (x | _ | _) <;> simp at hp
      · simp only [upd, hrr, if_false] at hp
        have hreg := hr t r n j hl hp
        have hjj : j ≠ j0 := by
          rintro rfl
          obtain ⟨job, k1, k2⟩ := hown r j (by rcases hp with hp | ⟨o, hp⟩ <;> rw [hp] <;> rfl)
          obtain ⟨job', k3, k4⟩ := hown r0 j (by rw [hp0]; rfl)
          rw [k1] at k3; cases k3
          exact hrr (k2.symm.trans k4)
        cases htok : W.token r0 with
        | none => exact hreg
        | some t0 =>
          dsimp only
          split
          · rename_i hh
            have : t ≠ t0 := by
              rintro rfl
              rw [hreg] at hh; exact hjj (Option.some.inj hh)
            simp [upd, this, hreg]
          · exact hreg
    · intro t r n j hl
      rw [key (by intro _; simp)] at hl
      dsimp only
      by_cases hrr : r = r0
      · subst hrr
        simp only [upd, if_true]
        rcases o0 with _ | (x | _ | _) <;> simp [early]
      · simp only [upd, hrr, if_false]
        exact hro t r n j hl
  all_goals
    have hkey := key (by intro _; simp)
    refine ⟨?_, ?_⟩
    · intro t r n j hl hp
      rw [hkey] at hl
      have hl1 := hr t r n j hl
      have hl2 := hro t r n j hl
      simp only [step] at h
      (repeat' split at h) <;> (try cases h) <;> (try simp only [applyWrite_phase, applyWrite_reg] at *) <;>
      grind [upd, early]
    · intro t r n j hl
      rw [hkey] at hl
      have hl2 := hro t r n j hl
      simp only [step] at h
      (repeat' split at h) <;> (try cases h) <;> (try simp only [applyWrite_phase, applyWrite_reg] at *) <;>
      grind [upd, early]

theorem regLast_run (c : Conf) (ls : List (Label X)) (s : State E P X D)
    (h : run W (init c) ls = some s) : RegLast W ls s := by
  refine (run_inv (fun ls s => Inv W s ∧ RegLast W ls s ∧ RegOnce W ls s) _ ⟨inv_init c, ?_, ?_⟩
    (fun ls s l s' hi hs => ⟨inv_step s s' l hi.1 hs, regLast_step ls s s' l hi.1 hi.2.1 hi.2.2 hs⟩)
    ls s h).2.1
  · intro t r n j hl; simp [lastRegistered] at hl
  · intro t r n j hl; simp [lastRegistered] at hl

end Nagini.Service
