import Verif.Spec.Lsp
import Verif.Lemmas.ServiceRuns
import Verif.Props.Service
import Mathlib.Tactic.ByContra

/-!
C48: a document shows the diagnostics of its newest run.
-/
set_option linter.unusedVariables false
set_option linter.unusedSimpArgs false
namespace Nagini.Lsp

open Service

variable {E P X D : Type} {W : World E P X D}

/-- **C48** (full claim): in every execution, when all runs of a document have been delivered and its
newest run was not cancelled, the diagnostics shown are those of the newest run. -/
def C48 : Prop :=
  ∀ (E P X D : Type) (W : World E P X D) (c : Conf) (ls : List (LLabel X)) (s : LState E P X D),
    lrun W (linit c) ls = some s → ∀ u r, newest W s u = some r → Quiet W s u →
    ∀ res, s.svc.phase r = .done res → isCancelled res = false → s.shown u = some r

/-- Cancelled jobs stay cancelled. -/
theorem cancelled_step (s s' : State E P X D) (l : Label X) (hj : Jobs s) (h : step W s l = some s')
    (j : Nat) (hc : Cancelled s j) : Cancelled s' j := by
  obtain ⟨job, hjob, hs⟩ := hc
  have hstop : ∀ i, Cancelled { s with jobs := stop s.jobs i } j := by
    intro i
    exact ⟨job, (stop_iff s.jobs i j job).2 ⟨job, hjob, by rw [hs]⟩, hs⟩
  cases l
  case verdict j' o =>
    simp only [step] at h
    (repeat' split at h) <;> cases h
    rename_i _ jb hjb _ hst
    have : j ≠ j' := by
      rintro rfl
      rw [hjob] at hjb; cases hjb; rw [hs] at hst; cases hst
    exact ⟨job, by simp [upd, this, hjob], hs⟩
  case submit r =>
    simp only [step] at h
    (repeat' split at h) <;> cases h
    have := hj.lt j job hjob
    exact ⟨job, by simp [upd, Nat.ne_of_lt this, hjob], hs⟩
  case kill k =>
    simp only [step] at h
    split at h <;> cases h
    · exact hstop _
    · exact ⟨job, hjob, hs⟩
  case cancelAll =>
    simp only [step] at h
    cases h
    split
    · obtain ⟨job', h1, h2⟩ := hstop j
      exact ⟨job', h1, h2⟩
    · exact ⟨job, hjob, hs⟩
  all_goals
    refine ⟨job, ?_, hs⟩
    rw [← hjob]
    simp only [step] at h
    (repeat' split at h) <;> (try cases h) <;> first | rfl | exact congrFun (applyWrite_jobs ..) j

/-- Steps of other requests. -/
theorem phase_other (s s' : State E P X D) (l : Label X) (h : step W s l = some s') (r : Nat)
    (p : Phase P X D) (hp : s.phase r = p) (ha : actor l ≠ some r) : s'.phase r = p :=
  (phase_frame s s' l h r ha).trans hp

theorem doomed_step (s s' : State E P X D) (l : Label X) (hj : Jobs s) (h : step W s l = some s')
    (r : Nat) (hd : Doomed s r) : Doomed s' r := by
  by_cases ha : actor l = some r
  · rcases hd with ⟨n, j, hp, hc⟩ | ⟨n, j, hp⟩ | hp
    · obtain ⟨job, hjob, hs⟩ := hc
      cases l <;> simp only [actor, Option.some.injEq, reduceCtorEq] at ha <;> subst ha <;>
        simp only [step, hp, hjob, hs, reduceCtorEq] at h
      cases h
      exact Or.inr (Or.inl ⟨n, j, by simp [upd]⟩)
    · cases l <;> simp only [actor, Option.some.injEq, reduceCtorEq] at ha <;> subst ha <;>
        simp only [step, hp, reduceCtorEq] at h
      cases h
      exact Or.inr (Or.inr (by simp [upd]))
    · cases l <;> simp only [actor, Option.some.injEq, reduceCtorEq] at ha <;> subst ha <;>
        simp only [step, hp, reduceCtorEq] at h
  · have hf := phase_frame s s' l h r ha
    rcases hd with ⟨n, j, hp, hc⟩ | ⟨n, j, hp⟩ | hp
    · exact Or.inl ⟨n, j, hf.trans hp, cancelled_step s s' l hj h j hc⟩
    · exact Or.inr (Or.inl ⟨n, j, hf.trans hp⟩)
    · exact Or.inr (Or.inr (hf.trans hp))

/-- A run that the event loop is cancelling: it waits for the job found, or the job has finished. -/
def Targeted (s : State E P X D) (r : Nat) : Prop :=
  ∃ t j, s.cancels 0 = some (t, some j) ∧ ∃ job, s.jobs j = some job ∧
    ((∃ n, s.phase r = .registered n j) ∨ ∃ o, job.status = .finished o)

theorem targeted_step (s s' : State E P X D) (l : Label X) (hj : Jobs s) (h : step W s l = some s')
    (hk : l ≠ .kill 0) (r : Nat) (hd : Targeted s r) : Targeted s' r ∨ Doomed s' r := by
  obtain ⟨t, j, hc, job, hjob, hd⟩ := hd
  have hc' := cancels_frame s s' l h 0 _ hc hk
  obtain ⟨job', hj', -, hs'⟩ := step_sameJobs s s' l hj h hjob
  rcases hd with ⟨n, hp⟩ | ⟨o, ho⟩
  · by_cases ha : actor l = some r
    · cases hs : job.status with
      | finished o => exact Or.inl ⟨t, j, hc', job', hj', Or.inr ⟨o, hs' o hs⟩⟩
      | running =>
        cases l <;> simp only [actor, Option.some.injEq, reduceCtorEq] at ha <;> subst ha <;>
          simp only [step, hp, hjob, hs, reduceCtorEq] at h
      | cancelled => exact Or.inr (doomed_step s s' l hj h r (Or.inl ⟨n, j, hp, job, hjob, hs⟩))
    · exact Or.inl ⟨t, j, hc', job', hj', Or.inl ⟨n, phase_other s s' l h r _ hp ha⟩⟩
  · exact Or.inl ⟨t, j, hc', job', hj', Or.inr ⟨o, hs' o ho⟩⟩

/-- The invariant behind C48. -/
structure Newest (W : World E P X D) (s : LState E P X D) : Prop where
  inv : Inv W s.svc
  nodup : s.started.Nodup
  fresh : ∀ r, s.loop = some r → r ∉ s.started ∧ s.delivered r = false ∧ ∃ u, W.token r = some u
  unknown : ∀ r, s.delivered r = true → r ∈ s.started
  begun : ∀ r, r ∉ s.started → s.svc.phase r = .idle
  unbuilt : s.built = false → ∀ r, s.svc.phase r = .idle
  older : ∀ u r, newest W s u = some r → ∀ r' ∈ s.started, W.token r' = some u → r' ≠ r →
    s.delivered r' = true ∨ Doomed s.svc r'
  starting : ∀ r, s.loop = some r → ∀ r' ∈ s.started, W.token r' = W.token r →
    s.delivered r' = true ∨ Doomed s.svc r' ∨ Targeted s.svc r'
  final : ∀ r, s.delivered r = true → ∃ res, s.svc.phase r = .done res
  shown : ∀ u r, newest W s u = some r → s.delivered r = true →
    ∀ res, s.svc.phase r = .done res → isCancelled res = false → s.shown u = some r

theorem done_step (s s' : State E P X D) (l : Label X) (h : step W s l = some s') (r : Nat)
    (res : Result D) (hp : s.phase r = .done res) : s'.phase r = .done res := by
  by_cases ha : actor l = some r
  · cases l <;> simp only [actor, Option.some.injEq, reduceCtorEq] at ha <;> subst ha <;>
      simp only [step, hp, reduceCtorEq] at h
  · exact phase_other s s' l h r _ hp ha

theorem idle_step (s s' : State E P X D) (l : Label X) (h : step W s l = some s') (r : Nat)
    (hl : l ≠ .choose r) (hp : s.phase r = .idle) : s'.phase r = .idle := by
  by_cases ha : actor l = some r
  · cases l <;> simp only [actor, Option.some.injEq, reduceCtorEq] at ha <;> subst ha <;>
      first | exact absurd rfl hl | simp only [step, hp, reduceCtorEq] at h
  · exact phase_other s s' l h r _ hp ha

theorem newest_cons (s : LState E P X D) (v : State E P X D) (b : Bool) (lp : Option Nat) (r u : Nat) :
    newest W { s with svc := v, built := b, loop := lp, started := r :: s.started } u =
      if W.token r = some u then some r else newest W s u := by
  unfold newest
  by_cases h : W.token r = some u <;> simp [h]

theorem newest_mem {s : LState E P X D} {u r : Nat} (h : newest W s u = some r) :
    r ∈ s.started ∧ W.token r = some u := by
  unfold newest at h
  exact ⟨List.mem_of_find?_eq_some h, by simpa using List.find?_some h⟩

/-- Starting a run once older ones are dealt with. -/
theorem start_ok (s : LState E P X D) (v : State E P X D) (r : Nat) (hn : Newest W s)
    (hv : Inv W v) (hr : r ∉ s.started) (hidle : v.phase = s.svc.phase)
    (hdoom : ∀ r', Doomed s.svc r' → Doomed v r')
    (hold : ∀ r' ∈ s.started, W.token r' = W.token r → s.delivered r' = true ∨ Doomed v r') :
    Newest W { s with svc := v, loop := none, started := r :: s.started } := by
  have hdr : s.delivered r = false := by
    cases hd : s.delivered r with
    | false => rfl
    | true => exact absurd (hn.unknown r hd) hr
  refine ⟨hv, List.nodup_cons.2 ⟨hr, hn.nodup⟩, (fun _ h => by cases h),
    (fun r' h => List.mem_cons_of_mem _ (hn.unknown r' h)), ?_,
    (fun hb r' => by rw [hidle]; exact hn.unbuilt hb r'), ?_, (fun _ h => by cases h), ?_, ?_⟩
  · intro r' h'
    have := hn.begun r' (fun h => h' (List.mem_cons_of_mem _ h))
    rw [hidle]; exact this
  · intro u r0 h0 r' h' ht hne
    rw [show newest W { s with svc := v, loop := none, started := r :: s.started } u = _ from
      newest_cons s v s.built none r u] at h0
    split at h0
    · rename_i htr
      cases h0
      rcases List.mem_cons.1 h' with rfl | h'
      · exact absurd rfl hne
      · exact hold r' h' (ht.trans htr.symm)
    · rename_i htr
      rcases List.mem_cons.1 h' with rfl | h'
      · exact absurd ht htr
      · exact (hn.older u r0 h0 r' h' ht hne).imp_right (hdoom r')
  · intro r' h'
    rw [hidle]; exact hn.final r' h'
  · intro u r0 h0 hd res hres hc
    rw [show newest W { s with svc := v, loop := none, started := r :: s.started } u = _ from
      newest_cons s v s.built none r u] at h0
    split at h0
    · cases h0
      rw [show ({ s with svc := v, loop := none, started := r :: s.started } :
        LState E P X D).delivered r = s.delivered r from rfl, hdr] at hd
      cases hd
    · exact hn.shown u r0 h0 hd res (by rw [← hidle]; exact hres) hc

theorem newest_step (s s' : LState E P X D) (l : LLabel X) (ls : List (LLabel X)) (hn : Newest W s)
    (ht : Timely W s (l :: ls)) (h : lstep W s l = some s') : Newest W s' := by
  have ht := ht.1
  cases l with
  | start r =>
    simp only [lstep] at h
    split at h
    case h_2 => cases h
    rename_i u hloop htok
    split at h
    · cases h
    rename_i hr
    have hdr : s.delivered r = false := by
      cases hd : s.delivered r with
      | false => rfl
      | true => exact absurd (hn.unknown r hd) hr
    split at h
    · rename_i hb
      split at h <;> cases h
      rename_i v hv
      have hi' := inv_step s.svc v _ hn.inv hv
      have hdm := fun r' h' => doomed_step s.svc v _ hn.inv.jobs hv r' h'
      have hph : v.phase = s.svc.phase := by
        simp only [step] at hv
        split at hv <;> cases hv
        rfl
      refine ⟨hi', hn.nodup, ?_, hn.unknown, ?_, (fun hb' => by rw [hb] at hb'; cases hb'), ?_, ?_, ?_, ?_⟩
      · intro r0 h0
        cases h0
        exact ⟨hr, hdr, u, htok⟩
      · intro r' h'; rw [hph]; exact hn.begun r' h'
      · intro u r0 h0 r' h' ht' hne
        exact (hn.older u r0 h0 r' h' ht' hne).imp_right (hdm r')
      · intro r0 h0 r' h' ht'
        cases h0
        rcases ht r' h' ht' with h1 | h1 | ⟨u', hu', hsv, n, j, hp, hreg⟩
        · exact Or.inl h1
        · exact Or.inr (Or.inl (hdm r' h1))
        · right; right
          rw [htok] at hu'
          cases hu'
          obtain ⟨job, hjob, -⟩ := hn.inv.jobs.own r' j (by rw [hp]; rfl)
          simp only [step] at hv
          split at hv <;> cases hv
          exact ⟨u, j, by simp [upd, hsv, hreg], job, hjob, Or.inl ⟨n, hp⟩⟩
      · intro r' h'; rw [hph]; exact hn.final r' h'
      · intro u r0 h0 hd res hres hc
        exact hn.shown u r0 h0 hd res (by rw [← hph]; exact hres) hc
    · rename_i hb
      cases h
      have hidle := hn.unbuilt (by simpa using hb)
      have e : ({ s with started := r :: s.started } : LState E P X D) =
          { s with svc := s.svc, loop := none, started := r :: s.started } := by rw [← hloop]
      rw [e]
      refine start_ok s s.svc r hn hn.inv hr rfl (fun _ h => h) (fun r' h' ht' => ?_)
      exfalso
      have hi := hidle r'
      rcases ht r' h' ht' with h1 | (⟨n, j, hp, -⟩ | ⟨n, j, hp⟩ | hp) | ⟨u', hu', hsv, n, j, hp, hreg⟩
      · obtain ⟨res, hp⟩ := hn.final r' h1
        rw [hi] at hp; cases hp
      all_goals rw [hi] at hp; cases hp
  | enqueue =>
    simp only [lstep] at h
    split at h
    case h_2 => cases h
    rename_i r hloop
    split at h <;> cases h
    rename_i v hv
    obtain ⟨hr, hdr, u, htok⟩ := hn.fresh r hloop
    have hph : v.phase = s.svc.phase := by
      simp only [step] at hv
      split at hv <;> cases hv <;> rfl
    refine start_ok s v r hn (inv_step s.svc v _ hn.inv hv) hr hph
      (fun r' h' => doomed_step s.svc v _ hn.inv.jobs hv r' h') (fun r' h' ht' => ?_)
    rcases hn.starting r hloop r' h' ht' with h1 | h1 | ⟨t, j, hc, job, hjob, h1⟩
    · exact Or.inl h1
    · exact Or.inr (doomed_step s.svc v _ hn.inv.jobs hv r' h1)
    · right
      have hnf := ht t j hc job hjob
      rcases h1 with ⟨n, hp⟩ | ⟨o, ho⟩
      · refine Or.inl ⟨n, j, by rw [hph]; exact hp, ?_⟩
        simp only [step, hc] at hv
        cases hv
        refine ⟨{ job with status := .cancelled }, (stop_iff s.svc.jobs j j _).2 ⟨job, hjob, ?_⟩, rfl⟩
        cases hs : job.status with
        | running => simp [hs]
        | finished o => exact absurd hs (hnf o)
        | cancelled => simp only [hs]; rw [← hs]
      · exact absurd ho (hnf o)
  | svc l =>
    simp only [lstep] at h
    split at h
    case isFalse => cases h
    rename_i hal
    split at h <;> cases h
    rename_i v hv
    have hi' := inv_step s.svc v _ hn.inv hv
    have hdm := fun r' h' => doomed_step s.svc v _ hn.inv.jobs hv r' h'
    have hk : l ≠ .kill 0 := by
      rintro rfl
      simp [allowed] at hal
    refine ⟨hi', hn.nodup, hn.fresh, hn.unknown, ?_, ?_, ?_, ?_, ?_, ?_⟩
    · intro r h'
      refine idle_step s.svc v l hv r ?_ (hn.begun r h')
      rintro rfl
      simp [allowed] at hal
      exact h' hal
    · intro hb r
      simp only [Bool.or_eq_false_iff] at hb
      refine idle_step s.svc v l hv r ?_ (hn.unbuilt hb.1 r)
      rintro rfl
      cases hb.2
    · intro u r0 h0 r' h' ht' hne
      exact (hn.older u r0 h0 r' h' ht' hne).imp_right (hdm r')
    · intro r0 h0 r' h' ht'
      rcases hn.starting r0 h0 r' h' ht' with h1 | h1 | h1
      · exact Or.inl h1
      · exact Or.inr (Or.inl (hdm r' h1))
      · exact Or.inr (targeted_step s.svc v l hn.inv.jobs hv hk r' h1).symm
    · intro r h'
      obtain ⟨res, hp⟩ := hn.final r h'
      exact ⟨res, done_step s.svc v l hv r res hp⟩
    · intro u r0 h0 hd res hres hc
      obtain ⟨res', hp⟩ := hn.final r0 hd
      have := done_step s.svc v l hv r0 res' hp
      rw [hres] at this
      cases this
      exact hn.shown u r0 h0 hd res hp hc
  | deliver r =>
    simp only [lstep] at h
    split at h
    case h_2 => cases h
    rename_i u res hloop htok hp
    split at h <;> cases h
    rename_i hnd
    have hmem : r ∈ s.started := by
      by_contra hm
      rw [hn.begun r hm] at hp; cases hp
    have hd' : ∀ r', upd s.delivered r true r' = true → r' = r ∨ s.delivered r' = true := by
      intro r' h'
      by_cases hrr : r' = r
      · exact Or.inl hrr
      · right; simpa [upd, hrr] using h'
    have hd'' : ∀ r', s.delivered r' = true → upd s.delivered r true r' = true := by
      intro r' h'
      by_cases hrr : r' = r <;> simp [upd, hrr, h']
    refine ⟨hn.inv, hn.nodup, (fun r0 h0 => ?_), ?_, hn.begun, hn.unbuilt, ?_, ?_, ?_, ?_⟩
    · change s.loop = some r0 at h0
      rw [hloop] at h0
      cases h0
    · intro r' h'
      rcases hd' r' h' with rfl | h'
      · exact hmem
      · exact hn.unknown r' h'
    · intro u r0 h0 r' h' ht' hne
      exact (hn.older u r0 h0 r' h' ht' hne).imp_left (hd'' r')
    · intro r0 h0
      change s.loop = some r0 at h0
      rw [hloop] at h0
      cases h0
    · intro r' h'
      rcases hd' r' h' with rfl | h'
      · exact ⟨res, hp⟩
      · exact hn.final r' h'
    · intro u' r0 h0 hd res' hres hc
      dsimp only
      have hnew := newest_mem (s := s) h0
      rcases hd' r0 hd with rfl | hd0
      · rw [hp] at hres
        cases hres
        rw [htok] at hnew
        obtain ⟨-, e⟩ := hnew
        cases e
        simp [hc, upd]
      · have hsh := hn.shown u' r0 h0 hd0 res' hres hc
        split
        · exact hsh
        · rename_i hrc
          by_cases huu : u' = u
          · subst huu
            have hne : r ≠ r0 := by rintro rfl; exact hnd hd0
            rcases hn.older u' r0 h0 r hmem htok hne with h1 | (⟨n, j, h1, -⟩ | ⟨n, j, h1⟩ | h1)
            · exact absurd h1 hnd
            all_goals rw [hp] at h1
            · cases h1
            · cases h1
            · cases h1; exact absurd rfl hrc
          · simp [upd, huu, hsh]

theorem newest_init (c : Conf) : Newest W (linit c : LState E P X D) := by
  refine ⟨inv_init c, List.nodup_nil, ?_, ?_, ?_, ?_, ?_, ?_, ?_, ?_⟩ <;>
    simp [linit, newest, init]

theorem newest_run (ls : List (LLabel X)) (s s' : LState E P X D) (hn : Newest W s)
    (ht : Timely W s ls) (h : lrun W s ls = some s') : Newest W s' := by
  induction ls generalizing s with
  | nil => cases h; exact hn
  | cons l ls ih =>
    simp only [lrun] at h
    cases hs : lstep W s l with
    | none => rw [hs] at h; cases h
    | some s1 =>
      rw [hs] at h
      exact ih s1 (newest_step s s1 l ls hn ht hs) (ht.2 s1 hs) h

/-- **C48**, weaker than claimed: if, whenever a run is started, the older runs of its document
have been delivered, are already cancelled, or wait for a running job that is registered and does not
finish while it is being cancelled, the diagnostics shown are those of the newest run.  Other documents
may do anything.  Missing: runs started while an older one is being translated, submitted or
converted. -/
theorem C48_timely_partial (c : Conf) (ls : List (LLabel X)) (s : LState E P X D)
    (h : lrun W (linit c) ls = some s) (ht : Timely W (linit c) ls) (u r : Nat)
    (hn : newest W s u = some r) (hq : Quiet W s u) (res : Result D) (hr : s.svc.phase r = .done res)
    (hc : isCancelled res = false) : s.shown u = some r := by
  obtain ⟨h1, h2⟩ := newest_mem hn
  exact (newest_run ls _ s (newest_init c) ht h).shown u r hn (hq.2 r h1 h2) res hr hc

/-- Steps of the service until a run waits. -/
def lupto (r : Nat) : List (LLabel Nat) := (upto r).map .svc

/-- Two runs of a document: the second one cancels the first one and its diagnostics are shown. -/
def good : List (LLabel Nat) :=
  [.start 0] ++ lupto 0 ++ [.start 1, .enqueue, .svc (.await 0), .svc (.unregister 0)] ++ lupto 1 ++
    [.svc (.verdict 1 .ok), .svc (.await 1), .svc (.unregister 1), .deliver 1, .deliver 0]

example : ∃ s, lrun demo (linit cfg) good = some s ∧ newest demo s 0 = some 1 ∧
    s.svc.phase 0 = .done .cancelled ∧ s.svc.phase 1 = .done .success ∧ s.shown 0 = some 1 :=
  ⟨_, rfl, rfl, rfl, rfl, rfl⟩

theorem lrun_append (s : LState E P X D) (l1 l2 : List (LLabel X)) :
    lrun W s (l1 ++ l2) = (lrun W s l1).bind fun s' => lrun W s' l2 := by
  induction l1 generalizing s with
  | nil => rfl
  | cons l ls ih =>
    simp only [List.cons_append, lrun]
    cases lstep W s l with
    | none => rfl
    | some s' => exact ih s'

theorem timely_append (s : LState E P X D) (l1 l2 : List (LLabel X)) (h1 : Timely W s l1)
    (h2 : ∀ s', lrun W s l1 = some s' → Timely W s' l2) : Timely W s (l1 ++ l2) := by
  induction l1 generalizing s with
  | nil => exact h2 s rfl
  | cons l ls ih =>
    refine ⟨h1.1, fun s' hs' => ih s' (h1.2 s' hs') (fun s'' h => h2 s'' ?_)⟩
    simp only [lrun, hs']
    exact h

theorem timely_svc (ls : List (LLabel X)) (h : ∀ l ∈ ls, (∃ l', l = .svc l') ∨ ∃ r, l = .deliver r)
    (s : LState E P X D) : Timely W s ls := by
  induction ls generalizing s with
  | nil => trivial
  | cons l ls ih =>
    refine ⟨?_, fun s' _ => ih (fun l' h' => h l' (List.mem_cons_of_mem _ h')) s'⟩
    rcases h l List.mem_cons_self with ⟨l', rfl⟩ | ⟨r, rfl⟩ <;> trivial

/-- That execution is timely. -/
example : Timely demo (linit cfg) good := by
  unfold good
  rw [List.append_assoc, List.append_assoc, List.append_assoc]
  refine ⟨fun r h => (by cases h), fun s1 h1 => ?_⟩
  refine timely_append s1 (lupto 0) _ (timely_svc _ (by simp [lupto, upto]) _) (fun s2 h2 => ?_)
  have hs2 : lrun demo (linit cfg) ([.start 0] ++ lupto 0) = some s2 := by
    rw [lrun_append]
    simp only [lrun, h1]
    exact h2
  have hg : ∃ s s', lrun demo (linit cfg) ([.start 0] ++ lupto 0) = some s ∧ s.started = [0] ∧
      s.svc.conf.server = true ∧ s.svc.phase 0 = .registered 1 0 ∧ s.svc.reg 0 = some 0 ∧
      lstep demo s (.start 1) = some s' ∧ s'.svc.cancels 0 = some (0, some 0) ∧
      ∃ job, s'.svc.jobs 0 = some job ∧ job.status = .running :=
    ⟨_, _, rfl, rfl, rfl, rfl, rfl, rfl, rfl, _, rfl, rfl⟩
  obtain ⟨s, s', e1, e2, e3, e4, e5, e6, e7, job, e8, e9⟩ := hg
  rw [hs2] at e1
  obtain rfl := Option.some.inj e1
  refine ⟨?_, fun s3 h3 => ?_⟩
  · intro r' hr' _
    rw [e2] at hr'
    rcases List.mem_cons.1 hr' with rfl | hr'
    · exact Or.inr (Or.inr ⟨0, rfl, e3, 1, 0, e4, e5⟩)
    · cases hr'
  rw [e6] at h3
  obtain rfl := Option.some.inj h3
  refine ⟨?_, fun s4 _ => timely_svc _ (by simp [lupto, upto]) _⟩
  intro t j hc job' hj o ho
  rw [e7] at hc
  cases hc
  rw [e8] at hj
  cases hj
  rw [e9] at ho
  cases ho

/-- The claim fails: (a) a second run is started before the first one is registered (here: before the
service exists); the first one finishes last and its diagnostics replace the newer ones. -/
theorem C48_early_fails : ¬ C48 := by
  intro hC
  have hrun : ∃ s, lrun demo (linit cfg)
      ([.start 0, .start 1] ++ lupto 0 ++ lupto 1 ++
        [.svc (.verdict 1 .ok), .svc (.await 1), .svc (.unregister 1), .deliver 1,
         .svc (.verdict 0 (.errors 5)), .svc (.await 0), .svc (.unregister 0), .svc (.convert 0), .deliver 0]) =
        some s ∧ newest demo s 0 = some 1 ∧ s.loop = none ∧ s.started = [1, 0] ∧ s.delivered 0 = true ∧
      s.delivered 1 = true ∧ s.svc.phase 1 = .done .success ∧ s.shown 0 = some 0 :=
    ⟨_, rfl, rfl, rfl, rfl, rfl, rfl, rfl, rfl⟩
  obtain ⟨s, h, hn, hl, hs, h0, h1, hp, hsh⟩ := hrun
  have := hC _ _ _ _ demo cfg _ s h 0 1 hn ⟨hl, fun r hr _ => by
    rw [hs] at hr
    rcases List.mem_cons.1 hr with rfl | hr
    · exact h1
    · rcases List.mem_cons.1 hr with rfl | hr
      · exact h0
      · cases hr⟩ _ hp rfl
  rw [hsh] at this
  cases this

/-- (b) The first run's job has already failed when the second run is started, but its errors are
converted only after the second run has finished. -/
theorem C48_converting_fails : ¬ C48 := by
  intro hC
  have hrun : ∃ s, lrun demo (linit cfg)
      ([.start 0] ++ lupto 0 ++ [.svc (.verdict 0 (.errors 5)), .svc (.await 0), .svc (.unregister 0),
        .start 1, .enqueue] ++ lupto 1 ++
        [.svc (.verdict 1 .ok), .svc (.await 1), .svc (.unregister 1), .deliver 1,
         .svc (.convert 0), .deliver 0]) =
        some s ∧ newest demo s 0 = some 1 ∧ s.loop = none ∧ s.started = [1, 0] ∧ s.delivered 0 = true ∧
      s.delivered 1 = true ∧ s.svc.phase 1 = .done .success ∧ s.shown 0 = some 0 :=
    ⟨_, rfl, rfl, rfl, rfl, rfl, rfl, rfl, rfl⟩
  obtain ⟨s, h, hn, hl, hs, h0, h1, hp, hsh⟩ := hrun
  have := hC _ _ _ _ demo cfg _ s h 0 1 hn ⟨hl, fun r hr _ => by
    rw [hs] at hr
    rcases List.mem_cons.1 hr with rfl | hr
    · exact h1
    · rcases List.mem_cons.1 hr with rfl | hr
      · exact h0
      · cases hr⟩ _ hp rfl
  rw [hsh] at this
  cases this

end Nagini.Lsp
