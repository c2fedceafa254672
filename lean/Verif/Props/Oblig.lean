import Verif.Lemmas.ObligTerm
/-!
C72–C74: obligations.
-/
set_option linter.unusedVariables false
set_option linter.unusedSimpArgs false
namespace Nagini.Oblig

open Nagini.Termination (initMap check tcond inhaled callCheck positive loopFlag loopEntry loopEnd loopPositive resetAmount
  inhaled_pos tcond_ignore_iff)

/-! ### An example

A server that runs forever: it acquires a lock and calls a worker, which counts down to zero while it holds the lock and
then releases it. -/

/-- The invariant of the worker's loop. -/
def exInv (_ n : Int) : Contract := ⟨True, [.terminate true n, .release true 7 (some n)]⟩

/-- The loop of the worker. -/
def exLoop : Stmt Int Bool := .loop (fun n => decide (0 < n)) exInv (.act fun n n' => n' = n - 1)

/-- The worker's body. -/
def exWork : Stmt Int Bool := .seq exLoop (.release fun _ => 7)

/-- One iteration of the server. -/
def exServe : Stmt Int Bool := .seq (.acquire fun _ => 7) (.call true id fun _ t => t)

/-- The server's body. -/
def exServer : Stmt Int Bool := .loop (fun _ => true) (fun _ _ => ⟨True, []⟩) exServe

/-- The program; `true` is the worker. -/
def exProg : Bool → Method Int Bool
  | true => ⟨fun _ => ⟨True, [.terminate true 2, .release true 7 (some 2)]⟩, fun ex _ _ => ⟨ex = false, []⟩, exWork⟩
  | false => ⟨fun _ => ⟨True, []⟩, fun _ _ _ => ⟨True, []⟩, exServer⟩

theorem exVerified : Verified 0 exProg := by
  intro m
  cases m with
  | true =>
    intro n _ _ _
    show wp 0 exProg _ (.loop _ _ _) _ n ⟨[7], [], 1⟩
    refine ⟨⟨[], [], 1⟩, ⟨trivial, ?_, rfl, ?_⟩, ?_, ?_⟩
    · simp [loopPositive, loopState, positive, insts, exInv, instOf]
    · simp [loopEntry, loopFlag, tcond, loopState, insts, exInv, instOf]
    · intro n1 hc _ _ _ n2 hn
      have hc : 0 < n1 := by simpa using hc
      subst hn
      refine ⟨?_, trivial, ?_, ⟨[], [], 1⟩, ?_, rfl⟩
      · simp [loopEnd, loopState, tcond, insts, exInv, instOf, check, initMap]
        omega
      · simp [loopPositive, loopState, positive, insts, exInv, instOf]
      · have h1 : (iterHold 0 (exInv n) n1) = ⟨[7], [], 1⟩ := by rfl
        rw [h1]
        have h2 : check (initMap false (insts 0 (exInv n n1))) 7 (n1 - 1) = true := by
          simp [check, initMap, insts, exInv, instOf]
          omega
        rw [exhale_check_loop]
        simp [insts, exInv, instOf, takeAll, take1] at h2 ⊢
        simp [h2]
    · intro n2 _ _ _
      refine ⟨trivial, rfl, ⟨[], [], 1⟩, rfl, rfl, ?_⟩
      rintro ex s' ⟨rfl, rfl⟩ _
      exact ⟨rfl, ⟨[], [], 1⟩, rfl, rfl⟩
  | false =>
    intro n _ _ _
    refine ⟨⟨[], [], 0⟩, ⟨trivial, rfl, rfl, rfl⟩, ?_, ?_⟩
    · intro n1 _ _ _ _
      refine ⟨trivial, rfl, ⟨[], [], 0⟩, rfl, rfl, ?_⟩
      rintro ex s' ⟨rfl, rfl⟩ _
      refine ⟨trivial, rfl, ⟨[], [], 0⟩, rfl, rfl, ?_⟩
      rintro ex t hex _
      obtain rfl : ex = false := hex
      exact ⟨rfl, trivial, rfl, ⟨[], [], 0⟩, rfl, rfl⟩
    · intro n2 hc; cases hc

/-- The server's loop, in progress. -/
def exAgain : Item Int Bool := .again (fun _ => true) exServe

/-- The return to the server. -/
def exRet : Item Int Bool := .ret 0 fun _ t => t

/-- The server starts. -/
def exStart : Cfg Int Bool := ⟨none, [.stmt exServer], 0, []⟩

/-- One iteration of the server. -/
def exCycle : Nat → Cfg Int Bool
  | 0 => ⟨none, [.stmt exServe, exAgain], 0, []⟩
  | 1 => ⟨none, [.stmt (.acquire fun _ => 7), .stmt (.call true id fun _ t => t), exAgain], 0, []⟩
  | 2 => ⟨none, [.stmt (.call true id fun _ t => t), exAgain], 0, [7]⟩
  | 3 => ⟨none, [.stmt exWork, exRet, exAgain], 0, [7]⟩
  | 4 => ⟨none, [.stmt exLoop, .stmt (.release fun _ => 7), exRet, exAgain], 0, [7]⟩
  | 5 => ⟨none, [.stmt (.release fun _ => 7), exRet, exAgain], 0, [7]⟩
  | 6 => ⟨none, [exRet, exAgain], 0, []⟩
  | _ => ⟨none, [exAgain], 0, []⟩

/-- The server runs forever. -/
def exRun : Nat → Cfg Int Bool
  | 0 => exStart
  | n + 1 => exCycle (n % 8)

theorem exRun_infinite : Infinite exProg exRun := by
  intro n
  cases n with
  | zero => exact .enter rfl
  | succ n =>
    show Step exProg (exCycle (n % 8)) (exCycle ((n + 1) % 8))
    have h : n % 8 = 0 ∨ n % 8 = 1 ∨ n % 8 = 2 ∨ n % 8 = 3 ∨ n % 8 = 4 ∨ n % 8 = 5 ∨ n % 8 = 6 ∨ n % 8 = 7 := by omega
    rcases h with h | h | h | h | h | h | h | h
    · rw [h, show (n + 1) % 8 = 1 by omega]; exact .seq
    · rw [h, show (n + 1) % 8 = 2 by omega]; exact .acquire (by simp)
    · rw [h, show (n + 1) % 8 = 3 by omega]; exact .call
    · rw [h, show (n + 1) % 8 = 4 by omega]; exact .seq
    · rw [h, show (n + 1) % 8 = 5 by omega]; exact .skip rfl
    · rw [h, show (n + 1) % 8 = 6 by omega]; exact .release (l := fun _ => 7) (by simp)
    · rw [h, show (n + 1) % 8 = 7 by omega]; exact .ret (Or.inl rfl)
    · rw [h, show (n + 1) % 8 = 0 by omega]; exact .again (Or.inl rfl) rfl

theorem exStarts : Starts exProg false [] exStart :=
  ⟨rfl, rfl, trivial, List.Perm.refl _, List.nodup_nil, fun o ho => by cases ho⟩

/-- The worker starts with a count of `n`, while the thread holds another lock as well. -/
def exWorker (n : Int) : Cfg Int Bool := ⟨none, [.stmt exWork], n, [7, 3]⟩

theorem exWorkerStarts (n : Int) : Starts exProg true [3] (exWorker n) := by
  refine ⟨rfl, rfl, trivial, List.Perm.refl _, (by decide : [7, 3].Nodup), ?_⟩
  intro o ho
  rcases List.mem_cons.1 ho with rfl | ho
  · decide
  · rcases List.mem_cons.1 ho with rfl | ho
    · decide
    · cases ho

variable {σ M : Type} {ct : Nat} {P : M → Method σ M} {R : List Nat}

/-! ### C72 -/

/-- **C72.**  When a method of a verified program ends, normally or by an exception, its postcondition holds, and the
thread holds exactly the locks mentioned in the postcondition, and the locks the method does not know of.  `break` and
`continue` never leave a method. -/
theorem C72_no_leak (hv : Verified ct P) {m : M} {c c' : Cfg σ M} (hs : Starts P m R c) (hr : Steps P c c')
    (hf : Finished c') :
    ∃ ex : Bool, (if ex then c'.mode = some .exc else c'.mode = none ∨ c'.mode = some .ret) ∧
      ((P m).post ex c.st c'.st).pure ∧ c'.held.Perm (((P m).post ex c.st c'.st).locks ++ R) := by
  obtain ⟨g, hi, hrel⟩ := (starts_reached hv hs).steps hv hr
  obtain ⟨mode, ctrl, map, st, h⟩ := g
  obtain ⟨r1, r2, r3, r4⟩ := hrel
  rw [hf] at r2
  have hk : ctrl = [] := by
    cases ctrl with
    | nil => rfl
    | cons i K => cases r2
  subst hk
  have hw : methodPost ct (P m) c.st mode st h := hi.wk
  simp only at r1 r3
  have key : ∀ ex, endOk ct ((P m).post ex c.st st) h →
      ((P m).post ex c.st c'.st).pure ∧ c'.held.Perm (((P m).post ex c.st c'.st).locks ++ R) := by
    rintro ex ⟨h1, h', h2, h3⟩
    rw [exhale_yes_method] at h2
    rw [r3, ← keys_insts (ct := ct)]
    exact ⟨h1, r4.trans ((take_leakFree h2 h3).append_right _)⟩
  rcases mode with _ | mode
  · exact ⟨false, Or.inl r1, key _ hw⟩
  · cases mode with
    | brk => exact hw.elim
    | cont => exact hw.elim
    | ret => exact ⟨false, Or.inr r1, key _ hw⟩
    | exc => exact ⟨true, r1, key _ hw⟩

/-- **C72.**  A verified method releases only locks that it holds; in particular it never releases locks its caller kept
for itself. -/
theorem C72_release_held (hv : Verified ct P) {m : M} {c : Cfg σ M} (hs : Starts P m R c) {l : σ → Nat}
    {K : List (Item σ M)} {s : σ} {H : List Nat} (hr : Steps P c ⟨none, .stmt (.release l) :: K, s, H⟩) :
    l s ∈ H ∧ l s ∉ R := by
  obtain ⟨g, hi, hrel⟩ := (starts_reached hv hs).steps hv hr
  obtain ⟨mode, ctrl, map, st, h⟩ := g
  obtain ⟨r1, r2, r3, r4⟩ := hrel
  obtain ⟨j, J, rfl, hj, hJ⟩ := erase_cons r2
  obtain rfl := erase_stmt hj
  simp only at r1 r3
  subst r1 r3
  obtain ⟨_, _, h'', h3, _⟩ := hi.wk
  rw [exhale_check_method] at h3
  have hm : l s ∈ h.all := (release_perm h3).mem_iff.2 (List.mem_cons_self ..)
  refine ⟨r4.mem_iff.2 (List.mem_append_left _ hm), fun hR => ?_⟩
  exact (List.nodup_append.1 hi.nodup).2.2 _ hm _ (List.mem_append_right _ hR) rfl

/-- **C72.**  Locks the method does not know of stay held. -/
theorem C72_frame (hv : Verified ct P) {m : M} {c c' : Cfg σ M} (hs : Starts P m R c) (hr : Steps P c c') {r : Nat}
    (h : r ∈ R) : r ∈ c'.held ∧ c'.held.Nodup := by
  obtain ⟨g, hi, hrel⟩ := (starts_reached hv hs).steps hv hr
  exact ⟨hrel.held.mem_iff.2 (List.mem_append_right _ (List.mem_append_right _ h)), hrel.held.nodup_iff.2 hi.nodup⟩

/-- **C72.**  Whenever a verified method makes a call, the callee starts as its contract says, so that all of these
theorems apply to it. -/
theorem C72_calls (hv : Verified ct P) {m : M} {c : Cfg σ M} (hs : Starts P m R c) {n : M} {arg : σ → σ}
    {back : σ → σ → σ} {K : List (Item σ M)} {s : σ} {H : List Nat}
    (hr : Steps P c ⟨none, .stmt (.call n arg back) :: K, s, H⟩) :
    ∃ R', Starts P n R' ⟨none, [.stmt (P n).body], arg s, H⟩ := by
  obtain ⟨g, hi, hrel⟩ := (starts_reached hv hs).steps hv hr
  obtain ⟨mode, ctrl, map, st, h⟩ := g
  obtain ⟨r1, r2, r3, r4⟩ := hrel
  obtain ⟨j, J, rfl, hj, hJ⟩ := erase_cons r2
  obtain rfl := erase_stmt hj
  simp only at r1 r3
  subst r1 r3
  obtain ⟨h1, h2, h'', h3, _⟩ := hi.wk
  rw [exhale_check_method] at h3
  refine ⟨h''.all ++ (frames J ++ R), rfl, rfl, h1, ?_, r4.nodup_iff.2 hi.nodup, ?_⟩
  · show H.Perm (((P n).pre (arg s)).locks ++ (h''.all ++ (frames J ++ R)))
    rw [← keys_insts (ct := ct), ← List.append_assoc]
    exact r4.trans ((take_perm h3).append_right _)
  · intro o ho
    have hp := fun hg hf => Nagini.Termination.positive_iff.1 h2 (instOf ct o) (List.mem_map.2 ⟨o, ho, rfl⟩) hg hf
    cases o with
    | terminate g v =>
      cases g with
      | true => exact hp rfl rfl
      | false => trivial
    | release g l v =>
      cases g with
      | false => cases v <;> trivial
      | true =>
        cases v with
        | none => trivial
        | some v => exact hp rfl rfl

-- The worker counts from one to zero, releases the lock, and ends; the other lock is still held.
example : ∃ c', Steps exProg (exWorker 1) c' ∧ Finished c' ∧ c'.held = [3] := by
  refine ⟨⟨none, [], 0, [3]⟩, ?_, rfl, rfl⟩
  have s1 : Steps exProg (exWorker 1) ⟨none, [.stmt exLoop, .stmt (.release fun _ => 7)], 1, [7, 3]⟩ :=
    .step (.refl _) .seq
  have s2 := Steps.step s1 (Step.enter (by decide))
  have s3 := Steps.step s2 (Step.act (s' := (0 : Int)) (by decide))
  have s4 := Steps.step s3 (Step.done (Or.inl rfl) (by decide))
  exact Steps.step s4 (Step.release (l := fun _ => 7) (List.mem_cons_self ..))

-- Its postcondition mentions no lock.
example {n : Int} {c' : Cfg Int Bool} (hr : Steps exProg (exWorker n) c') (hf : Finished c') :
    c'.held.Perm [3] := by
  obtain ⟨ex, _, _, h⟩ := C72_no_leak exVerified (exWorkerStarts n) hr hf
  exact h

-- The server calls the worker, which starts with the lock.
example : ∃ R', Starts exProg true R' ⟨none, [.stmt exWork], 0, [7]⟩ := by
  have s1 : Steps exProg exStart _ := .step (.refl _) (.enter rfl)
  have s2 := Steps.step s1 .seq
  have s3 := Steps.step s2 (.acquire (l := fun _ => 7) (by simp [exStart]))
  exact C72_calls exVerified exStarts s3

-- The last step of the worker releases a lock that it holds.
example {K : List (Item Int Bool)} {s : Int} {H : List Nat}
    (hr : Steps exProg (exWorker 5) ⟨none, .stmt (.release fun _ => 7) :: K, s, H⟩) : 7 ∈ H ∧ 7 ∉ [3] :=
  C72_release_held exVerified (exWorkerStarts 5) hr

example : Steps exProg (exWorker 0) ⟨none, [.stmt (.release fun _ => 7)], 0, [7, 3]⟩ :=
  .step (.step (.refl _) .seq) (.skip (by decide))

example {c' : Cfg Int Bool} (hr : Steps exProg (exWorker 5) c') : 3 ∈ c'.held :=
  (C72_frame exVerified (exWorkerStarts 5) hr (List.mem_cons_self ..)).1

/-! ### C73 -/

/-- **C73.**  In every infinite execution of a verified method, whatever lock the thread holds is released eventually
(unless it is one the method does not know of), even if the method never ends. -/
theorem C73_eventually_released (hv : Verified ct P) {m : M} {run : Nat → Cfg σ M} (hs : Starts P m R (run 0))
    (hinf : Infinite P run) {i r : Nat} (hr : r ∈ (run i).held) (hR : r ∉ R) :
    ∃ j, i < j ∧ r ∉ (run j).held := by
  obtain ⟨g, hi, hrel⟩ := (starts_reached hv hs).run hv hinf i
  have hm : r ∈ g.h.all ++ frames g.ctrl := by
    have := hrel.held.mem_iff.1 hr
    rcases List.mem_append.1 this with h | h
    · exact List.mem_append_left _ h
    · rcases List.mem_append.1 h with h | h
      · exact List.mem_append_right _ h
      · exact (hR h).elim
  obtain ⟨j, hj, g', hG, hi', hrel'⟩ := (gone hv g.ctrl g.map g.mode g.st g.h hi hm).run hv hinf i hi hrel
  have hn : r ∉ (run j).held := fun hx => hG (hrel'.held.mem_iff.1 hx)
  refine ⟨j, ?_, hn⟩
  rcases Nat.lt_or_eq_of_le hj with h | rfl
  · exact h
  · exact (hn hr).elim

-- The server runs forever and holds the lock again and again.
example (n : Nat) : 7 ∈ (exRun (8 * n + 3)).held ∧ ∃ j, 8 * n + 3 < j ∧ 7 ∉ (exRun j).held := by
  have h : 7 ∈ (exRun (8 * n + 3)).held := by
    show 7 ∈ (exCycle ((8 * n + 2) % 8)).held
    rw [show (8 * n + 2) % 8 = 2 by omega]
    exact List.mem_cons_self ..
  exact ⟨h, C73_eventually_released exVerified exStarts exRun_infinite h (by simp)⟩

/-! ### C74 -/

theorem acc_of_ev (hv : Verified ct P) {B : Option Exit → σ → Hold → Prop} {g : GCfg σ M}
    (he : GEv ct P R (fun _ => False) g) : ∀ c, GInv ct P B R g → Rel R g c → Acc (fun a b => Step P b a) c := by
  induction he with
  | now h => exact h.elim
  | later _ ih =>
    intro c hi hr
    refine ⟨_, fun c' hs => ?_⟩
    obtain ⟨g', hg, hr'⟩ := sim_step hv hi hr hs
    exact ih g' hg c' (hi.step hv hg) hr'

/-- **C74.**  If the precondition of a verified method promises termination, every execution of the method ends after
finitely many steps. -/
theorem C74_method_terminates (hv : Verified ct P) {m : M} {c : Cfg σ M} (hs : Starts P m R c)
    (ht : ((P m).pre c.st).terminates) : Acc (fun a b => Step P b a) c := by
  obtain ⟨g, hi, hrel, rfl⟩ := starts_inv hv hs
  refine acc_of_ev hv ?_ c hi hrel
  refine term_any hv _ _ _ hi ?_ fun e s' h' _ _ => .later fun g' hs => by cases hs
  rw [entry_t]
  exact inhaled_pos.2 (active_insts.2 ht)

/-- **C74.**  There is no infinite execution. -/
theorem C74_no_infinite_run (hv : Verified ct P) {m : M} {run : Nat → Cfg σ M} (hs : Starts P m R (run 0))
    (ht : ((P m).pre (run 0).st).terminates) : ¬ Infinite P run := by
  intro hinf
  have : ∀ c, Acc (fun a b => Step P b a) c → ∀ n, run n ≠ c := by
    intro c hc
    induction hc with
    | intro c _ ih =>
      rintro n rfl
      exact ih _ (hinf n) (n + 1) rfl
  exact this _ (C74_method_terminates hv hs ht) 0 rfl

/-- **C74.**  In an execution of a verified method that may run forever, a call of a method whose precondition promises
termination returns. -/
theorem C74_call_returns (hv : Verified ct P) {m : M} {run : Nat → Cfg σ M} (hs : Starts P m R (run 0))
    (hinf : Infinite P run) {i : Nat} {n : M} {arg : σ → σ} {back : σ → σ → σ} {K : List (Item σ M)}
    (hm : (run i).mode = none) (hc : (run i).ctrl = .stmt (.call n arg back) :: K)
    (ht : ((P n).pre (arg (run i).st)).terminates) : ∃ j, i < j ∧ (run j).ctrl = K := by
  obtain ⟨g, hi, hrel⟩ := (starts_reached hv hs).run hv hinf i
  obtain ⟨mode, ctrl, map, st, h⟩ := g
  have hstep := hinf i
  obtain ⟨g', hg, hrel'⟩ := sim_step hv hi hrel hstep
  obtain ⟨r1, r2, r3, r4⟩ := hrel
  rw [hc] at r2
  obtain ⟨j, J, rfl, hj, hJ⟩ := erase_cons r2
  obtain rfl := erase_stmt hj
  simp only at r1 r3
  rw [hm] at r1
  subst r1 r3
  have hi' := hi.step hv hg
  cases hg with
  | call he =>
    have hev := term_any hv (G := fun g => g.ctrl = J) _ _ _ hi'
      (by rw [entry_t]; exact inhaled_pos.2 (active_insts.2 ht))
      fun e s' h' hx _ => ret_ev hv hx fun e s' h3 hi3 hx3 => .now rfl
    obtain ⟨k, hk, g'', hG, _, hrel''⟩ := hev.run hv hinf (i + 1) hi' hrel'
    exact ⟨k, by omega, by rw [hrel''.ctrl, hG, hJ]⟩

/-- **C74.**  Likewise a loop whose invariant promises termination when the loop starts is left. -/
theorem C74_loop_ends (hv : Verified ct P) {m : M} {run : Nat → Cfg σ M} (hs : Starts P m R (run 0))
    (hinf : Infinite P run) {i : Nat} {c : σ → Bool} {inv : σ → σ → Contract} {body : Stmt σ M} {K : List (Item σ M)}
    (hm : (run i).mode = none) (hc : (run i).ctrl = .stmt (.loop c inv body) :: K)
    (ht : (inv (run i).st (run i).st).terminates) : ∃ j, i < j ∧ (run j).ctrl = K := by
  obtain ⟨g, hi, hrel⟩ := (starts_reached hv hs).run hv hinf i
  obtain ⟨mode, ctrl, map, st, h⟩ := g
  have hstep := hinf i
  obtain ⟨g', hg, hrel'⟩ := sim_step hv hi hrel hstep
  obtain ⟨r1, r2, r3, r4⟩ := hrel
  rw [hc] at r2
  obtain ⟨j, J, rfl, hj, hJ⟩ := erase_cons r2
  obtain rfl := erase_stmt hj
  simp only at r1 r3
  rw [hm] at r1
  subst r1
  rw [r3] at ht
  have hi' := hi.step hv hg
  have ha := active_insts (ct := ct).2 ht
  cases hg with
  | enter hcond he =>
    have hf : loopFlag ct (loopState ct c (inv st) st) = true := tcond_ignore_iff.2 ha
    rw [hf] at hi' hrel'
    have hev := term_any hv (G := fun g => g.ctrl = J) _ _ _ hi' (by rw [iter_t]; exact inhaled_pos.2 ha)
      fun e s' h' hx _ => again_term hv (term_any hv) (fun e s' h3 h3i h3x => .now rfl) _ _ rfl _ _ _ hx
    obtain ⟨k, hk, g'', hG, _, hrel''⟩ := hev.run hv hinf (i + 1) hi' hrel'
    exact ⟨k, by omega, by rw [hrel''.ctrl, hG, hJ]⟩
  | skip hcond he => exact ⟨i + 1, by omega, by rw [hrel'.ctrl, hJ]⟩

-- The worker terminates whatever it counts.
example (n : Int) : Acc (fun a b => Step exProg b a) (exWorker n) :=
  C74_method_terminates exVerified (exWorkerStarts n) ⟨2, List.mem_cons_self ..⟩

example (n : Int) (run : Nat → Cfg Int Bool) (h : run 0 = exWorker n) : ¬ Infinite exProg run :=
  C74_no_infinite_run exVerified (R := [3]) (m := true) (h ▸ exWorkerStarts n) ⟨2, List.mem_cons_self ..⟩

-- Each of the server's calls returns.
example (n : Nat) : ∃ j, 8 * n + 3 < j ∧ (exRun j).ctrl = [exAgain] := by
  have h : exRun (8 * n + 3) = exCycle 2 := by
    show exCycle ((8 * n + 2) % 8) = _
    rw [show (8 * n + 2) % 8 = 2 by omega]
  exact C74_call_returns exVerified exStarts exRun_infinite (i := 8 * n + 3) (by rw [h]; rfl) (by rw [h]; rfl)
    ⟨2, List.mem_cons_self ..⟩

-- Each time the worker gets to its loop, the loop ends.
example (n : Nat) : ∃ j, 8 * n + 5 < j ∧ (exRun j).ctrl = [.stmt (.release fun _ => 7), exRet, exAgain] := by
  have h : exRun (8 * n + 5) = exCycle 4 := by
    show exCycle ((8 * n + 4) % 8) = _
    rw [show (8 * n + 4) % 8 = 4 by omega]
  exact C74_loop_ends exVerified exStarts exRun_infinite (i := 8 * n + 5) (by rw [h]; rfl) (by rw [h]; rfl)
    ⟨_, List.mem_cons_self ..⟩

end Nagini.Oblig
