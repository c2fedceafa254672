import Verif.Lemmas.AutoOblig

/-!
C134: what a process verified before does not influence a verdict.
C135: obligations are turned off automatically only for programs that do not use them.
-/
namespace Nagini.AutoOblig

/-! ### C134 -/

/-- A program with a loop that breaks its promise to terminate. -/
abbrev loops : Prog := ⟨[.mk (.name .mustTerminate) []], false, fun k => k != .termination⟩

/-- A program without obligations. -/
abbrev plain : Prog := ⟨[.mk (.name (.other 0)) []], false, fun _ => true⟩

/-- No settings. -/
abbrev auto : Ini := ⟨none, fun _ => none⟩

/-- C134 fails for the server: after a program without obligations, wrong programs with obligations are accepted. -/
theorem C134_fails : ¬ SameVerdict (fun i hist p => accepted (server i hist p) p) := by
  intro h
  have h1 : accepted (server auto [.prog plain] loops) loops := by
    intro k hk
    exact absurd hk (by cases k <;> decide)
  exact absurd ((h auto [.prog plain] loops).1 h1 .termination (by decide)) (by decide)

/-- C134 for the server, exactly: a kind of checks is encoded iff the user asked for it, or nothing was set and neither
this program nor any earlier one is without obligations. -/
theorem C134_server_exact (i : Ini) (hist : List Req) (p : Prog) (k : Check) :
    disabled (server i hist p) k = false ↔
      (k ≠ .sections ∧ i.over k = some false) ∨
      ((k = .sections ∨ i.over k = none) ∧
        (i.all = some false ∨
          (i.all = none ∧ needs p = true ∧ ∀ q, Req.prog q ∈ hist → needs q = true))) := by
  rw [disabled_false]
  unfold server
  rw [show translate (hist.foldl step i) p = (hist ++ [Req.prog p]).foldl step i by simp [step], foldl_step]
  simp only
  have key : ((if i.all = none ∧ (hist ++ [Req.prog p]).any free = true then some true else i.all) = none ∨
        (if i.all = none ∧ (hist ++ [Req.prog p]).any free = true then some true else i.all) = some false)
      ↔ (i.all = some false ∨ (i.all = none ∧ needs p = true ∧ ∀ q, Req.prog q ∈ hist → needs q = true)) := by
    rw [← any_free]
    rcases i.all with _ | b
    · cases hp : needs p <;> cases hh : hist.any free <;> simp [free, hp, hh]
    · simp
  rw [key]

/-- C134 for the server, if the user decided about obligations or all earlier programs needed them.  Missing: earlier
programs without obligations (`C134_fails`). -/
theorem C134_partial (i : Ini) (hist : List Req) (p : Prog)
    (h : i.all ≠ none ∨ ∀ q, Req.prog q ∈ hist → needs q = true) :
    accepted (server i hist p) p ↔ accepted (server i [] p) p := by
  have : ∀ k, disabled (server i hist p) k = false ↔ disabled (server i [] p) k = false := by
    intro k
    rw [C134_server_exact, C134_server_exact]
    rcases h with h | h
    · simp [h]
    · have : (∀ q, Req.prog q ∈ hist → needs q = true) ↔ True := ⟨fun _ => trivial, fun _ => h⟩
      rw [this]; simp
  unfold accepted
  constructor
  · intro ha k hk; exact ha k ((this k).2 hk)
  · intro ha k hk; exact ha k ((this k).1 hk)

example : auto.all ≠ none ∨ ∀ q, Req.prog q ∈ [Req.prog loops, .rejected] → needs q = true :=
  Or.inr (by intro q hq; simp at hq; subst hq; decide)

/-- C134 for the service: it holds. -/
theorem C134_service : SameVerdict (fun i hist p => accepted (service i hist p) p) := by
  intro i hist p
  simp only [service_eq]

/-- The service gives the verdict of a separate run of the command line tool. -/
theorem C134_service_cli (i : Ini) (hist : List Req) (p : Prog) :
    accepted (service i hist p) p ↔ accepted (server i [] p) p := by
  simp only [service_eq]; rfl

example : ¬ accepted (service auto [.prog plain, .rejected, .prog plain] loops) loops := by
  intro h; exact absurd (h .termination (by decide)) (by decide)

/-- A separate run without settings encodes each kind of checks iff the program needs obligations. -/
theorem C134_single (i : Ini) (p : Prog) (k : Check) (ha : i.all = none) (ho : i.over k = none) :
    disabled (server i [] p) k = false ↔ needs p = true := by
  rw [C134_server_exact]
  simp [ha, ho]

example : disabled (server auto [] loops) .waitLevel = false := by decide
example : disabled (server auto [] plain) .waitLevel = true := by decide

/-! ### C135 -/

/-- `Visited f c`: like `Occurs`, but not inside the arguments of `Thread` and `getOld`. -/
inductive Visited (f : Func) : Call → Prop
  | here {args} : Visited f (.mk f args)
  | arg {g args d} : d ∈ args → g ≠ .name .thread → g ≠ .name .getOld → Visited f d → Visited f (.mk g args)

/-- Full claim: a program that uses obligations is not translated without them; the module of `Lock` is part of
programs that use locks, and the analyzer finds the real types of receivers or fails. -/
def Conservative : Prop :=
  ∀ (p : Prog) (f : Func) (c : Call), c ∈ p.calls → Occurs f c → Uses f → f.faithful →
    ((∃ r t, f = .attr r t .acquire ∨ f = .attr r t .release) → ∀ d ∈ lockModule, d ∈ p.calls) → needs p = true

/-- The class Thread. -/
abbrev threadCls : Cls := [(.thread, [.start, .join]), (.other 0, [])]

/-- The class Lock and a subclass. -/
abbrev lockCls : Cls := [(.lock, [.acquire, .release]), (.other 0, [])]
abbrev myLock : Cls := (.other 1, []) :: lockCls

/-- The full claim fails, because the arguments of `Thread` are not visited: `Thread(target=f, args=(t.join(g),))`. -/
theorem C135_skipped_fails : ¬ Conservative := by
  intro h
  have := h ⟨[.mk (.name .thread) [.mk (.attr (.cls threadCls) (some (.cls threadCls)) .join) []]], false, fun _ => true⟩
    (.attr (.cls threadCls) (some (.cls threadCls)) .join) _ (List.mem_singleton.2 rfl)
    (.arg (List.mem_singleton.2 rfl) .here) (.thread (Or.inr rfl)) (Or.inr rfl)
    (by rintro ⟨r, t, h | h⟩ <;> cases h)
  exact absurd this (by decide)

/-- C135 for single calls, except for receivers with union types. -/
theorem C135_call {f : Func} (hu : Uses f) (hf : f.faithful) (hn : ∀ cs t a, f ≠ .attr (.union cs) t a) :
    requires f = true := by
  cases hu with
  | spoken h => exact requires_spoken h
  | thread ha =>
    rcases hf with rfl | rfl
    · rcases ha with rfl | rfl <;> simp [requires]
    · rcases ha with rfl | rfl <;> simp [requires, topName, Ty.python]
  | @lock real found a c ha hc hr =>
    have hl := hasLock_of_resolves hr
    have hp : hasLock real.python = true := by
      cases real with
      | cls d => rw [List.mem_singleton.1 hc] at hl; exact hl
      | generic d => rw [List.mem_singleton.1 hc] at hl; exact hl
      | optional d => rw [List.mem_singleton.1 hc] at hl; exact hl
      | union cs => exact absurd rfl (hn cs found a)
    rcases hf with rfl | rfl
    · rcases ha with rfl | rfl <;> simp [requires]
    · rcases ha with rfl | rfl <;> simp [requires, hp]

example : Uses (.attr (.optional myLock) (some (.optional myLock)) .acquire) :=
  .lock (Or.inl rfl) (List.mem_singleton.2 rfl) (.up (by simp) (.here (by simp)))

/-- For a union of a lock and another class with a method `acquire`, the call alone is not recognised. -/
theorem C135_union_fails :
    ∃ f, Uses f ∧ f.faithful ∧ requires f = false :=
  ⟨.attr (.union [myLock, [(.other 2, [.acquire]), (.other 0, [])]])
      (some (.union [myLock, [(.other 2, [.acquire]), (.other 0, [])]])) .acquire,
    .lock (Or.inl rfl) (List.mem_cons_self) (.up (by simp) (.here (by simp))), Or.inr rfl, by decide⟩

/-- C135 for whole programs, except for calls inside the arguments of `Thread` and `getOld`. -/
theorem C135_partial (p : Prog) (f : Func) (c : Call) (hc : c ∈ p.calls) (ho : Visited f c) (hu : Uses f)
    (hf : f.faithful)
    (hl : (∃ r t, f = .attr r t .acquire ∨ f = .attr r t .release) → ∀ d ∈ lockModule, d ∈ p.calls) :
    needs p = true := by
  have hv : visitAll p.calls = true := by
    by_cases hlock : ∃ r t, f = .attr r t .acquire ∨ f = .attr r t .release
    · exact visitAll_iff.2 ⟨_, hl hlock _ List.mem_cons_self, by decide⟩
    · have hr : requires f = true := by
        refine C135_call hu hf ?_
        intro cs t a e
        subst e
        cases hu with
        | lock ha _ _ => exact hlock ⟨_, _, ha.imp (by rintro rfl; rfl) (by rintro rfl; rfl)⟩
      refine visitAll_iff.2 ⟨c, hc, ?_⟩
      clear hc
      induction ho with
      | here => exact visit_of_requires hr
      | @arg g args d hd h1 h2 _ ih =>
        have hs : skipped g = false := by
          cases g with
          | name n => simp only [skipped]; simp at h1 h2; simp [h1, h2]
          | attr r t a => rfl
          | other => rfl
        simp only [visit, hs, visitAll_iff.2 ⟨d, hd, ih⟩]
        simp
  simp [needs, hv]

/-- Programs with statements that need a terminating section are translated with obligations, too. -/
theorem C135_ghost (p : Prog) (h : p.ghost = true) : needs p = true := by simp [needs, h]

/-- Together: in a separate run without settings, all checks of a program that uses obligations are encoded. -/
theorem C135_checked (i : Ini) (p : Prog) (f : Func) (c : Call) (k : Check) (ha : i.all = none) (ho : i.over k = none)
    (hc : c ∈ p.calls) (hv : Visited f c) (hu : Uses f) (hf : f.faithful)
    (hl : (∃ r t, f = .attr r t .acquire ∨ f = .attr r t .release) → ∀ d ∈ lockModule, d ∈ p.calls) :
    disabled (server i [] p) k = false :=
  (C134_single i p k ha ho).2 (C135_partial p f c hc hv hu hf hl)

example : Visited (.attr (.cls threadCls) none .join)
    (.mk (.name (.other 5)) [.mk (.attr (.cls threadCls) none .join) []]) :=
  .arg (List.mem_singleton.2 rfl) (by simp) (by simp) .here

example : Uses (.attr (.cls threadCls) none .join) ∧ (Func.attr (.cls threadCls) none .join).faithful :=
  ⟨.thread (Or.inr rfl), Or.inl rfl⟩

end Nagini.AutoOblig
