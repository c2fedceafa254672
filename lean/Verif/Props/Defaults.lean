import Verif.Lemmas.Defaults

/-!
C123: a call that leaves out an argument passes the value the default expression had when the function was
defined, and a module that verifies does not raise a NameError when a default value is computed.

Two parts of this are false of the code.  The default expression is inserted at the call, so a variable that is
assigned again after the definition has its new value there.  And default expressions are translated outside of
the main method without recording dependencies, so the names in them are never checked.
-/
namespace Nagini.Defaults

/-- **C123**, in full: if the main method of a module (that defines each function once) verifies, executing the
module raises no exception, and all runs of the encoding make the calls Python makes, with the same values. -/
def C123_claim : Prop :=
  ∀ p : List Stmt, Verifies p → DefinedOnce p →
    ∃ tr, pyTrace p = some tr ∧ (∃ ι h s, encMain p ι h = .done s tr) ∧
      ∀ ι h s ev, encMain p ι h = .done s ev → ev = tr

/-- `G = 1; def f(x: int = G): ...; G = 2; f()`. -/
abbrev stale : List Stmt := [.assign 0 (.lit 1), .define 0 [some (.glob 0)], .assign 0 (.lit 2), .call 0 []]

/-- `def f(x: int = G): ...; G = 1; f()`. -/
abbrev undefined : List Stmt := [.define 0 [some (.glob 0)], .assign 0 (.lit 1), .call 0 []]

/-- The claim is false: after `G = 1; def f(x: int = G): ...; G = 2`, the call `f()` verifies with `x == 2`, in
every run of the encoding, while Python passes 1. -/
theorem C123_stale_fails : Verifies stale ∧ pyTrace stale = some [(0, [1])] ∧
    (∀ ι h s ev, encMain stale ι h = .done s ev → ev = [(0, [2])]) ∧ ¬ C123_claim := by
  have hrun : ∀ ι h, ∃ s, encMain stale ι h = .done s [(0, [2])] := fun ι h => ⟨_, rfl⟩
  have hV : Verifies stale := fun ι h hf => by
    obtain ⟨s, hs⟩ := hrun ι h
    rw [hf] at hs; cases hs
  refine ⟨hV, rfl, ?_, ?_⟩
  · intro ι h s ev he
    obtain ⟨s', hs⟩ := hrun ι h
    rw [he] at hs; cases hs; rfl
  · intro C
    obtain ⟨tr, h1, ⟨ι, h, s, h2⟩, _⟩ := C stale hV (by simp [DefinedOnce])
    have : tr = [(0, [1])] := (Option.some.inj h1).symm
    subst this
    obtain ⟨s', hs⟩ := hrun ι h
    rw [h2] at hs; cases hs

/-- The claim is false: `def f(x: int = G): ...; G = 1; f()` verifies although Python raises a NameError at the
definition. -/
theorem C123_undefined_fails : Verifies undefined ∧ pyTrace undefined = none ∧
    ∃ ι h s, encMain undefined ι h = .done s [(0, [1])] := by
  refine ⟨?_, rfl, fun _ => 1, fun _ => 0, _, rfl⟩
  intro ι h
  by_cases hι : ι 0 = 1
  · have : encMain undefined ι h = .done ⟨h, [0], [0]⟩ [(0, [ι 0])] := by
      simp [encMain, encRun, encStep, evalMain, evalMains, isFinal, writes, hι, paramsOf, bind, evalDefault, read]
    rw [this]; intro hc; cases hc
  · have : encMain undefined ι h = .infeasible := by
      simp [encMain, encRun, encStep, evalMain, isFinal, writes, hι]
    rw [this]; intro hc; cases hc

/-- **C123** (partial): the claim for modules whose default values read only variables that are assigned before
the definition and not again after it.  Missing: default values that read other variables, for which it is false
(`C123_stale_fails`, `C123_undefined_fails`). -/
theorem C123_partial (p : List Stmt) (hV : Verifies p) (hS : DefaultsStable [] p) :
    ∃ tr, pyTrace p = some tr ∧ (∃ ι h s, encMain p ι h = .done s tr) ∧
      ∀ ι h s ev, encMain p ι h = .done s ev → ev = tr := by
  have hrun : ∃ r, pyRun ⟨fun _ => none, fun _ => none⟩ p = some r := by
    rcases run_cases p ⟨fun _ => none, fun _ => none⟩ with h | ⟨pre, c, rest, a', ev, hp, hr, hn⟩
    · exact h
    · let ι : Nat → Int := fun x => (a'.vars x).getD 0
      obtain ⟨b', bf, hb, hA', hS', hbf⟩ := run_follow (p := p) (ι := ι) pre (front := []) (rest := c :: rest)
        (b := ⟨fun _ => 0, [], []⟩) (before := []) (by simpa using hp) (hp ▸ agree_init p ι _) (hp ▸ hS) (by simp) hr
        (fun x v hv => by simp [ι, hv])
      refine absurd ?_ (hV ι fun _ => 0)
      have := encRun_append_failed (rest := rest) pre hb (step_fails hA' hS' hbf hn)
      rw [← hp] at this
      exact this
  obtain ⟨⟨a', tr⟩, hr⟩ := hrun
  refine ⟨tr, by simp [pyTrace, hr], ?_, ?_⟩
  · let ι : Nat → Int := fun x => (a'.vars x).getD 0
    obtain ⟨b', bf, hb, _⟩ := run_follow (p := p) (ι := ι) p (front := []) (rest := [])
      (b := ⟨fun _ => 0, [], []⟩) (before := []) (by simp) (by rw [List.append_nil]; exact agree_init p ι _)
      (by rw [List.append_nil]; exact hS) (by simp) hr (fun x v hv => by simp [ι, hv])
    exact ⟨ι, fun _ => 0, b', hb⟩
  · intro ι h s ev he
    obtain ⟨a2, h2⟩ := run_agree p (agree_init p ι h) hS (by simp) he
    rw [hr] at h2
    cases h2; rfl

/-- A module that meets the hypotheses: `A = 1; B = 2; B = B + 1; def f(x, y=A+B): ...; f(B); f(0, 5)`. -/
abbrev good : List Stmt :=
  [.assign 0 (.lit 1), .assign 1 (.lit 2), .assign 1 (.add (.glob 1) (.lit 1)),
    .define 0 [none, some (.add (.glob 0) (.glob 1))], .call 0 [.glob 1], .call 0 [.lit 0, .lit 5]]

example : Verifies good ∧ DefaultsStable [] good ∧ pyTrace good = some [(0, [3, 4]), (0, [0, 5])] := by
  refine ⟨?_, ?_, rfl⟩
  · intro ι h
    by_cases hι : ι 0 = 1
    · intro hc
      simp [encMain, encRun, encStep, evalMain, evalMains, isFinal, writes, hι, paramsOf, bind, evalDefault, read] at hc
    · have : encMain good ι h = .infeasible := by
        simp [encMain, encRun, encStep, evalMain, isFinal, writes, hι]
      rw [this]; intro hc; cases hc
  · simp [DefaultsStable, Exp.reads]

/-- The second default argument is passed as computed at the definition. -/
example : ∃ ι h s, encMain good ι h = .done s [(0, [3, 4]), (0, [0, 5])] := ⟨fun _ => 1, fun _ => 0, _, rfl⟩

end Nagini.Defaults
