/-
C118: in the sequential information flow mode, concurrent programs are rejected.
-/
import Verif.Model.SifMode

namespace Nagini.SifMode

/-- The full claim: a program is rejected iff the sequential mode was asked for and it has a
concurrent call. -/
def C118 : Prop :=
  ∀ arg v, commandLine arg = some v → ∀ cs : List Call,
    (∃ c, translate v cs = .error c) ↔ Sequential arg ∧ ∃ c ∈ cs, c.Concurrent

theorem rejects_iff (v : Value) (c : Call) : rejects v c = true ↔ v = .bool true ∧ c.Concurrent := by
  cases c <;> simp [rejects, isTrue, Call.Concurrent]

theorem translate_iff (v : Value) (cs : List Call) :
    (∃ c, translate v cs = .error c) ↔ v = .bool true ∧ ∃ c ∈ cs, c.Concurrent := by
  induction cs with
  | nil => simp [translate]
  | cons c cs ih =>
    by_cases h : rejects v c = true
    · have := (rejects_iff v c).1 h
      exact ⟨fun _ => ⟨this.1, c, by simp, this.2⟩, fun _ => ⟨c, by simp [translate, h]⟩⟩
    · have h' := mt (rejects_iff v c).2 h
      simp only [translate, h, Bool.false_eq_true, if_false, ih, List.mem_cons, exists_eq_or_imp]
      constructor
      · rintro ⟨hv, hc⟩
        exact ⟨hv, .inr hc⟩
      · rintro ⟨hv, hc | hc⟩
        · exact absurd ⟨hv, hc⟩ h'
        · exact ⟨hv, hc⟩

/-- The translator itself rejects exactly the concurrent programs if its argument is the Python value
`True`, as the tests have it, and no program otherwise. -/
theorem C118_api_partial (v : Value) (cs : List Call) :
    (∃ c, translate v cs = .error c) ↔ v = .bool true ∧ ∃ c ∈ cs, c.Concurrent :=
  translate_iff v cs

/-- The claim holds for those who do not ask for the sequential mode. -/
theorem C118_others_partial (arg : Option (Option Mode)) (v : Value) (h : commandLine arg = some v)
    (hs : ¬ Sequential arg) (cs : List Call) :
    (∃ c, translate v cs = .error c) ↔ Sequential arg ∧ ∃ c ∈ cs, c.Concurrent := by
  rw [translate_iff]
  constructor
  · rintro ⟨rfl, _⟩
    rcases arg with _ | _ | m
    · cases h
    · cases h
    · cases m <;> cases h
  · exact fun h => absurd h.1 hs

/-- With the command line no concurrent program is ever rejected: `--sif` is the string `'true'`. -/
theorem C118_command_line_fails (arg : Option (Option Mode)) (v : Value)
    (h : commandLine arg = some v) (cs : List Call) : translate v cs = .ok () := by
  have hv : v ≠ .bool true := by
    rintro rfl
    rcases arg with _ | _ | m
    · cases h
    · cases h
    · cases m <;> cases h
  cases ht : translate v cs with
  | ok u => rfl
  | error c => exact absurd ((translate_iff v cs).1 ⟨c, ht⟩).1 hv

/-- The full claim is violated. -/
theorem C118_fails : ¬ C118 := by
  intro h
  obtain ⟨c, hc⟩ := (h (some none) (.str .true) rfl [.threadStart]).2
    ⟨trivial, .threadStart, by simp, trivial⟩
  cases hc

/-! ### Examples -/

example : translate (.bool true) [.other, .threadStart] = .error .threadStart := rfl
example : commandLine (some none) = some (.str .true) ∧ Sequential (some none) := ⟨rfl, trivial⟩
example : commandLine (some (some .prob)) = some (.str .prob) ∧ ¬ Sequential (some (some .prob)) :=
  ⟨rfl, fun h => h⟩

end Nagini.SifMode
