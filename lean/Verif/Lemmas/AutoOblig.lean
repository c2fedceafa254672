import Verif.Model.AutoOblig

/-! Lemmas about the detection of obligations and the configuration. -/
namespace Nagini.AutoOblig

theorem hasLock_of_resolves {a : Name} {c : Cls} (h : Resolves a .lock c) : hasLock c = true := by
  induction h with
  | here _ => simp [hasLock]
  | up _ _ ih => simp only [hasLock]; split <;> simp_all

theorem requires_spoken {n : Name} (h : Spoken n) : requires (.name n) = true := by
  cases h <;> decide

theorem visitAll_iff {cs : List Call} : visitAll cs = true ↔ ∃ c ∈ cs, visit c = true := by
  induction cs with
  | nil => simp [visitAll]
  | cons c cs ih => simp [visitAll, ih]

theorem visit_of_requires {f : Func} {args : List Call} (h : requires f = true) : visit (.mk f args) = true := by
  simp [visit, h]

theorem reset_eq (o : Option Bool) (i : Ini) : reset o i = { i with all := o } := by
  cases o <;> rfl

theorem step_over (i : Ini) (r : Req) : (step i r).over = i.over := by
  cases r with
  | rejected => rfl
  | prog p => simp only [step, translate]; split <;> rfl

theorem foldl_service (i : Ini) (o : Option Bool) (hist : List Req) (j : Ini) (h : j.over = i.over) :
    (hist.foldl (fun j r => step (reset o j) r) j).over = i.over := by
  induction hist generalizing j with
  | nil => exact h
  | cons r rs ih =>
    refine ih _ ?_
    rw [step_over, reset_eq]; exact h

theorem service_eq (i : Ini) (hist : List Req) (p : Prog) : service i hist p = translate i p := by
  unfold service
  rw [reset_eq]
  have h := foldl_service i i.all hist i rfl
  rw [h]

/-- A translated program without obligations. -/
def free : Req → Bool
  | .rejected => false
  | .prog q => !needs q

theorem any_free {hist : List Req} : hist.any free = false ↔ ∀ q, Req.prog q ∈ hist → needs q = true := by
  rw [List.any_eq_false]
  constructor
  · intro h q hq; simpa [free] using h _ hq
  · intro h r hr
    cases r with
    | rejected => simp [free]
    | prog q => simp [free, h q hr]

/-- What the configuration says after a history of requests. -/
theorem foldl_step (hist : List Req) (i : Ini) :
    hist.foldl step i = { i with all := if i.all = none ∧ hist.any free = true then some true else i.all } := by
  induction hist generalizing i with
  | nil => simp
  | cons r rs ih =>
    rw [List.foldl_cons, ih]
    cases r with
    | rejected => simp [step, free]
    | prog p =>
      simp only [step, translate]
      obtain ⟨all, over⟩ := i
      by_cases hn : needs p = true <;> rcases all with _ | b <;> simp [free, hn]

theorem disabled_false (i : Ini) (k : Check) :
    disabled i k = false ↔
      (k ≠ .sections ∧ i.over k = some false) ∨
      ((k = .sections ∨ i.over k = none) ∧ (i.all = none ∨ i.all = some false)) := by
  cases k <;> simp [disabled] <;>
    (try cases i.over _ <;> simp) <;> rcases i.all with _ | _ | _ <;> simp

end Nagini.AutoOblig
