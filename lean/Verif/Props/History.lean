import Verif.Spec.History

/-!
C45: the settings for a program do not depend on earlier programs.
-/
set_option linter.unusedVariables false
namespace Nagini.History

theorem parse_str (b : Bool) : parseBool (if b then "True" else "False") = some b := by
  cases b <;> decide +kernel

theorem disableAll_set (s : Section) (b : Bool) : disableAll (setDisableAll s b) = .ok (some b) := by
  unfold disableAll getboolean setDisableAll put
  rw [if_pos rfl]
  dsimp only
  rw [parse_str]

/-- Flags depend on the setting and the other keys only. -/
theorem flag_congr (s s' : Section) (h : ∀ k, k ≠ "disable_all" → s k = s' k)
    (hd : disableAll s = disableAll s') : flag s = flag s' := by
  funext k
  unfold flag
  rw [hd]
  cases hd' : disableAll s' with
  | error e => rfl
  | ok d =>
    dsimp only
    by_cases hk : k = "disable_all"
    · subst hk
      rw [hd'] at hd
      unfold disableAll getboolean at hd hd'
      unfold getboolean
      split at hd <;> split at hd' <;> simp_all
    · unfold getboolean
      rw [h k hk]

/-- Translations agree on sections that agree on the setting and the other keys. -/
theorem translate_congr (s s' : Section) (h : ∀ k, k ≠ "disable_all" → s k = s' k)
    (hd : disableAll s = disableAll s') (p : Program) : (translate s p).2 = (translate s' p).2 := by
  cases p with
  | rejected => rfl
  | analysed needs =>
    have hf := flag_congr s s' h hd
    unfold translate
    cases needs with
    | true => simp [hf]
    | false =>
      dsimp only
      rw [hd]
      rcases hd' : disableAll s' with e | (_ | b)
      · rfl
      · have : setDisableAll s true = setDisableAll s' true := by
          funext k
          unfold setDisableAll put
          by_cases hk : k = "disable_all"
          · simp [hk]
          · simp [hk, h k hk]
        simp [this]
      · simp [hf]

theorem translate_other (s : Section) (p : Program) (k : String) (hk : k ≠ "disable_all") :
    (translate s p).1 k = s k := by
  cases p with
  | rejected => rfl
  | analysed needs =>
    unfold translate setDisableAll put
    cases needs <;> simp only [if_true, Bool.false_eq_true, if_false]
    split <;> simp [hk]

theorem reset_other (i : Option Bool) (s : Section) (k : String) (hk : k ≠ "disable_all") :
    reset i s k = s k := by
  cases i <;> simp [reset, setDisableAll, put, hk]

theorem disableAll_reset (i : Option Bool) (s : Section) : disableAll (reset i s) = .ok i := by
  cases i with
  | none => simp [disableAll, getboolean, reset, put]
  | some b => exact disableAll_set s b

theorem afterService_other (i : Option Bool) (s : Section) (ps : List Program) (k : String)
    (hk : k ≠ "disable_all") : afterService i s ps k = s k := by
  induction ps generalizing s with
  | nil => rfl
  | cons p ps ih =>
    rw [afterService, ih, verify, translate_other _ _ _ hk, reset_other _ _ _ hk]

/-- **C45**, the verification service: whatever was verified before, a program is treated like in a
process that translates only this program. -/
theorem C45_service_partial (s0 : Section) (i : Option Bool) (h : construct s0 = .ok i)
    (history : List Program) (p : Program) :
    (verify i (afterService i s0 history) p).2 = (translate s0 p).2 := by
  refine translate_congr _ _ (fun k hk => ?_) ?_ p
  · rw [reset_other _ _ _ hk, afterService_other _ _ _ _ hk]
  · rw [disableAll_reset]; exact h.symm

/-- **C45**, what that treatment is: the start-up setting decides, and without one, the program. -/
theorem C45_setting_partial (s0 : Section) (i : Option Bool) (h : construct s0 = .ok i)
    (history : List Program) (needs : Bool) :
    ∃ flags, (verify i (afterService i s0 history) (.analysed needs)).2 = .encoded flags ∧
      flags "disable_all" = .ok (expected i needs) ∧
      ∀ key, s0 key = none → flags key = .ok (expected i needs) := by
  rw [C45_service_partial s0 i h]
  have hd : disableAll s0 = .ok i := h
  have hkey : ∀ s : Section, ∀ v, disableAll s = .ok v → flag s "disable_all" = .ok v := by
    intro s v hv
    unfold flag
    rw [hv]
    unfold disableAll getboolean at hv
    unfold getboolean
    dsimp only
    split at hv <;> simp_all
  have hoth : ∀ s : Section, ∀ v key, disableAll s = .ok v → s key = none → flag s key = .ok v := by
    intro s v key hv hk
    unfold flag getboolean
    rw [hv]
    simp [hk]
  cases needs with
  | true =>
    refine ⟨flag s0, rfl, ?_, ?_⟩
    · rw [hkey s0 i hd]; cases i <;> rfl
    · intro key hk; rw [hoth s0 i key hd hk]; cases i <;> rfl
  | false =>
    cases i with
    | some b =>
      refine ⟨flag s0, by simp [translate, hd], hkey s0 _ hd, fun key hk => hoth s0 _ key hd hk⟩
    | none =>
      refine ⟨flag (setDisableAll s0 true), by simp [translate, hd], hkey _ _ (disableAll_set s0 true), ?_⟩
      intro key hk
      by_cases hk' : key = "disable_all"
      · subst hk'; exact hkey _ _ (disableAll_set s0 true)
      · exact hoth _ _ key (disableAll_set s0 true) (by simp [setDisableAll, put, hk', hk])

/-- A program without obligations does not switch them off for the next one. -/
example : (verify none (afterService none (fun _ => none) [.analysed false]) (.analysed true)).2 =
    .encoded (flag fun _ => none) :=
  C45_service_partial (fun _ => none) none rfl [.analysed false] (.analysed true)

/-- A start-up setting written as `yes`. -/
example : construct (put (fun _ => none) "disable_all" (some "yes")) = .ok (some true) := by
  unfold construct disableAll getboolean put
  rw [if_pos rfl]
  have : parseBool "yes" = some true := by decide +kernel
  dsimp only
  rw [this]

/-- **C45** (full claim): the service and the server treat a program like a process that translates
only this program, for every start-up configuration. -/
def C45 : Prop :=
  (∀ s0 i history p, construct s0 = .ok i →
    (verify i (afterService i s0 history) p).2 = (translate s0 p).2) ∧
  ∀ s0 arg history p, (translate (afterServer (startup s0 arg) history) p).2 = (translate (startup s0 arg) p).2

/-- Without a start-up setting, the server's setting is `True` after the first program that does not
need obligations. -/
theorem afterServer_none (s : Section) (h : s "disable_all" = none) (ps : List Program) :
    afterServer s ps = if .analysed false ∈ ps then setDisableAll s true else s := by
  have hkeep : ∀ ps (s : Section), s "disable_all" = some "True" → afterServer s ps = s := by
    intro ps
    induction ps with
    | nil => intro s _; rfl
    | cons p ps ih =>
      intro s hs
      have hd : disableAll s = .ok (some true) := by
        unfold disableAll getboolean
        rw [hs]
        have := parse_str true
        simp only [if_true] at this
        simp [this]
      have : (translate s p).1 = s := by
        cases p with
        | rejected => rfl
        | analysed needs => cases needs <;> simp [translate, hd]
      rw [afterServer, this, ih s hs]
  induction ps with
  | nil => rfl
  | cons p ps ih =>
    have hd : disableAll s = .ok none := by simp [disableAll, getboolean, h]
    rw [afterServer]
    cases p with
    | rejected =>
      rw [show (translate s .rejected).1 = s from rfl, ih]
      simp
    | analysed needs =>
      cases needs with
      | true =>
        rw [show (translate s (.analysed true)).1 = s from rfl, ih]
        simp
      | false =>
        have : (translate s (.analysed false)).1 = setDisableAll s true := by simp [translate, hd]
        rw [this, hkeep ps _ (by simp [setDisableAll, put])]
        simp

/-- With a start-up setting, the server's setting never changes. -/
theorem afterServer_some (s : Section) (v : String) (h : s "disable_all" = some v) (ps : List Program) :
    afterServer s ps = s := by
  induction ps with
  | nil => rfl
  | cons p ps ih =>
    have : (translate s p).1 = s := by
      cases p with
      | rejected => rfl
      | analysed needs =>
        cases needs with
        | true => rfl
        | false =>
          unfold translate disableAll getboolean
          rw [h]
          cases hv : parseBool v <;> simp [hv]
    rw [afterServer, this, ih]

/-- **C45**, the server loop, exact characterisation: a program is treated like in a process of its
own iff there is a start-up setting, or the program does not need obligations, or all programs before
did. -/
theorem C45_server_iff_partial (s : Section) (history : List Program) (p : Program) :
    (translate (afterServer s history) p).2 = (translate s p).2 ↔
      s "disable_all" ≠ none ∨ p ≠ .analysed true ∨ .analysed false ∉ history := by
  cases h : s "disable_all" with
  | some v => simp [afterServer_some s v h]
  | none =>
    rw [afterServer_none s h]
    by_cases hm : Program.analysed false ∈ history
    · have hd : disableAll s = .ok none := by simp [disableAll, getboolean, h]
      simp only [hm, if_true, ne_eq, not_true, false_or, or_false]
      cases p with
      | rejected => simp [translate]
      | analysed needs =>
        cases needs with
        | true =>
          simp only [translate, if_true, Outcome.encoded.injEq, not_true, iff_false]
          intro hf
          have h1 := congrFun hf "disable_all"
          have e1 : flag (setDisableAll s true) "disable_all" = .ok (some true) := by
            unfold flag
            rw [disableAll_set]
            exact (by
              have := disableAll_set s true
              unfold disableAll getboolean at this
              unfold getboolean
              dsimp only
              split at this <;> simp_all)
          have e2 : flag s "disable_all" = .ok none := by
            unfold flag getboolean
            rw [hd]
            simp [h]
          rw [e1, e2] at h1
          cases h1
        | false => simp [translate, hd, disableAll_set]
    · simp [hm]

example : (translate (afterServer (fun _ => none) [.analysed true, .rejected]) (.analysed true)).2 =
    (translate (fun _ => none) (.analysed true)).2 :=
  (C45_server_iff_partial _ _ _).2 (Or.inr (Or.inr (by decide)))

/-- The claim fails for the server loop: after a program without obligations, all checks of a program
with obligations are switched off. -/
theorem C45_server_fails : ¬ C45 := by
  intro h
  have := (C45_server_iff_partial (fun _ => none) [.analysed false] (.analysed true)).1
    (h.2 (fun _ => none) .neither [.analysed false] (.analysed true))
  simp at this

/-- In particular, termination is not checked. -/
theorem C45_termination_fails : ∃ flags,
    (translate (afterServer (startup (fun _ => none) .neither) [.analysed false]) (.analysed true)).2 =
      .encoded flags ∧ flags "disable_termination_check" = .ok (some true) := by
  refine ⟨flag (setDisableAll (fun _ => none) true), ?_, ?_⟩
  · rw [show startup (fun _ => none) .neither = fun _ => none from rfl, afterServer_none _ rfl]
    simp [translate]
  · unfold flag
    rw [disableAll_set]
    simp [getboolean, setDisableAll, put]

/-- **C45** (partial: an argument was given): in the server loop the arguments decide for every program
and after every history.  Every flag without a setting of its own is the argument; flags with a setting
keep it. -/
theorem C45_args_partial (s0 : Section) (arg : Arg) (b : Bool)
    (harg : arg = if b then .ignore else .force) (history : List Program) (needs : Bool) :
    ∃ flags, (translate (afterServer (startup s0 arg) history) (.analysed needs)).2 = .encoded flags ∧
      (∀ k, k ≠ "disable_all" → s0 k = none → flags k = .ok (some b)) ∧
      (∀ k v c, k ≠ "disable_all" → s0 k = some v → parseBool v = some c → flags k = .ok (some c)) := by
  have hs : startup s0 arg = setDisableAll s0 b := by cases b <;> subst harg <;> rfl
  have hset : (setDisableAll s0 b) "disable_all" = some (if b then "True" else "False") := by
    simp [setDisableAll, put]
  rw [hs, afterServer_some _ _ hset]
  have hd := disableAll_set s0 b
  refine ⟨flag (setDisableAll s0 b), ?_, ?_, ?_⟩
  · unfold translate
    cases needs <;> simp [hd]
  · intro k hk hn
    unfold flag
    rw [hd]
    simp [getboolean, setDisableAll, put, hk, hn]
  · intro k v c hk hv hc
    unfold flag
    rw [hd]
    simp [getboolean, setDisableAll, put, hk, hv, hc]

example : ∃ flags, (translate (afterServer (startup (fun _ => none) .force) [.analysed false]) (.analysed true)).2 =
    .encoded flags ∧ flags "disable_termination_check" = .ok (some false) := by
  obtain ⟨flags, h, h1, _⟩ := C45_args_partial (fun _ => none) .force false rfl [.analysed false] true
  exact ⟨flags, h, h1 _ (by decide) rfl⟩

end Nagini.History
