import Verif.Lemmas.Errors
import Mathlib.Data.List.Basic
import Mathlib.Data.List.Nodup

/-!
C43: rendering of errors.  C58: conversion rules of conjunctions.  C59: negated branch conditions.
C60: removal of duplicate errors.
-/
set_option linter.unusedVariables false
set_option linter.unusedSimpArgs false
namespace Nagini.Errors

/-! ### C43 -/

/-- **C43** (full claim): errors whose positions are known can be converted, printed and turned into a
diagnostic. -/
def C43_claim : Prop := ∀ (unparse : Kind → String) (posText : Pos → String) (ide showViper : Bool)
    (m : Manager) (e : VError), Known m e.pos → (∀ vr, e.reason = some vr → Known m vr.offending.pos) →
    (∀ b ∈ e.branches, Known m b.pos) →
    ∃ err, convert unparse m e = .ok err ∧ Ok (errorString unparse posText ide showViper err) ∧
      Ok (diagnostic unparse err)

theorem getItem_iff (m : Manager) (p : Pos) : Ok (getItem m p) ↔ Known m p := by
  cases p with
  | none => exact ⟨fun _ i r h => (by cases h), fun _ => ⟨_, rfl⟩⟩
  | plain r => exact ⟨fun _ i r h => (by cases h), fun _ => ⟨_, rfl⟩⟩
  | ident i r =>
    simp only [getItem]
    cases h : m.items i with
    | none =>
      refine ⟨fun h' => absurd h' (ok_error _), fun h' => ?_⟩
      obtain ⟨it, hit⟩ := h' i r rfl
      rw [h] at hit; cases hit
    | some it => exact ⟨fun _ i' r' h' => by cases h'; exact ⟨it, h⟩, fun _ => ⟨_, rfl⟩⟩

theorem condition_ok (unparse : Kind → String) (it : Item) : Ok (condition unparse it) := by
  unfold condition
  split
  · split
    · exact pprint_node unparse it.node
    · exact ⟨_, rfl⟩
  · exact pprint_node unparse it.node

theorem branches_iff (unparse : Kind → String) (m : Manager) (bs : List Branch) :
    Ok (branchStrings unparse m bs) ↔ ∀ b ∈ bs, Known m b.pos := by
  induction bs with
  | nil => exact ⟨fun _ b hb => (by cases hb), fun _ => ⟨_, rfl⟩⟩
  | cons b bs ih =>
    have hi := getItem_iff m b.pos
    simp only [List.forall_mem_cons, branchStrings]
    cases h : getItem m b.pos with
    | error x =>
      rw [h] at hi
      exact ⟨fun h' => absurd h' (ok_error _), fun h' => absurd (hi.2 h'.1) (ok_error _)⟩
    | ok o =>
      have hk : Known m b.pos := hi.1 ⟨o, h⟩
      cases o with
      | none =>
        dsimp only
        rw [ih]
        exact ⟨fun h' => ⟨hk, h'⟩, fun h' => h'.2⟩
      | some it =>
        obtain ⟨c, hc⟩ := condition_ok unparse it
        dsimp only
        rw [hc]
        dsimp only
        cases hb : branchStrings unparse m bs with
        | error x =>
          rw [hb] at ih
          exact ⟨fun h' => absurd h' (ok_error _), fun h' => absurd (ih.2 h'.2) (ok_error _)⟩
        | ok rest =>
          rw [hb] at ih
          refine ⟨fun _ => ⟨hk, ih.1 ⟨rest, rfl⟩⟩, fun _ => ?_⟩
          dsimp only
          split <;> exact ⟨_, rfl⟩

/-- **C43** (partial): an error can be converted iff it is a timeout or its positions are known; branch
conditions matter only if the error has a registered position.  Missing: errors without known
positions. -/
theorem C43_converts_iff_partial (unparse : Kind → String) (m : Manager) (e : VError) :
    Ok (convert unparse m e) ↔ e.timeout = true ∨ (Known m e.pos ∧
      (∀ vr, e.reason = some vr → Known m vr.offending.pos) ∧
      ((∃ i r, e.pos = .ident i r) → ∀ b ∈ e.branches, Known m b.pos)) := by
  unfold convert
  by_cases ht : e.timeout = true
  · rw [if_pos ht]
    exact ⟨fun _ => Or.inl ht, fun _ => ⟨_, rfl⟩⟩
  · rw [if_neg ht]
    rw [or_iff_right ht]
    have hreason : Ok (reasonItem m e) ↔ ∀ vr, e.reason = some vr → Known m vr.offending.pos := by
      unfold reasonItem
      cases hr : e.reason with
      | none => exact ⟨fun _ vr h => (by cases h), fun _ => ⟨_, rfl⟩⟩
      | some vr =>
        dsimp only
        rw [getItem_iff]
        exact ⟨fun h vr' h' => by cases h'; exact h, fun h => h vr rfl⟩
    cases hx : reasonItem m e with
    | error er =>
      rw [hx] at hreason
      exact ⟨fun h => absurd h (ok_error _), fun h => absurd (hreason.2 h.2.1) (ok_error _)⟩
    | ok ri =>
      have hr := hreason.1 ⟨_, hx⟩
      have hi := getItem_iff m e.pos
      dsimp only
      cases h : getItem m e.pos with
      | error er =>
        rw [h] at hi
        exact ⟨fun h' => absurd h' (ok_error _), fun h' => absurd (hi.2 h'.1) (ok_error _)⟩
      | ok o =>
        have hk : Known m e.pos := hi.1 ⟨o, h⟩
        cases o with
        | none =>
          refine ⟨fun _ => ⟨hk, hr, ?_⟩, fun _ => ⟨_, rfl⟩⟩
          rintro ⟨i, r, hp⟩
          rw [hp] at h
          simp only [getItem] at h
          split at h <;> cases h
        | some it =>
          have hp : ∃ i r, e.pos = .ident i r := by
            cases hpos : e.pos with
            | none => rw [hpos] at h; cases h
            | plain r => rw [hpos] at h; cases h
            | ident i r => exact ⟨i, r, rfl⟩
          have hb := branches_iff unparse m e.branches
          dsimp only
          cases hbs : branchStrings unparse m e.branches with
          | error er =>
            rw [hbs] at hb
            exact ⟨fun h' => absurd h' (ok_error _), fun h' => absurd (hb.2 (h'.2.2 hp)) (ok_error _)⟩
          | ok bs =>
            rw [hbs] at hb
            exact ⟨fun _ => ⟨hk, hr, fun _ => hb.1 ⟨_, rfl⟩⟩, fun _ => ⟨_, rfl⟩⟩

/-- **C43** (partial): exactly when an error can be printed.  Missing: the errors for which the right
side is false, see below. -/
theorem C43_prints_iff_partial (unparse : Kind → String) (posText : Pos → String) (ide showViper : Bool)
    (e : Error) : Ok (errorString unparse posText ide showViper e) ↔
      ∀ r, e.reason = some r → ErrorNeeds e.id e.node ∧ ReasonNeeds r.id r.subject ∧
        (ide = true → e.viper.pos ≠ .none) := by
  unfold errorString
  cases hr : e.reason with
  | none => exact ⟨fun _ r h => (by cases h), fun _ => ⟨_, rfl⟩⟩
  | some r =>
    have hm := message_iff unparse e
    have hs := reason_iff unparse
    dsimp only
    have key : ∀ b : Bool, ∀ f : String → String → String, Ok (match message unparse e with
        | .error x => .error x
        | .ok m =>
          match reasonString unparse b r with
          | .error x => .error x
          | .ok s => .ok (f m s) : Except Exc String) ↔ ErrorNeeds e.id e.node ∧ ReasonNeeds r.id r.subject := by
      intro b f
      rw [← hm, ← hs b r]
      cases message unparse e with
      | error x => exact ⟨fun h => absurd h (ok_error _), fun h => absurd h.1 (ok_error _)⟩
      | ok m =>
        cases reasonString unparse b r with
        | error x => exact ⟨fun h => absurd h (ok_error _), fun h => absurd h.2 (ok_error _)⟩
        | ok s => exact ⟨fun _ => ⟨⟨_, rfl⟩, ⟨_, rfl⟩⟩, fun _ => ⟨_, rfl⟩⟩
    have hshape : ∀ A B C : Prop, (∀ r', some r = some r' → A ∧ ReasonNeeds r'.id r'.subject ∧ C) ↔
        (A ∧ ReasonNeeds r.id r.subject) ∧ C :=
      fun A B C => ⟨fun h => ⟨⟨(h r rfl).1, (h r rfl).2.1⟩, (h r rfl).2.2⟩,
        fun h r' hr' => by cases hr'; exact ⟨h.1.1, h.1.2, h.2⟩⟩
    rw [hshape _ True]
    cases ide with
    | false =>
      simp only [Bool.false_eq_true, if_false, false_implies, and_true]
      exact key showViper _
    | true =>
      simp only [if_true, true_implies]
      cases hp : range e.viper.pos with
      | error x =>
        refine ⟨fun h => absurd h (ok_error _), fun h => ?_⟩
        cases hq : e.viper.pos with
        | none => exact absurd hq h.2
        | plain p => rw [hq] at hp; cases hp
        | ident i p => rw [hq] at hp; cases hp
      | ok p =>
        have hn : e.viper.pos ≠ .none := by
          intro hq; rw [hq] at hp; cases hp
        dsimp only
        simp only [hn, ne_eq, not_false_iff, and_true]
        exact key false fun m s => p.file ++ ":" ++ toString p.line ++ ":" ++ toString (p.col + 1) ++ ":" ++
              toString p.lineEnd ++ ":" ++ toString (p.colEnd + 1) ++ ": error: " ++ m ++ " " ++ s

/-- **C43** (partial): exactly when an error becomes a diagnostic of the service.  Missing: the errors
for which the right side is false, among them timeouts. -/
theorem C43_diagnostic_iff_partial (unparse : Kind → String) (e : Error) :
    Ok (diagnostic unparse e) ↔ ∃ r, e.reason = some r ∧ ErrorNeeds e.id e.node ∧
      ReasonNeeds r.id r.subject ∧ e.viper.pos ≠ .none := by
  unfold diagnostic
  cases hr : e.reason with
  | none => exact ⟨fun h => absurd h (ok_error _), fun ⟨r, h, _⟩ => by cases h⟩
  | some r =>
    have hm := message_iff unparse e
    have hs := reason_iff unparse false r
    dsimp only
    cases hp : range e.viper.pos with
    | error x =>
      refine ⟨fun h => absurd h (ok_error _), fun ⟨r', h', h1, h2, h3⟩ => ?_⟩
      cases hq : e.viper.pos with
      | none => exact absurd hq h3
      | plain p => rw [hq] at hp; cases hp
      | ident i p => rw [hq] at hp; cases hp
    | ok p =>
      have hn : e.viper.pos ≠ .none := by
        intro hq; rw [hq] at hp; cases hp
      dsimp only
      cases hmm : message unparse e with
      | error x =>
        rw [hmm] at hm
        exact ⟨fun h => absurd h (ok_error _), fun ⟨r', h', h1, _⟩ => absurd (hm.2 h1) (ok_error _)⟩
      | ok mm =>
        rw [hmm] at hm
        dsimp only
        cases hss : reasonString unparse false r with
        | error x =>
          rw [hss] at hs
          refine ⟨fun h => absurd h (ok_error _), fun ⟨r', h', h1, h2, _⟩ => ?_⟩
          cases h'
          exact absurd (hs.2 h2) (ok_error _)
        | ok s =>
          rw [hss] at hs
          exact ⟨fun _ => ⟨r, rfl, hm.1 ⟨_, rfl⟩, hs.1 ⟨_, rfl⟩, hn⟩, fun _ => ⟨_, rfl⟩⟩

theorem rules_closed : ∀ R ∈ ruleSets, ∀ p ∈ R,
    p.2.1 ∈ errorIds ∧ p.2.2 ∈ constIds ++ quoteIds ++ targetIds := by decide +kernel

/-- **C43** (partial): conversion rules lead from ids with messages to ids with messages; a reason that
they introduce never needs arguments of a call. -/
theorem C43_rules_partial (R : Rules) (hR : R ∈ ruleSets) (e r : String) (he : e ∈ errorIds)
    (hr : r ∈ reasonIds) : (convertIds R e r).1 ∈ errorIds ∧ (convertIds R e r).2 ∈ reasonIds ∧
      ((convertIds R e r).2 = r ∨ (convertIds R e r).2 ∈ constIds ++ quoteIds ++ targetIds) := by
  unfold convertIds
  cases h : find (e, r) R with
  | none => exact ⟨he, hr, Or.inl rfl⟩
  | some p =>
    have hp := rules_closed R hR _ (find_some _ _ _ h)
    refine ⟨hp.1, ?_, Or.inr hp.2⟩
    unfold reasonIds
    exact List.mem_append_left _ (List.mem_append_left _ hp.2)

theorem workaround_mem (m : Manager) (P : Rules → Prop) (hm : ∀ i R, m.rules i = some R → P R) (n : VNode)
    (R : Rules) (h : workaround m n = some R) : P R := by
  have hg : ∀ p R, getRules m p = some R → P R := by
    intro p R h
    cases p with
    | none => cases h
    | plain r => cases h
    | ident i r => exact hm i R h
  induction n with
  | leaf p => exact hg p R h
  | bin p l r ihl ihr =>
    simp only [workaround] at h
    split at h
    · rename_i x h1; cases h; exact hg _ _ h1
    · split at h
      · rename_i x h1; cases h; exact hg _ _ h1
      · split at h
        · rename_i x h1; cases h; exact hg _ _ h1
        · split at h
          · rename_i x h1; cases h; exact ihl h1
          · exact ihr h

/-- **C43** (partial): an error of a known kind, for which everything is registered, can be converted,
printed and turned into a diagnostic.  Missing: errors of unknown kinds, at unknown positions, or with a
text in place of a node. -/
theorem C43_known_partial (unparse : Kind → String) (posText : Pos → String) (ide showViper : Bool)
    (m : Manager) (hm : ∀ i R, m.rules i = some R → R ∈ ruleSets) (e : VError) (ht : e.timeout = false)
    (he : e.id ∈ errorIds) (vr : VReason) (hvr : e.reason = some vr)
    (hid : vr.id ∈ constIds ++ quoteIds ++ targetIds)
    (i : Nat) (r : Range) (it : Item) (hpos : e.pos = .ident i r) (hit : m.items i = some it)
    (hin : InFunction it.node) (j : Nat) (r' : Range) (it' : Item) (hpos' : vr.offending.pos = .ident j r')
    (hit' : m.items j = some it') (hin' : InFunction it'.node) (htext : it'.reasonString = none)
    (hb : ∀ b ∈ e.branches, Known m b.pos) :
    ∃ err, convert unparse m e = .ok err ∧ Ok (errorString unparse posText ide showViper err) ∧
      Ok (diagnostic unparse err) := by
  have hitem : getItem m e.pos = .ok (some it) := by rw [hpos]; simp only [getItem, hit]
  have hitem' : getItem m vr.offending.pos = .ok (some it') := by rw [hpos']; simp only [getItem, hit']
  obtain ⟨bs, hbs⟩ := (branches_iff unparse m e.branches).2 hb
  have hconv : convert unparse m e =
      .ok (mkError e (rulesFor m e) (some it') (some it.node) it.vias bs) := by
    unfold convert
    have hri : reasonItem m e = .ok (some it') := by
      unfold reasonItem; rw [hvr]; exact hitem'
    rw [ht, hri]
    simp only [Bool.false_eq_true, if_false, hitem, hbs]
  have hclosed : (convertIds (rulesFor m e) e.id vr.id).1 ∈ errorIds ∧
      (convertIds (rulesFor m e) e.id vr.id).2 ∈ constIds ++ quoteIds ++ targetIds := by
    have hempty : convertIds [] e.id vr.id = (e.id, vr.id) := rfl
    have hset : ∀ R ∈ ruleSets, (convertIds R e.id vr.id).1 ∈ errorIds ∧
        (convertIds R e.id vr.id).2 ∈ constIds ++ quoteIds ++ targetIds := by
      intro R hR
      have := C43_rules_partial R hR e.id vr.id he
        (by unfold reasonIds; exact List.mem_append_left _ (List.mem_append_left _ hid))
      refine ⟨this.1, ?_⟩
      rcases this.2.2 with h | h
      · rw [h]; exact hid
      · exact h
    unfold rulesFor
    split
    · rename_i R h1
      exact hset R (workaround_mem m (· ∈ ruleSets) hm _ R h1)
    · rw [hvr]
      dsimp only
      split
      · rename_i R h1
        exact hset R (workaround_mem m (· ∈ ruleSets) hm _ R h1)
      · exact ⟨he, hid⟩
  have hmk : mkError e (rulesFor m e) (some it') (some it.node) it.vias bs =
      ⟨e, (convertIds (rulesFor m e) e.id vr.id).1, some it.node, it.vias,
        some ⟨(convertIds (rulesFor m e) e.id vr.id).2, some (.node it'.node), it'.vias, vr⟩, bs⟩ := by
    have hsub : subjectOf it' = some (.node it'.node) := by unfold subjectOf; rw [htext]
    unfold mkError
    rw [hvr]
    dsimp only
    rw [hsub]
  have h1 : ErrorNeeds (convertIds (rulesFor m e) e.id vr.id).1 (some it.node) := ⟨hclosed.1, fun _ => hin⟩
  have h2 : ReasonNeeds (convertIds (rulesFor m e) e.id vr.id).2 (some (.node it'.node)) := by
    rcases List.mem_append.1 hclosed.2 with h | h
    · rcases List.mem_append.1 h with h | h
      · exact Or.inl h
      · exact Or.inr (Or.inl h)
    · exact Or.inr (Or.inr (Or.inl ⟨h, Or.inr hin'⟩))
  have h3 : e.pos ≠ .none := by rw [hpos]; intro h; cases h
  refine ⟨_, hconv, ?_, ?_⟩
  · rw [C43_prints_iff_partial, hmk]
    intro r hr
    cases hr
    exact ⟨h1, h2, fun _ => h3⟩
  · rw [C43_diagnostic_iff_partial, hmk]
    exact ⟨_, rfl, h1, h2, h3⟩

/-- A manager with one registered position: a call inside a function. -/
def demoManager : Manager where
  items i := if i = 0 then some ⟨⟨.call "f" [.other], [.other, .fdef "g"]⟩, [], none⟩ else none
  rules i := if i = 0 then some [(("call.precondition", "assertion.false"),
    ("leak_check.failed", "caller.has_unsatisfied_obligations"))] else none

/-- A failing precondition at a position. -/
def demoError (p q : Pos) : VError :=
  ⟨false, "call.precondition", some ⟨"assertion.false", .leaf q, none, "reason"⟩, p, .leaf p, "text",
    "readable", []⟩

/-- It is rendered with the converted message. -/
example : ∃ err d, convert (fun _ => "f(x)") demoManager (demoError (.ident 0 ⟨"a.py", 3, 4, 3, 8⟩)
      (.ident 0 ⟨"a.py", 3, 4, 3, 8⟩)) = .ok err ∧
    errorString (fun _ => "f(x)") (fun _ => "a.py@3.4") false false err =
      .ok ("Obligation leak check failed. Callee f might not take all unsatisfied obligations from " ++
        "the caller. (a.py@3.4)") ∧
    diagnostic (fun _ => "f(x)") err = .ok d ∧
    d.code = "leak_check.failed:caller.has_unsatisfied_obligations" :=
  ⟨_, _, rfl, rfl, rfl, rfl⟩

/-- The hypotheses of `C43_known_partial` hold for it. -/
example : (∀ i R, demoManager.rules i = some R → R ∈ ruleSets) ∧
    InFunction ⟨.call "f" [.other], [.other, .fdef "g"]⟩ ∧
    "call.precondition" ∈ errorIds ∧ "assertion.false" ∈ constIds ++ quoteIds ++ targetIds := by
  refine ⟨?_, ⟨"g", by simp⟩, by decide +kernel, by decide +kernel⟩
  intro i R h
  simp only [demoManager] at h
  split at h
  · cases h; decide +kernel
  · cases h

/-- The claim fails: a timeout has no reason, and the service needs one. -/
theorem C43_timeout_fails : ¬ C43_claim := by
  intro h
  obtain ⟨err, h1, -, h2⟩ := h (fun _ => "") (fun _ => "") false false demoManager
    ⟨true, "TimeoutOccurred", none, .none, .leaf .none, "", "", []⟩ (fun i r h => by cases h)
    (fun vr h => by cases h) (fun b hb => by cases hb)
  have : err = mkError ⟨true, "TimeoutOccurred", none, .none, .leaf .none, "", "", []⟩ [] none none [] [] := by
    cases h1; rfl
  subst this
  exact ok_error _ h2

/-- The claim fails: rules belong to the position of an assertion; if the condition has no position,
the reason they introduce has nothing to quote. -/
theorem C43_unquoted_fails : ∃ m e, (∀ i R, m.rules i = some R → R ∈ ruleSets) ∧ Known m e.pos ∧
    (∀ vr, e.reason = some vr → Known m vr.offending.pos) ∧ e.id ∈ errorIds ∧
    (∀ vr, e.reason = some vr → vr.id ∈ vagueIds) ∧
    ∀ (unparse : Kind → String) (posText : Pos → String) (ide showViper : Bool),
      ∃ err, convert unparse m e = .ok err ∧ ¬ Ok (errorString unparse posText ide showViper err) := by
  refine ⟨⟨demoManager.items, fun i => if i = 0 then some [(("assert.failed", "assertion.false"),
      ("probabilistic.sif.violated", "high.branch"))] else none⟩,
    ⟨false, "assert.failed", some ⟨"assertion.false", .leaf .none, none, ""⟩, .ident 0 ⟨"a.py", 3, 4, 3, 8⟩,
      .leaf (.ident 0 ⟨"a.py", 3, 4, 3, 8⟩), "", "", []⟩, ?_, ?_, ?_, by decide +kernel, ?_, ?_⟩
  · intro i R h
    dsimp only at h
    split at h
    · cases h; decide +kernel
    · cases h
  · intro i r h
    cases h
    exact ⟨_, rfl⟩
  · intro vr h i r h'
    cases h
    cases h'
  · intro vr h
    cases h
    decide +kernel
  · intro unparse posText ide showViper
    refine ⟨_, rfl, ?_⟩
    rw [C43_prints_iff_partial]
    intro h
    have := (h _ rfl).2.1
    revert this
    change ¬ (_ ∨ _)
    decide +kernel

/-- The claim fails: a contract that is not well-formed, in a node outside of functions. -/
theorem C43_module_level_fails (unparse : Kind → String) (posText : Pos → String) (ide showViper : Bool)
    (e : Error) (r : Reason) (hr : e.reason = some r) (hid : e.id = "predicate.not.wellformed")
    (n : PyNode) (hn : e.node = some n) (hout : ¬ InFunction n) :
    ¬ Ok (errorString unparse posText ide showViper e) := by
  rw [C43_prints_iff_partial]
  intro h
  have := (h r hr).1
  rw [hn, hid] at this
  exact hout (this.2 (by decide +kernel))

/-- A node at the top level of a module. -/
example : ¬ InFunction ⟨.other, [.other]⟩ := by
  rintro ⟨f, h⟩
  simp at h

/-! ### C58 -/

/-- **C58** (full claim): if some part of the offending expression carries rules, those rules are
used for it. -/
def C58_claim : Prop := ∀ (m : Manager) (n : VNode) (R : Rules), Carries m n R → workaround m n = some R

theorem getRules_carries (m : Manager) (n : VNode) (R : Rules) (h : getRules m n.pos = some R) :
    Carries m n R := by
  cases hp : n.pos with
  | none => rw [hp] at h; cases h
  | plain r => rw [hp] at h; cases h
  | ident i r => rw [hp] at h; exact .here hp h

/-- **C58** (partial): rules that are used belong to the offending expression.  Missing: that they belong
to the part that failed. -/
theorem C58_found_partial (m : Manager) (n : VNode) (R : Rules) (h : workaround m n = some R) :
    Carries m n R := by
  induction n with
  | leaf p => exact getRules_carries m _ R h
  | bin p l r ihl ihr =>
    simp only [workaround] at h
    split at h
    · rename_i x h1; cases h; exact getRules_carries m (.bin p l r) R h1
    · split at h
      · rename_i x h1; cases h; exact .left (getRules_carries m _ R h1)
      · split at h
        · rename_i x h1; cases h; exact .right (getRules_carries m _ R h1)
        · split at h
          · rename_i x h1; cases h; exact .left (ihl h1)
          · exact .right (ihr h)

/-- **C58** (partial): if any part carries rules, some are found. -/
theorem C58_some_partial (m : Manager) (n : VNode) (R : Rules) (h : Carries m n R) :
    ∃ R', workaround m n = some R' := by
  induction h with
  | @here n i r R hp hR =>
    have hg : getRules m n.pos = some R := by rw [hp]; exact hR
    cases n with
    | leaf p => exact ⟨R, hg⟩
    | bin p l r =>
      refine ⟨R, ?_⟩
      have hg' : getRules m p = some R := hg
      simp only [workaround, hg']
  | @left p l r R _ ih =>
    obtain ⟨R', h'⟩ := ih
    simp only [workaround, h']
    split
    · exact ⟨_, rfl⟩
    · split
      · exact ⟨_, rfl⟩
      · split <;> exact ⟨_, rfl⟩
  | @right p l r R _ ih =>
    obtain ⟨R', h'⟩ := ih
    simp only [workaround, h']
    split
    · exact ⟨_, rfl⟩
    · split
      · exact ⟨_, rfl⟩
      · split
        · exact ⟨_, rfl⟩
        · split <;> exact ⟨_, rfl⟩

/-- **C58** (partial): if only one set of rules occurs, it is used. -/
theorem C58_unique_partial (m : Manager) (n : VNode) (R : Rules) (h : Carries m n R)
    (hu : ∀ R', Carries m n R' → R' = R) : workaround m n = some R := by
  obtain ⟨R', h'⟩ := C58_some_partial m n R h
  rw [h', hu R' (C58_found_partial m n R' h')]

/-- An implication that has rules in its right part only. -/
example : workaround demoManager (.bin .none (.leaf .none) (.bin (.plain ⟨"x.sil", 0, 0, 0, 0⟩)
      (.leaf .none) (.leaf (.ident 0 ⟨"a.py", 3, 4, 3, 8⟩)))) =
    some [(("call.precondition", "assertion.false"),
      ("leak_check.failed", "caller.has_unsatisfied_obligations"))] := rfl

/-- The claim fails: both parts of a conjunction carry rules. -/
theorem C58_conjunction_fails : ¬ C58_claim := by
  intro h
  have := h ⟨fun _ => none, fun i => some (if i = 0 then [] else [(("a", "b"), ("c", "d"))])⟩
    (.bin .none (.leaf (.ident 0 ⟨"a.py", 1, 1, 1, 1⟩)) (.leaf (.ident 1 ⟨"a.py", 2, 1, 2, 1⟩)))
    [(("a", "b"), ("c", "d"))] (.right (.here rfl rfl))
  simp [workaround, getRules, VNode.pos] at this

/-! ### C59 -/

theorem depth_append (d : Nat) (a b : List Char) : depth d (a ++ b) = (depth d a).bind fun x => depth x b := by
  induction a generalizing d with
  | nil => rfl
  | cons c a ih =>
    simp only [List.cons_append, depth]
    split
    · exact ih _
    · split
      · cases d with
        | zero => rfl
        | succ d => exact ih d
      · exact ih _

theorem depth_shift (d k e : Nat) (a : List Char) (h : depth d a = some e) : depth (d + k) a = some (e + k) := by
  induction a generalizing d with
  | nil => simp only [depth, Option.some.injEq] at h ⊢; omega
  | cons c a ih =>
    simp only [depth] at h ⊢
    split
    · rename_i hc
      rw [if_pos hc] at h
      rw [show d + k + 1 = d + 1 + k by omega]
      exact ih (d + 1) h
    · rename_i hc
      rw [if_neg hc] at h
      split
      · rename_i hc'
        rw [if_pos hc'] at h
        cases d with
        | zero => cases h
        | succ d =>
          rw [show d + 1 + k = d + k + 1 by omega]
          exact ih d h
      · rename_i hc'
        rw [if_neg hc'] at h
        exact ih d h

/-- **C59** (full claim): parentheses of a negated branch condition match if those of the condition do. -/
def C59_claim : Prop := ∀ c : List Char, Balanced c → Balanced (negate c)

/-- **C59** (partial): exactly when parentheses of the negated condition match.  If the condition does
not look like `(not d)` it is always the case.  Missing: conditions such as `(not a) == (not b)`. -/
theorem C59_negate_iff_partial (c : List Char) (h : Balanced c) :
    Balanced (negate c) ↔ ∀ d, c = "(not ".toList ++ d ++ [')'] → Balanced d := by
  have hlist : "(not ".toList = ['(', 'n', 'o', 't', ' '] := rfl
  unfold negate
  by_cases hc : ∃ d, c = "(not ".toList ++ d ++ [')']
  · obtain ⟨d, rfl⟩ := hc
    have h1 : ("(not ".toList.isPrefixOf ("(not ".toList ++ d ++ [')']) && [')'].isSuffixOf ("(not ".toList ++ d ++ [')'])) = true := by
      rw [Bool.and_eq_true, List.isPrefixOf_iff_prefix, List.isSuffixOf_iff_suffix]
      exact ⟨⟨d ++ [')'], by simp⟩, ⟨"(not ".toList ++ d, rfl⟩⟩
    rw [if_pos h1]
    have h2 : ((("(not ".toList ++ d ++ [')']) : List Char).drop 5).dropLast = d := by
      rw [hlist, List.append_assoc]
      simp
    rw [h2]
    refine ⟨fun hd d' hd' => ?_, fun hd => hd d rfl⟩
    have : d = d' := by
      have := List.append_cancel_right hd'
      exact List.append_cancel_left this
    exact this ▸ hd
  · have h1 : ¬ ("(not ".toList.isPrefixOf c && [')'].isSuffixOf c) = true := by
      rw [Bool.and_eq_true, List.isPrefixOf_iff_prefix, List.isSuffixOf_iff_suffix]
      rintro ⟨⟨x, hx⟩, ⟨y, hy⟩⟩
      apply hc
      rcases List.eq_nil_or_concat x with hx0 | ⟨x', a, hx'⟩
      · subst hx0
        rw [List.append_nil] at hx
        rw [← hy, hlist] at hx
        have := congrArg List.getLast? hx
        simp at this
      · subst hx'
        refine ⟨x', ?_⟩
        have hxy := hx.trans hy.symm
        rw [List.concat_eq_append, ← List.append_assoc] at hxy
        have ha : a = ')' := by
          have := congrArg List.getLast? hxy
          rw [List.getLast?_append, List.getLast?_append] at this
          simpa using this
        rw [← hx, ha, List.concat_eq_append, List.append_assoc]
    rw [if_neg h1]
    refine ⟨fun _ d hd => absurd ⟨d, hd⟩ hc, fun _ => ?_⟩
    unfold Balanced at *
    rw [List.append_assoc, depth_append, hlist]
    have hs : depth 0 ['(', 'n', 'o', 't', ' '] = some 1 := by decide
    rw [hs]
    simp only [Option.bind_some]
    rw [depth_append, show 1 = 0 + 1 from rfl, depth_shift 0 1 0 c h]
    rfl

example : Balanced "f(x) == (y)".toList ∧ negate "f(x) == (y)".toList = "(not f(x) == (y))".toList ∧
    negate "(not f(x))".toList = "f(x)".toList := by unfold Balanced; decide +kernel

/-- The claim fails for a comparison of negations. -/
theorem C59_parentheses_fails : ¬ C59_claim ∧ negate "(not a) == (not b)".toList = "a) == (not b".toList := by
  refine ⟨fun h => ?_, by decide +kernel⟩
  have := h "(not a) == (not b)".toList (by unfold Balanced; decide +kernel)
  revert this
  unfold Balanced
  decide +kernel

/-! ### C60 -/

theorem unique_spec (seen es : List String) (hs : seen.Nodup) :
    (unique seen es).Nodup ∧ ∀ x, x ∈ unique seen es ↔ x ∈ seen ∨ x ∈ es := by
  induction es generalizing seen with
  | nil => exact ⟨hs, fun x => by simp [unique]⟩
  | cons e es ih =>
    simp only [unique]
    split
    · rename_i he
      obtain ⟨h1, h2⟩ := ih seen hs
      refine ⟨h1, fun x => ?_⟩
      rw [h2 x, List.mem_cons]
      constructor
      · rintro (h | h)
        · exact Or.inl h
        · exact Or.inr (Or.inr h)
      · rintro (h | rfl | h)
        · exact Or.inl h
        · exact Or.inl he
        · exact Or.inr h
    · rename_i he
      have hn : (seen ++ [e]).Nodup := by
        rw [List.nodup_append]
        refine ⟨hs, by simp, ?_⟩
        intro a ha b hb
        rw [List.mem_singleton] at hb
        subst hb
        rintro rfl
        exact he ha
      obtain ⟨h1, h2⟩ := ih (seen ++ [e]) hn
      refine ⟨h1, fun x => ?_⟩
      rw [h2 x]
      simp [or_assoc]

/-- **C60** (partial): the list printed on the command line has the same texts, each once. -/
theorem C60_printed_partial (es : List String) :
    (unique [] es).Nodup ∧ ∀ x, x ∈ unique [] es ↔ x ∈ es := by
  have := unique_spec [] es List.nodup_nil
  simpa using this

/-- **C60** (full claim for the service): every diagnostic is shown. -/
def C60_claim : Prop := ∀ ds : List Diag, ∀ d ∈ ds, d ∈ uniqueDiags [] ds

theorem uniqueDiags_spec (seen : List (String × Nat × Nat × String × String)) (ds : List Diag) :
    (uniqueDiags seen ds).Sublist ds ∧ (∀ d ∈ uniqueDiags seen ds, d.key ∉ seen) ∧
      ((uniqueDiags seen ds).map Diag.key).Nodup ∧
      ∀ d ∈ ds, d.key ∈ seen ∨ ∃ d' ∈ uniqueDiags seen ds, d'.key = d.key := by
  induction ds generalizing seen with
  | nil => simp [uniqueDiags]
  | cons d ds ih =>
    simp only [uniqueDiags]
    split
    · rename_i hd
      obtain ⟨h1, h2, h3, h4⟩ := ih seen
      refine ⟨h1.cons d, h2, h3, ?_⟩
      intro x hx
      rcases List.mem_cons.1 hx with rfl | hx
      · exact Or.inl hd
      · exact h4 x hx
    · rename_i hd
      obtain ⟨h1, h2, h3, h4⟩ := ih (d.key :: seen)
      refine ⟨h1.cons_cons d, ?_, ?_, ?_⟩
      · intro x hx
        rcases List.mem_cons.1 hx with rfl | hx
        · exact hd
        · exact fun hs => h2 x hx (List.mem_cons_of_mem _ hs)
      · rw [List.map_cons, List.nodup_cons]
        refine ⟨?_, h3⟩
        intro hm
        obtain ⟨x, hx, hk⟩ := List.mem_map.1 hm
        exact h2 x hx (hk ▸ List.mem_cons_self)
      · intro x hx
        rcases List.mem_cons.1 hx with rfl | hx
        · exact Or.inr ⟨x, List.mem_cons_self, rfl⟩
        · rcases h4 x hx with h | ⟨d', hd', hk⟩
          · rcases List.mem_cons.1 h with h | h
            · exact Or.inr ⟨d, List.mem_cons_self, h.symm⟩
            · exact Or.inl h
          · exact Or.inr ⟨d', List.mem_cons_of_mem _ hd', hk⟩

/-- **C60** (partial): diagnostics of the service appear in order, no two with the same position, code
and message, and for each error one with its position, code and message is shown.  Missing: its
reason. -/
theorem C60_service_partial (ds : List Diag) :
    (uniqueDiags [] ds).Sublist ds ∧ ((uniqueDiags [] ds).map Diag.key).Nodup ∧
      ∀ d ∈ ds, ∃ d' ∈ uniqueDiags [] ds, d'.file = d.file ∧ d'.line = d.line ∧ d'.col = d.col ∧
        d'.code = d.code ∧ d'.message = d.message := by
  obtain ⟨h1, -, h3, h4⟩ := uniqueDiags_spec [] ds
  refine ⟨h1, h3, fun d hd => ?_⟩
  rcases h4 d hd with h | ⟨d', hd', hk⟩
  · cases h
  · simp only [Diag.key, Prod.mk.injEq] at hk
    exact ⟨d', hd', hk.1, hk.2.1, hk.2.2.1, hk.2.2.2.1, hk.2.2.2.2⟩

example : uniqueDiags [] [⟨"a.py", 1, 0, "m", "c", "r"⟩, ⟨"a.py", 1, 0, "m", "c", "r"⟩, ⟨"a.py", 2, 0, "m", "c", "r"⟩] =
    [⟨"a.py", 1, 0, "m", "c", "r"⟩, ⟨"a.py", 2, 0, "m", "c", "r"⟩] := by decide +kernel

/-- The claim fails: two conjuncts of a precondition may not hold at the same call; only the first one
is shown. -/
theorem C60_reason_fails : ¬ C60_claim := by
  intro h
  have := h [⟨"a.py", 1, 0, "The precondition of method f might not hold.", "call.precondition:assertion.false",
      "Assertion a > 0 might not hold."⟩,
    ⟨"a.py", 1, 0, "The precondition of method f might not hold.", "call.precondition:assertion.false",
      "Assertion b > 0 might not hold."⟩] _ (List.mem_cons_of_mem _ List.mem_cons_self)
  revert this
  decide +kernel

end Nagini.Errors
