import Verif.Spec.Errors

/-!
Lemmas for C43: tables of messages.
-/
set_option linter.unusedVariables false
set_option linter.unusedSimpArgs false
namespace Nagini.Errors

/-! ### Tables -/

theorem find_some {K V : Type} [DecidableEq K] (k : K) (l : List (K × V)) (v : V) (h : find k l = some v) :
    (k, v) ∈ l := by
  induction l with
  | nil => cases h
  | cons a l ih =>
    obtain ⟨k', v'⟩ := a
    simp only [find] at h
    by_cases hk : k = k'
    · rw [if_pos hk] at h; cases h; subst hk; exact List.mem_cons_self
    · rw [if_neg hk] at h; exact List.mem_cons_of_mem _ (ih h)

theorem find_none {K V : Type} [DecidableEq K] (k : K) (l : List (K × V)) (h : find k l = none) :
    k ∉ l.map (·.1) := by
  induction l with
  | nil => simp
  | cons a l ih =>
    obtain ⟨k', v'⟩ := a
    simp only [find] at h
    by_cases hk : k = k'
    · rw [if_pos hk] at h; cases h
    · rw [if_neg hk] at h
      simp only [List.map_cons, List.mem_cons, not_or]
      exact ⟨hk, ih h⟩

/-- The class of ids an entry of the table of reasons belongs to. -/
def sorted (id : String) : Template → Bool
  | .const _ => id ∈ constIds ∧ id ∉ quoteIds ∧ id ∉ targetIds ∧ id ∉ argIds ∧ id ≠ "sif.fold" ∧ id ≠ "sif.unfold"
  | .pp _ _ => id ∉ constIds ∧ id ∈ quoteIds ∧ id ∉ targetIds ∧ id ∉ argIds ∧ id ≠ "sif.fold" ∧ id ≠ "sif.unfold"
  | .target _ _ => id ∉ constIds ∧ id ∉ quoteIds ∧ id ∈ targetIds ∧ id ∉ argIds ∧ id ≠ "sif.fold" ∧ id ≠ "sif.unfold"
  | .argPp _ _ => id ∉ constIds ∧ id ∉ quoteIds ∧ id ∉ targetIds ∧ id ∈ argIds ∧ id ≠ "sif.fold" ∧ id ≠ "sif.unfold"
  | .argTarget _ _ none => id ∉ constIds ∧ id ∉ quoteIds ∧ id ∉ targetIds ∧ id ∉ argIds ∧ id ≠ "sif.fold" ∧ id = "sif.unfold"
  | .argTarget _ _ (some _) => id ∉ constIds ∧ id ∉ quoteIds ∧ id ∉ targetIds ∧ id ∉ argIds ∧ id = "sif.fold" ∧ id ≠ "sif.unfold"
  | .member _ _ => false
  | .memberOr _ _ _ => false
  | .callee _ _ _ _ => false

theorem reasons_sorted : ∀ e ∈ reasonTable, sorted e.1 e.2 = true := by decide +kernel

theorem reasons_complete : ∀ id ∈ reasonIds, id ∈ reasonTable.map (·.1) := by decide +kernel

theorem vague_complete : (vagueTable.map (·.1)) = vagueIds := by decide +kernel

/-- The class of ids an entry of the table of errors belongs to. -/
def sortedE (id : String) : Template → Bool
  | .member _ _ => id ∈ errorIds ∧ id ∈ memberIds
  | .const _ => id ∈ errorIds ∧ id ∉ memberIds
  | .pp _ _ => id ∈ errorIds ∧ id ∉ memberIds
  | .memberOr _ _ _ => id ∈ errorIds ∧ id ∉ memberIds
  | .callee _ _ _ _ => id ∈ errorIds ∧ id ∉ memberIds
  | .target _ _ => false
  | .argPp _ _ => false
  | .argTarget _ _ _ => false

theorem errors_sorted : ∀ e ∈ errorTable, sortedE e.1 e.2 = true := by decide +kernel

theorem errors_complete : ∀ id ∈ errorIds, id ∈ errorTable.map (·.1) := by decide +kernel

/-! ### Nodes -/

theorem findMember_iff (ks : List Kind) : (∃ f, findMember ks = some f) ↔ ∃ f, Kind.fdef f ∈ ks := by
  induction ks with
  | nil => simp [findMember]
  | cons k ks ih =>
    cases k <;> simp [findMember, ih]

theorem member_iff (n : PyNode) : (∃ f, containingMember (.node n) = some f) ↔ InFunction n := by
  obtain ⟨k, ks⟩ := n
  exact findMember_iff (k :: ks)

theorem target_iff (n : PyNode) : Ok (targetName (some (.node n))) ↔ HasTarget n := by
  obtain ⟨k, ks⟩ := n
  cases k with
  | call t as => exact ⟨fun _ => Or.inl ⟨t, as, rfl⟩, fun _ => ⟨t, rfl⟩⟩
  | fdef f => exact ⟨fun _ => Or.inr ⟨f, List.mem_cons_self⟩, fun _ => ⟨f, rfl⟩⟩
  | other =>
    have hm := member_iff ⟨.other, ks⟩
    have hr : targetName (some (.node ⟨.other, ks⟩)) =
        (match containingMember (.node ⟨.other, ks⟩) with
          | some n => Except.ok n
          | none => .error .attribute) := rfl
    rw [hr]
    constructor
    · rintro ⟨a, ha⟩
      cases hc : containingMember (.node ⟨.other, ks⟩) with
      | none => rw [hc] at ha; cases ha
      | some f => exact Or.inr (hm.1 ⟨f, hc⟩)
    · rintro (⟨t, as, h⟩ | h)
      · cases h
      · obtain ⟨f, hf⟩ := hm.2 h
        rw [hf]
        exact ⟨f, rfl⟩

theorem target_text (s : String) : ¬ Ok (targetName (some (.text s))) := by
  rintro ⟨a, h⟩; cases h

theorem target_none : ¬ Ok (targetName none) := by
  rintro ⟨a, h⟩; cases h

theorem pprint_node (unparse : Kind → String) (n : PyNode) : Ok (pprint unparse (some (.node n))) := by
  obtain ⟨k, ks⟩ := n
  cases k <;> exact ⟨_, rfl⟩

theorem pprint_text (unparse : Kind → String) (s : String) : Ok (pprint unparse (some (.text s))) ↔ s ≠ "" := by
  simp only [pprint, Ok]
  by_cases h : s = ""
  · simp [h]
  · simp [h]

theorem fill_iff (a b : String) (x : Except Exc String) : Ok (fill a b x) ↔ Ok x := by
  cases x with
  | error e => exact ⟨fun ⟨_, h⟩ => by simp [fill] at h, fun ⟨_, h⟩ => by cases h⟩
  | ok s => exact ⟨fun _ => ⟨s, rfl⟩, fun _ => ⟨_, rfl⟩⟩

theorem firstArg_iff (n : PyNode) (x : Subject) : firstArg (some (.node n)) = .ok x ↔
    ∃ a, x = .node a ∧ FirstArg n a := by
  obtain ⟨k, ks⟩ := n
  cases k with
  | call t as =>
    cases as with
    | nil =>
      constructor
      · intro h; simp [firstArg, args] at h
      · rintro ⟨a, -, t', as, h, -⟩; cases h
    | cons a as =>
      constructor
      · intro h
        simp only [firstArg, args] at h
        cases h
        exact ⟨_, rfl, t, as, rfl, rfl⟩
      · rintro ⟨⟨k', ks'⟩, rfl, t', as', h, h2⟩
        simp only at h h2
        cases h
        subst h2
        rfl
  | fdef f =>
    constructor
    · intro h; simp [firstArg, args] at h
    · rintro ⟨a, -, t', as, h, -⟩; cases h
  | other =>
    constructor
    · intro h; simp [firstArg, args] at h
    · rintro ⟨a, -, t', as, h, -⟩; cases h

theorem firstArg_none : ∃ e, firstArg none = .error e := ⟨_, rfl⟩

theorem firstArg_text (s : String) : ∃ e, firstArg (some (.text s)) = .error e := ⟨_, rfl⟩

theorem args_nil_iff (n : PyNode) : args (some (.node n)) = .ok [] ↔ ∃ t, n.kind = .call t [] := by
  obtain ⟨k, ks⟩ := n
  cases k with
  | call t as => simp [args]
  | fdef f => simp [args]
  | other => simp [args]

theorem ok_error {α : Type} (e : Exc) : ¬ Ok (Except.error e : Except Exc α) := by
  rintro ⟨_, h⟩; cases h

/-! ### Messages -/

theorem instantiate_argPp (unparse : Kind → String) (a b : String) (s : Option Subject) :
    Ok (instantiate unparse (.argPp a b) s) ↔ ∃ n, s = some (.node n) ∧ ∃ x, FirstArg n x := by
  simp only [instantiate]
  cases s with
  | none => simp [firstArg, args, ok_error]
  | some s =>
    cases s with
    | text s => simp [firstArg, args, ok_error]
    | node n =>
      cases h : firstArg (some (.node n)) with
      | error e =>
        dsimp only
        refine ⟨fun h' => absurd h' (ok_error e), ?_⟩
        rintro ⟨n', hn, x, hx⟩
        cases hn
        rw [(firstArg_iff n _).2 ⟨x, rfl, hx⟩] at h
        cases h
      | ok x =>
        obtain ⟨y, rfl, hy⟩ := (firstArg_iff n x).1 h
        dsimp only
        rw [fill_iff]
        exact ⟨fun _ => ⟨n, rfl, y, hy⟩, fun _ => pprint_node unparse y⟩

theorem firstArg_target (a b : String) (n : PyNode) :
    Ok (match firstArg (some (.node n)) with
      | .ok x => fill a b (targetName (some x))
      | .error e => .error e) ↔ ∃ x, FirstArg n x ∧ HasTarget x := by
  cases h : firstArg (some (.node n)) with
  | error e =>
    dsimp only
    refine ⟨fun h' => absurd h' (ok_error e), ?_⟩
    rintro ⟨x, hx, -⟩
    rw [(firstArg_iff n _).2 ⟨x, rfl, hx⟩] at h
    cases h
  | ok x =>
    obtain ⟨y, rfl, hy⟩ := (firstArg_iff n x).1 h
    dsimp only
    rw [fill_iff, target_iff]
    refine ⟨fun ht => ⟨y, hy, ht⟩, ?_⟩
    rintro ⟨z, hz, ht⟩
    have := (firstArg_iff n _).2 ⟨z, rfl, hz⟩
    rw [h] at this
    cases this
    exact ht

theorem instantiate_argTarget (unparse : Kind → String) (a b : String) (e : Option String)
    (s : Option Subject) : Ok (instantiate unparse (.argTarget a b e) s) ↔
      ∃ n, s = some (.node n) ∧ ((e.isSome ∧ ∃ t, n.kind = .call t []) ∨ ∃ x, FirstArg n x ∧ HasTarget x) := by
  cases s with
  | none => simp [instantiate, firstArg, args, ok_error]
  | some s =>
    cases s with
    | text s => simp [instantiate, firstArg, args, ok_error]
    | node n =>
      have hft := firstArg_target a b n
      cases e with
      | none =>
        have hr : instantiate unparse (.argTarget a b none) (some (.node n)) =
            (match firstArg (some (.node n)) with
              | .ok x => fill a b (targetName (some x))
              | .error e => .error e) := by
          simp only [instantiate]
          split
          · rename_i h1; cases h1
          · rfl
        rw [hr, hft]
        simp
      | some d =>
        by_cases hn : args (some (.node n)) = .ok []
        · have hr : instantiate unparse (.argTarget a b (some d)) (some (.node n)) = .ok (a ++ d ++ b) := by
            simp only [instantiate, hn]
          rw [hr]
          exact ⟨fun _ => ⟨n, rfl, Or.inl ⟨rfl, (args_nil_iff n).1 hn⟩⟩, fun _ => ⟨_, rfl⟩⟩
        · have hr : instantiate unparse (.argTarget a b (some d)) (some (.node n)) =
            (match firstArg (some (.node n)) with
              | .ok x => fill a b (targetName (some x))
              | .error e => .error e) := by
            simp only [instantiate]
            split
            · rename_i h1 _; exact absurd h1 hn
            · rfl
          rw [hr, hft]
          constructor
          · rintro h; exact ⟨n, rfl, Or.inr h⟩
          · rintro ⟨n', h', h⟩
            cases h'
            rcases h with ⟨-, h⟩ | h
            · exact absurd ((args_nil_iff n).2 h) hn
            · exact h

/-- Reasons. -/
theorem reason_iff (unparse : Kind → String) (b : Bool) (r : Reason) :
    Ok (reasonString unparse b r) ↔ ReasonNeeds r.id r.subject := by
  have table : ∀ s : Option Subject, Ok (match find r.id reasonTable with
      | some t => instantiate unparse t s
      | none => .error .key) ↔ (match s with
        | none => r.id ∈ constIds
        | some (.text x) => ReasonNeeds r.id (some (.text x))
        | some (.node x) => ReasonNeeds r.id (some (.node x))) := by
    intro s
    cases h : find r.id reasonTable with
    | none =>
      have hn := find_none _ _ h
      have hall : r.id ∉ reasonIds := fun hi => hn (reasons_complete _ hi)
      unfold reasonIds at hall
      simp only [List.mem_append, not_or, List.mem_cons, List.not_mem_nil, or_false] at hall
      obtain ⟨⟨⟨⟨h1, h2⟩, h3⟩, h4⟩, h5, h6⟩ := hall
      refine ⟨fun h' => absurd h' (ok_error _), ?_⟩
      cases s with
      | none => exact fun h' => absurd h' h1
      | some s =>
        cases s with
        | text x =>
          rintro (h' | h')
          · exact absurd h' h1
          · exact absurd h'.1 h2
        | node x =>
          rintro (h' | h' | h' | h' | h' | h')
          · exact absurd h' h1
          · exact absurd h' h2
          · exact absurd h'.1 h3
          · exact absurd h'.1 h4
          · exact absurd h'.1 h6
          · exact absurd h'.1 h5
    | some t =>
      have hs := reasons_sorted _ (find_some _ _ _ h)
      dsimp only at hs ⊢
      cases t with
      | const c =>
        simp only [sorted, decide_eq_true_eq] at hs
        refine ⟨fun _ => ?_, fun _ => ⟨c, rfl⟩⟩
        cases s with
        | none => exact hs.1
        | some s => cases s <;> exact Or.inl hs.1
      | pp a c =>
        simp only [sorted, decide_eq_true_eq] at hs
        simp only [instantiate, fill_iff]
        cases s with
        | none => exact ⟨fun h' => absurd h' (ok_error _), fun h' => absurd h' hs.1⟩
        | some s =>
          cases s with
          | text x =>
            rw [pprint_text]
            simp only [ReasonNeeds, hs.1, hs.2.1, false_or, true_and]
          | node x => exact ⟨fun _ => Or.inr (Or.inl hs.2.1), fun _ => pprint_node unparse x⟩
      | target a c =>
        simp only [sorted, decide_eq_true_eq] at hs
        obtain ⟨h1, h2, h3, h4, h5, h6⟩ := hs
        simp only [instantiate, fill_iff]
        cases s with
        | none => exact ⟨fun h' => absurd h' target_none, fun h' => absurd h' h1⟩
        | some s =>
          cases s with
          | text x =>
            refine ⟨fun h' => absurd h' (target_text x), ?_⟩
            rintro (h' | h')
            · exact absurd h' h1
            · exact absurd h'.1 h2
          | node x =>
            rw [target_iff]
            simp only [ReasonNeeds, h1, h2, h3, h4, h5, h6, false_or, true_and, false_and, or_false]
      | argPp a c =>
        simp only [sorted, decide_eq_true_eq] at hs
        obtain ⟨h1, h2, h3, h4, h5, h6⟩ := hs
        rw [instantiate_argPp]
        cases s with
        | none => simp [h1]
        | some s =>
          cases s with
          | text x => simp [ReasonNeeds, h1, h2]
          | node x => simp [ReasonNeeds, h1, h2, h3, h4, h5, h6]
      | argTarget a c e =>
        rw [instantiate_argTarget]
        cases e with
        | none =>
          simp only [sorted, decide_eq_true_eq] at hs
          obtain ⟨h1, h2, h3, h4, h5, h6⟩ := hs
          cases s with
          | none => simp [h1]
          | some s =>
            cases s with
            | text x => simp [ReasonNeeds, h1, h2]
            | node x =>
              rw [h6] at h1 h2 h3 h4 h5
              simp [ReasonNeeds, h1, h2, h3, h4, h5, h6]
        | some d =>
          simp only [sorted, decide_eq_true_eq] at hs
          obtain ⟨h1, h2, h3, h4, h5, h6⟩ := hs
          cases s with
          | none => simp [h1]
          | some s =>
            cases s with
            | text x => simp [ReasonNeeds, h1, h2]
            | node x =>
              rw [h5] at h1 h2 h3 h4 h6
              simp [ReasonNeeds, h1, h2, h3, h4, h5, h6]
      | member a c => cases hs
      | memberOr a c d => cases hs
      | callee a c d e => cases hs
  unfold reasonString
  cases hs : r.subject with
  | some s =>
    dsimp only
    refine (table (some s)).trans ?_
    cases s <;> rfl
  | none =>
    cases hv : find r.id vagueTable with
    | some v =>
      have : r.id ∈ vagueIds := by
        rw [← vague_complete]
        exact List.mem_map_of_mem (f := (·.1)) (find_some _ _ _ hv)
      dsimp only
      refine ⟨fun _ => Or.inl this, fun _ => ?_⟩
      split
      · exact ⟨_, rfl⟩
      · split <;> exact ⟨_, rfl⟩
    | none =>
      have hn : r.id ∉ vagueIds := by
        rw [← vague_complete]; exact find_none _ _ hv
      dsimp only
      refine (table none).trans ?_
      simp [ReasonNeeds, hn]

/-- Messages of errors. -/
theorem message_iff (unparse : Kind → String) (e : Error) : Ok (message unparse e) ↔ ErrorNeeds e.id e.node := by
  unfold message
  cases hn : e.node with
  | none => exact ⟨fun _ => trivial, fun _ => ⟨_, rfl⟩⟩
  | some n =>
    dsimp only
    cases h : find e.id errorTable with
    | none =>
      refine ⟨fun h' => absurd h' (ok_error _), fun h' => ?_⟩
      exact absurd (errors_complete _ h'.1) (find_none _ _ h)
    | some t =>
      have hs := errors_sorted _ (find_some _ _ _ h)
      dsimp only at hs ⊢
      have good : ∀ x : Except Exc String, Ok x → e.id ∈ errorIds ∧ e.id ∉ memberIds →
          (Ok x ↔ ErrorNeeds e.id (some n)) :=
        fun x hx h' => ⟨fun _ => ⟨h'.1, fun hm => absurd hm h'.2⟩, fun _ => hx⟩
      cases t with
      | const c => exact good _ ⟨c, rfl⟩ (by simpa [sortedE] using hs)
      | pp a c =>
        exact good _ (by simp only [instantiate, fill_iff]; exact pprint_node unparse n)
          (by simpa [sortedE] using hs)
      | memberOr a c d =>
        refine good _ ?_ (by simpa [sortedE] using hs)
        simp only [instantiate]
        split <;> exact ⟨_, rfl⟩
      | callee a c d f =>
        refine good _ ?_ (by simpa [sortedE] using hs)
        simp only [instantiate]
        split
        · rename_i hc
          rw [fill_iff, target_iff]
          obtain ⟨k, ks⟩ := n
          cases k with
          | call t as => exact Or.inl ⟨t, as, rfl⟩
          | fdef f => exact Or.inr ⟨f, List.mem_cons_self⟩
          | other => cases hc
        · rw [fill_iff]; exact pprint_node unparse n
      | member a c =>
        have h' : e.id ∈ errorIds ∧ e.id ∈ memberIds := by simpa [sortedE] using hs
        have hm := member_iff n
        simp only [instantiate, Option.bind_some]
        cases hc : containingMember (.node n) with
        | none =>
          refine ⟨fun x => absurd x (ok_error _), fun x => ?_⟩
          obtain ⟨f, hf⟩ := hm.2 (x.2 h'.2)
          rw [hc] at hf; cases hf
        | some f => exact ⟨fun _ => ⟨h'.1, fun _ => hm.1 ⟨f, hc⟩⟩, fun _ => ⟨_, rfl⟩⟩
      | target a c => cases hs
      | argPp a c => cases hs
      | argTarget a c d => cases hs

end Nagini.Errors
