import Verif.Lemmas.Alias

/-!
C37: alias contexts.
-/
namespace Nagini.Alias
variable {V : Type}

/-- **C37, full claim**: for every use of the context, every lookup sees the lexically
innermost alias. -/
def AliasesLexical : Prop :=
  ∀ script : List (Cmd Nat), noSetList script = true →
    (execList init script).2 = (lexList (fun _ => none) script).2

/-- C37 is violated: leaving an `aliases_context` in which `additional_aliases` was used for
a name also removes the alias that name had outside. -/
theorem C37_aliases_fails : ¬ AliasesLexical := by
  intro h
  have := h [.additional [(0, 1)] [.scope [.additional [(0, 2)] [.look 0]], .look 0]] rfl
  revert this
  decide

/-- **C37, exact effect of a block**: leaving any block pops, for each name, as many
additional aliases as there are `additional` bindings of the name inside its `scope`s (for
every state, every nesting). -/
theorem C37_block_effect (σ : State V) (h : Inv σ) (c : Cmd V) (hb : noSet c = true) (n : Nat) :
    stk (exec σ c).1 n = (stk σ n).drop (inScopes n c) := by
  have := (exec_eff σ h c).stk n
  rwa [noSet_sets n c hb, List.drop_zero] at this

/-- **C37, exact proved part**: a block restores all aliases of a name iff the name has no
alias, or no `additional` block binds it inside a `scope`. -/
theorem C37_restored_iff_partial (σ : State V) (h : Inv σ) (c : Cmd V) (hb : noSet c = true) (n : Nat) :
    stk (exec σ c).1 n = stk σ n ↔ (σ.var n = none ∨ inScopes n c = 0) := by
  rw [C37_block_effect σ h c hb n]
  constructor
  · intro he
    cases hv : σ.var n with
    | none => exact .inl rfl
    | some v =>
      right
      have hl := congrArg List.length he
      have : 0 < (stk σ n).length := by simp [stk, hv]
      rw [List.length_drop] at hl
      omega
  · rintro (hv | hz)
    · simp [stk, hv, h n hv]
    · rw [hz, List.drop_zero]

/-- Every state reached by any sequence of uses satisfies the invariant, so the theorems
apply at every point of a run. -/
theorem C37_reachable_inv (script : List (Cmd V)) : Inv (execList (init : State V) script).1 :=
  (execList_eff init inv_init script).inv

/-- **C37, lookups, proved part**: if `scope`s contain no `additional` blocks and
`additional` blocks no free-standing `set`, every lookup sees the lexically innermost
alias, and the blocks leave no trace.  Missing: `additional` inside `scope`, where the
claim is false. -/
theorem C37_lookup_partial (script : List (Cmd V)) (hc : cleanList script = true) :
    (execList init script).2 = (lexList (fun _ => none) script).2 ∧
    (execList (init : State V) script).1.var = (lexList (fun _ => none) script).1 :=
  execList_lex init inv_init script hc

/-- Non-vacuity: nested blocks with shadowing. -/
example : cleanList [Cmd.additional [(0, 1)] [.additional [(0, 2), (1, 5)] [.look 0, .scope [.set 0 7, .look 0]], .look 0], .look 0] = true ∧
    (execList init [Cmd.additional [(0, 1)] [.additional [(0, 2), (1, 5)] [.look 0, .scope [.set 0 7, .look 0]], .look 0], .look 0]).2 =
      [some 2, some 7, some 1, none] := by decide

end Nagini.Alias
