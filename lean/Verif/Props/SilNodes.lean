import Verif.Lemmas.SilNodes
/-!
C30: simplification of generated assertions.
-/
namespace Nagini.SilNodes

/-- **C30**: for every node, every valuation and both for inhaling and exhaling, the translated
assertion has the truth value and the permission amounts of the node. -/
theorem C30_translation_preserves (m : Bool) (E : Env) (b : SB) : b.tr.eval m E = b.eval m E :=
  trB_eval m b E

/-- **C30, integers**. -/
theorem C30_int_preserves (m : Bool) (E : Env) (i : SI) : i.tr.eval m E = i.eval m E :=
  trI_eval m i E

/-- **C30, permissions**. -/
theorem C30_perm_preserves (m : Bool) (E : Env) (p : SP) : p.tr.eval m E = p.eval m E :=
  trP_eval m p E

/-- **C30, static evaluation**: a node reported as always true is true and needs no
permission; a node reported as always false is false; a node with a known value has it. -/
theorem C30_static (m : Bool) (E : Env) (b : SB) :
    (b.alwaysTrue = true → b.eval m E = (true, fun _ => 0)) ∧
    (b.alwaysFalse = true → (b.eval m E).1 = false) ∧
    (∀ i n, SI.value i = some n → i.eval m E = n) :=
  ⟨fun h => alwaysTrue_eval h m E, fun h => by rw [alwaysFalse_eval h m E]; rfl,
    fun i n h => value_eval h m E⟩

/-- **C30, consistency**: no node is reported as both. -/
theorem C30_static_consistent (b : SB) : ¬ (b.alwaysTrue = true ∧ b.alwaysFalse = true) := by
  rintro ⟨h1, h2⟩
  let E : Env := ⟨fun _ => 0, fun _ _ => true, fun _ _ => 0, fun _ _ => 0, fun _ _ => 0, fun _ => []⟩
  have := (alwaysTrue_eval h1 true E).symm.trans (alwaysFalse_eval h2 true E)
  simp [pure] at this

/-- **C30, conditional increment**: the branch of `CondInc` is the translation of the node that
Python computes for `value + 1`, which has the increased value. -/
theorem C30_condInc (m : Bool) (E : Env) (c : SB) (v : SI) :
    (SI.condInc c v).tr = .cond c.tr v.plusOne.tr v.tr ∧ v.plusOne.eval m E = v.eval m E + 1 := by
  cases v <;> simp [SI.tr, plusOneV, SI.plusOne, SI.eval]

/-- Non-vacuity: trivial conjuncts are dropped, a static comparison is decided, a literal is
incremented. -/
example : (SB.bigAnd [.cmpI .gt (.lit 3) (.raw 0), .implies (.bigAnd []) (.py 1), .acc 2 (.int (.raw 1)),
      .implies (.bigOr []) (.py 4)]).tr = .and (.atom 1) (.acc 2 (.mul (.lit 1) .full)) ∧
    (SI.condInc (.py 1) (.raw 4)).tr = .cond (.atom 1) (.lit 5) (.lit 4) := by
  constructor <;> rfl

end Nagini.SilNodes
