import Verif.Spec.Poss

/-!
Model of the checks that the translator adds in the possibilistic information flow mode
(`--sif=poss`), in which the termination of a program must not depend on secrets: C143.

Simplified: loops with `TerminatesSif` as their last invariant are left out (their check is part of
Silver's extension for information flow, outside of the repository); expressions are arbitrary functions
of the state; bodies of methods take the place of contracts except for the precondition `LowEvent()`;
exceptions and jumps are left out.
-/
namespace Nagini.Poss

variable {σ : Type}

/-- `cond_low` of a loop without `TerminatesSif` in the mode `poss`: the loop is a low event and its
condition is low.  Models translators/statement.py:841-854, 1667-1680. -/
def condLow (c : σ → Bool) : T σ := .seq .assertEvent (.assertLow c)

/-- Translation of statements in the mode `poss`.

* `ite`: no check, unlike in the mode `prob` (translators/statement.py:1081-1086);
* `while`: `cond_low` is asserted before the loop only (translators/statement.py:1713-1725);
* `forEach`: `cond_low` is asserted before the loop and at the end of its body
  (translators/statement.py:858-873);
* `call`: no check except for the precondition (translators/call.py:1317-1322,
  sif/translators/contract.py:83-100);
* `check`: `Assert(Low(e))` (translators/contract.py:1167-1171, 1190-1191, sif/translators/contract.py:50-60). -/
def tr (P : Prog σ) : Stmt σ → T σ
  | .act f => .act f
  | .seq a b => .seq (tr P a) (tr P b)
  | .ite c a b => .ite c (tr P a) (tr P b)
  | .while c b => .seq (condLow c) (.while c (tr P b))
  | .forEach start next stop b =>
      .seq (.act start) (.seq (.act next) (.seq (condLow fun s => !stop s)
        (.while (fun s => !stop s) (.seq (tr P b) (.seq (.act next) (condLow fun s => !stop s))))))
  | .call m => if P.event m then .seq .assertEvent (.call m) else .call m
  | .check c => .assertLow c

/-- The translated methods.  Models translators/method.py:558-623. -/
def bodies (P : Prog σ) (m : Nat) : T σ := tr P (P.body m)

end Nagini.Poss
