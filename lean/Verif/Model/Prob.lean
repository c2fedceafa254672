/-
Model of the checks that the translator adds in the probabilistic information flow mode
(`--sif=prob`), in which both executions have to take the same decisions: C117.

Sources: `translators/statement.py`, `translators/expression.py`, `translators/call.py`.

Simplified: expressions are arbitrary functions of the state (C01 to C04 are about how they are
evaluated); the bodies of called methods take the place of their contracts; exceptions, `break`,
`continue`, `return` and invariants are left out, as are chained comparisons (C04).
-/
import Verif.Spec.Prob

namespace Nagini.Prob

variable {σ : Type}

/-- A branch of the generated program, `viper.If` (translators/statement.py:1085,
translators/expression.py:1231).  Simplified: a special case of the selection by number. -/
def T.ite (c : σ → Bool) (a b : T σ) : T σ :=
  .switch (fun s => (c s).toNat) fun k => if k = 1 then a else b

/-- No statement: an empty block (translators/statement.py:811-814). -/
def T.skip : T σ := .act id

/-- Translation of statements in the mode `prob`.

* `ite`: the condition is asserted to be low (translators/statement.py:1081-1086,
  translators/expression.py:1226-1242);
* `circuit`: every operand is asserted to be low (translators/expression.py:1611-1613), the
  statements of the second operand are executed depending on the first
  (translators/expression.py:1659-1672);
* `while`: the assertion is made before the loop only (translators/statement.py:1714-1725);
* `forEach`: the assertion is made before the loop and at the end of its body
  (translators/statement.py:805-817, 859-873);
* `case`: nested conditionals without assertion (translators/statement.py:1089-1134);
* `call`: the class of the receiver is asserted to be low (translators/call.py:1317-1322);
* `union`: a chain of conditionals, in each of which the call with its assertion is made
  (translators/call.py:1163-1225);
* `operator`: the method is called without assertion (translators/expression.py:1307-1334,
  translators/common.py:774-806);
* `comp`: the length is asserted to be low iff there is no filter
  (translators/expression.py:244-249, 251-302);
* `pureIf`: an expression (translators/pure.py:167-194), no statements;
* `check`: `Assert(Low(e))` (translators/contract.py:1190-1192,
  sif/translators/contract.py:48-61). -/
def tr : Stmt σ → T σ
  | .act f => .act f
  | .seq a b => .seq (tr a) (tr b)
  | .ite c a b => .seq (.assertLow fun s => (c s).toNat) (.ite c (tr a) (tr b))
  | .circuit conj first rest last =>
      .seq (.assertLow fun s => (first s).toNat)
        (.ite (fun s => first s == conj)
          (.seq (tr rest) (.assertLow fun s => (last s).toNat)) .skip)
  | .while c b => .seq (.assertLow fun s => (c s).toNat) (.while c (tr b))
  | .forEach start next stop b =>
      .seq (.act start) (.seq (.act next) (.seq (.assertLow fun s => (!stop s).toNat)
        (.while (fun s => !stop s)
          (.seq (tr b) (.seq (.act next) (.assertLow fun s => (!stop s).toNat))))))
  | .case c a rest => .ite c (tr a) (tr rest)
  | .call cls m => .seq (.assertLow cls) (.switch cls fun k => tr (m k))
  | .union opt cls m => .switch opt fun _ => .seq (.assertLow cls) (.switch cls fun k => tr (m k))
  | .operator cls m => .switch cls fun k => tr (m k)
  | .comp k keep f =>
      .seq (if keep.isNone then .assertLow k else .skip) (.act f)
  | .pureIf c f g => .act fun s => if c s then f s else g s
  | .check e => .assertLow e

end Nagini.Prob
