import Verif.Spec.Amounts

/-!
Model of the translation of permission amounts (translators/permission.py).  Literals are integers
(`True` is 1; floats and other literals are not modelled).  Not modelled: abstract read permissions
(`ARP`, `getARP`, `RD_PRED`), permission amounts with side effects.
-/
set_option linter.unusedVariables false
namespace Nagini.Amounts

/-- Viper types of the nodes.  Models `viper.Int`, `viper.Perm`, `viper.Ref`,
translators/permission.py:52. -/
inductive Ty
  | int | perm | ref
  deriving DecidableEq, Repr

/-- Viper nodes.  `ofInt e` is the integer translation of a Python expression.
Models the constructors used in translators/permission.py:38-108. -/
inductive Node
  | full
  | ofInt (e : Amount)
  | refVar (x : Nat)
  | fracPerm (l r : Node)
  | permDiv (l r : Node)
  | mul (l r : Node)
  | intPermMul (l r : Node)
  | permMul (l r : Node)
  | permAdd (l r : Node)
  | permSub (l r : Node)
  deriving DecidableEq, Repr

/-- `typ()` of a Viper node depends on its constructor only.
Models the use in translators/permission.py:52. -/
def Node.typ : Node → Ty
  | .full => .perm
  | .ofInt _ => .int
  | .refVar _ => .ref
  | .fracPerm _ _ => .perm
  | .permDiv _ _ => .perm
  | .mul _ _ => .int
  | .intPermMul _ _ => .perm
  | .permMul _ _ => .perm
  | .permAdd _ _ => .perm
  | .permSub _ _ => .perm

/-- `translate_perm_or_int`: literals are integers, everything else is translated by `translate_perm`
(`rec`).  The second component of the result, `typ() == Int`, is recomputed by the callers.
Models translators/permission.py:43-52. -/
def orInt (e : Amount) (rec : Option Node) : Option Node :=
  match e with
  | .const v => some (.ofInt (.const v))
  | _ => rec

/-- `translate_perm`; `none` is an `UnsupportedException`.  A variable is translated without a target
type, so to a reference.  Models translators/permission.py:28-155. -/
def translatePerm : Amount → Option Node
  | .const v => if v = 1 then some .full else none
  | .name x => some (.refVar x)
  | .call x => some (.ofInt (.call x))
  | .attr x => some (.ofInt (.attr x))
  | .bin .div l r =>
    match orInt l (translatePerm l) with
    | some a => some (if a.typ = .int then .fracPerm a (.ofInt r) else .permDiv a (.ofInt r))
    | none => none
  | .bin .mul l r =>
    match orInt l (translatePerm l), orInt r (translatePerm r) with
    | some a, some b =>
      let sw := a.typ ≠ .int ∧ b.typ = .int
      let x := if sw then b else a
      let y := if sw then a else b
      if x.typ = .int ∧ y.typ = .int then some (.mul x y)
      else if x.typ = .int ∨ y.typ = .int then some (.intPermMul x y)
      else some (.permMul x y)
    | _, _ => none
  | .bin .add l r =>
    match translatePerm l, translatePerm r with
    | some a, some b => some (.permAdd a b)
    | _, _ => none
  | .bin .sub l r =>
    match translatePerm l, translatePerm r with
    | some a, some b => some (.permSub a b)
    | _, _ => none
  | .bin .other _ _ => none
  | .unsupported => none

/-- Silver's type rules.  Checked only with `--check-consistency`.
Models the nodes of translators/permission.py:63-108 as used by main.py:203-209. -/
def Node.wellTyped : Node → Prop
  | .full => True
  | .ofInt e => IsInt e
  | .refVar _ => True
  | .fracPerm l r => l.wellTyped ∧ r.wellTyped ∧ l.typ = .int ∧ r.typ = .int
  | .permDiv l r => l.wellTyped ∧ r.wellTyped ∧ l.typ = .perm ∧ r.typ = .int
  | .mul l r => l.wellTyped ∧ r.wellTyped ∧ l.typ = .int ∧ r.typ = .int
  | .intPermMul l r => l.wellTyped ∧ r.wellTyped ∧ l.typ = .int ∧ r.typ = .perm
  | .permMul l r => l.wellTyped ∧ r.wellTyped ∧ l.typ = .perm ∧ r.typ = .perm
  | .permAdd l r => l.wellTyped ∧ r.wellTyped ∧ l.typ = .perm ∧ r.typ = .perm
  | .permSub l r => l.wellTyped ∧ r.wellTyped ∧ l.typ = .perm ∧ r.typ = .perm

/-- The integer value of the translation of a Python integer expression (C51, C56 cover integer
arithmetic).  Models `translate_expr(…, target_type=Int)`, translators/permission.py:58. -/
def intValue (ρ : Env) : Amount → Option Int
  | .const v => some v
  | .name x => some (ρ.name x)
  | .call x => some (ρ.call x)
  | .attr x => some (ρ.attr x)
  | .bin .add l r => match intValue ρ l, intValue ρ r with
    | some a, some b => some (a + b)
    | _, _ => none
  | .bin .sub l r => match intValue ρ l, intValue ρ r with
    | some a, some b => some (a - b)
    | _, _ => none
  | .bin .mul l r => match intValue ρ l, intValue ρ r with
    | some a, some b => some (a * b)
    | _, _ => none
  | _ => none

/-- The value of a Viper node; `none` if it is not well defined (division by zero).
Models the meaning of the nodes of translators/permission.py:38-108. -/
def Node.eval (ρ : Env) : Node → Option Rat
  | .full => some 1
  | .ofInt e => (intValue ρ e).map fun (i : Int) => (i : Rat)
  | .refVar _ => none
  | .fracPerm l r => match l.eval ρ, r.eval ρ with
    | some a, some b => if b = 0 then none else some (a / b)
    | _, _ => none
  | .permDiv l r => match l.eval ρ, r.eval ρ with
    | some a, some b => if b = 0 then none else some (a / b)
    | _, _ => none
  | .mul l r => match l.eval ρ, r.eval ρ with
    | some a, some b => some (a * b)
    | _, _ => none
  | .intPermMul l r => match l.eval ρ, r.eval ρ with
    | some a, some b => some (a * b)
    | _, _ => none
  | .permMul l r => match l.eval ρ, r.eval ρ with
    | some a, some b => some (a * b)
    | _, _ => none
  | .permAdd l r => match l.eval ρ, r.eval ρ with
    | some a, some b => some (a + b)
    | _, _ => none
  | .permSub l r => match l.eval ρ, r.eval ρ with
    | some a, some b => some (a - b)
    | _, _ => none

end Nagini.Amounts
