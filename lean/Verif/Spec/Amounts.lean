/-!
Permission amounts as written in `Acc(x.f, amount)`: their rational value in Python's arithmetic, and
the amounts a user can write.
-/
namespace Nagini.Amounts

/-- Operators. -/
inductive Op
  | add | sub | mul | div | other
  deriving DecidableEq, Repr

/-- Expressions in the position of a permission amount.  `name`, `call` and `attr` are variables, calls
of pure functions and fields; they are integers.  `unsupported` is anything else. -/
inductive Amount
  | const (v : Int)
  | name (x : Nat)
  | call (x : Nat)
  | attr (x : Nat)
  | bin (op : Op) (l r : Amount)
  | unsupported
  deriving DecidableEq, Repr

/-- The values of variables, calls and fields. -/
structure Env where
  name : Nat → Int
  call : Nat → Int
  attr : Nat → Int

/-- The value as a rational number: `/` is true division; `none` for division by zero and expressions
without a value. -/
def pyValue (ρ : Env) : Amount → Option Rat
  | .const v => some (v : Rat)
  | .name x => some (ρ.name x : Rat)
  | .call x => some (ρ.call x : Rat)
  | .attr x => some (ρ.attr x : Rat)
  | .bin op l r =>
    match pyValue ρ l, pyValue ρ r with
    | some a, some b =>
      match op with
      | .add => some (a + b)
      | .sub => some (a - b)
      | .mul => some (a * b)
      | .div => if b = 0 then none else some (a / b)
      | .other => none
    | _, _ => none
  | .unsupported => none

/-- Integer expressions: no true division. -/
inductive IsInt : Amount → Prop
  | const (v) : IsInt (.const v)
  | name (x) : IsInt (.name x)
  | call (x) : IsInt (.call x)
  | attr (x) : IsInt (.attr x)
  | add {l r} : IsInt l → IsInt r → IsInt (.bin .add l r)
  | sub {l r} : IsInt l → IsInt r → IsInt (.bin .sub l r)
  | mul {l r} : IsInt l → IsInt r → IsInt (.bin .mul l r)

/-- Integers that may be scaled or divided: products of literals, calls and fields, but no variables. -/
inductive Factor : Amount → Prop
  | const (v) : Factor (.const v)
  | call (x) : Factor (.call x)
  | attr (x) : Factor (.attr x)
  | mul {l r} : Factor l → Factor r → Factor (.bin .mul l r)

/-- The permission amounts that are translated to well-typed permission expressions.  The literal 1 is
the full permission except as an operand of a product or quotient, where it is a number. -/
inductive Supported : Amount → Prop
  | one : Supported (.const 1)
  | frac {l r} : Factor l → IsInt r → Supported (.bin .div l r)
  | div {l r} : Supported l → IsInt r → Supported (.bin .div l r)
  | scaleL {l r} : Factor l → Supported r → r ≠ .const 1 → Supported (.bin .mul l r)
  | scaleR {l r} : Supported l → l ≠ .const 1 → Factor r → Supported (.bin .mul l r)
  | mul {l r} : Supported l → l ≠ .const 1 → Supported r → r ≠ .const 1 → Supported (.bin .mul l r)
  | add {l r} : Supported l → Supported r → Supported (.bin .add l r)
  | sub {l r} : Supported l → Supported r → Supported (.bin .sub l r)

end Nagini.Amounts
