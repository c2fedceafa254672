import Verif.Model.SilNodes
/-!
Meaning of source nodes and of Viper assertions.  An assertion has a truth value and an amount
of permission for every location; `And` is the separating conjunction, which adds amounts.
`Or` and negation are applied to pure assertions only.
-/
namespace Nagini.SilNodes

/-- Valuations: atoms depend on the references bound by `forperm`. -/
structure Env where
  locals : Nat → Nat
  bool : Nat → (Nat → Nat) → Bool
  int : Nat → (Nat → Nat) → Int
  perm : Nat → (Nat → Nat) → Rat
  loc : Nat → (Nat → Nat) → Nat
  /-- the references to which permission is held -/
  dom : Nat → List Nat

def Env.bind (E : Env) (v r : Nat) : Env :=
  { E with locals := fun x => if x = v then r else E.locals x }

/-- Truth value and permission amounts. -/
abbrev Val := Bool × (Nat → Rat)

def pure (b : Bool) : Val := (b, fun _ => 0)
def Val.and (a b : Val) : Val := (a.1 && b.1, fun l => a.2 l + b.2 l)
def Val.or (a b : Val) : Val := (a.1 || b.1, fun l => a.2 l + b.2 l)

/-- The Viper comparison operators on integers. -/
def Op.viper (o : Op) (a b : Int) : Bool :=
  match o with
  | .gt => decide (b + 1 ≤ a)
  | .ge => decide (b ≤ a)
  | .lt => decide (a + 1 ≤ b)
  | .le => decide (a ≤ b)

def Op.rat : Op → Rat → Rat → Bool
  | .gt, a, b => decide (a > b)
  | .ge, a, b => decide (a ≥ b)
  | .lt, a, b => decide (a < b)
  | .le, a, b => decide (a ≤ b)

mutual
/-- Source nodes; `m` is true when the assertion is inhaled. -/
def SB.eval (m : Bool) (E : Env) : SB → Val
  | .tt => pure true
  | .ff => pure false
  | .not b => pure (!(b.eval m E).1)
  | .forPerm v t b => pure ((E.dom t).all fun r => (b.eval m (E.bind v r)).1)
  | .py a => pure (E.bool a E.locals)
  | .inex i e => if m then i.eval m E else e.eval m E
  | .bigAnd l => evalAnd m E l
  | .bigOr l => evalOr m E l
  | .cond c t e => if (c.eval m E).1 then t.eval m E else e.eval m E
  | .implies c v => if (c.eval m E).1 then v.eval m E else pure true
  | .eqI l r => pure (decide (l.eval m E = r.eval m E))
  | .neI l r => pure (decide (l.eval m E ≠ r.eval m E))
  | .eqP l r => pure (decide (l.eval m E = r.eval m E))
  | .neP l r => pure (decide (l.eval m E ≠ r.eval m E))
  | .cmpI o l r => pure (o.viper (l.eval m E) (r.eval m E))
  | .cmpP o l r => pure (o.rat (l.eval m E) (r.eval m E))
  | .acc x p => (true, fun y => if y = E.loc x E.locals then p.eval m E else 0)
def evalAnd (m : Bool) (E : Env) : List SB → Val
  | [] => pure true
  | b :: bs => (b.eval m E).and (evalAnd m E bs)
def evalOr (m : Bool) (E : Env) : List SB → Val
  | [] => pure false
  | b :: bs => (b.eval m E).or (evalOr m E bs)
def SI.eval (m : Bool) (E : Env) : SI → Int
  | .lit n => n
  | .py a => E.int a E.locals
  | .raw n => n
  | .add l r => l.eval m E + r.eval m E
  | .sub l r => l.eval m E - r.eval m E
  | .sum l => evalSum m E l
  | .inc v => v.eval m E + 1
  | .condInc c v => if (c.eval m E).1 then v.eval m E + 1 else v.eval m E
def evalSum (m : Bool) (E : Env) : List SI → Int
  | [] => 0
  | i :: is => i.eval m E + evalSum m E is
def SP.eval (m : Bool) (E : Env) : SP → Rat
  | .atom a => E.perm a E.locals
  | .sub l r => l.eval m E - r.eval m E
  | .no => 0
  | .full => 1
  | .int i => i.eval m E
end

mutual
/-- Viper assertions. -/
def VB.eval (m : Bool) (E : Env) : VB → Val
  | .tt => pure true
  | .ff => pure false
  | .not b => pure (!(b.eval m E).1)
  | .forPerm v t b => pure ((E.dom t).all fun r => (b.eval m (E.bind v r)).1)
  | .atom a => pure (E.bool a E.locals)
  | .inex i e => if m then i.eval m E else e.eval m E
  | .and l r => (l.eval m E).and (r.eval m E)
  | .or l r => (l.eval m E).or (r.eval m E)
  | .cond c t e => if (c.eval m E).1 then t.eval m E else e.eval m E
  | .implies c v => if (c.eval m E).1 then v.eval m E else pure true
  | .eqI l r => pure (decide (l.eval m E = r.eval m E))
  | .neI l r => pure (decide (l.eval m E ≠ r.eval m E))
  | .eqP l r => pure (decide (l.eval m E = r.eval m E))
  | .neP l r => pure (decide (l.eval m E ≠ r.eval m E))
  | .cmpI o l r => pure (o.viper (l.eval m E) (r.eval m E))
  | .cmpP o l r => pure (o.rat (l.eval m E) (r.eval m E))
  | .acc x p => (true, fun y => if y = E.loc x E.locals then p.eval m E else 0)
def VI.eval (m : Bool) (E : Env) : VI → Int
  | .lit n => n
  | .atom a => E.int a E.locals
  | .add l r => l.eval m E + r.eval m E
  | .sub l r => l.eval m E - r.eval m E
  | .cond c t e => if (c.eval m E).1 then t.eval m E else e.eval m E
def VP.eval (m : Bool) (E : Env) : VP → Rat
  | .atom a => E.perm a E.locals
  | .sub l r => l.eval m E - r.eval m E
  | .no => 0
  | .full => 1
  | .mul i p => (i.eval m E : Rat) * p.eval m E
end

end Nagini.SilNodes
