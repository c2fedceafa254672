/-!
Model of the internal expression nodes (lib/silver_nodes): source nodes, static evaluation,
translation to Viper expressions.
-/
namespace Nagini.SilNodes

/-- Comparison operators.  Models lib/silver_nodes/int_cmp_expr.py:60-113,
lib/silver_nodes/perm_cmp_expr.py:23-80. -/
inductive Op
  | gt | ge | lt | le
deriving DecidableEq

/-- `_compare`, on Python integers.  Models lib/silver_nodes/int_cmp_expr.py:63-64, 77-78, 91-92, 105-106. -/
def Op.int : Op → Int → Int → Bool
  | .gt, a, b => decide (a > b)
  | .ge, a, b => decide (a ≥ b)
  | .lt, a, b => decide (a < b)
  | .le, a, b => decide (a ≤ b)

mutual
/-- Boolean nodes.  `py` stands for `PythonBoolExpression`, `BoolVar` and `BoolCall`, whose
translation is opaque.  Models lib/silver_nodes/bool_expr.py:33-301,
lib/silver_nodes/int_cmp_expr.py:21-113, lib/silver_nodes/perm_cmp_expr.py:19-80,
lib/silver_nodes/location_expr.py:60-78. -/
inductive SB
  | tt
  | ff
  | not (b : SB)
  | forPerm (v : Nat) (target : Nat) (body : SB)
  | py (a : Nat)
  | inex (inh exh : SB)
  | bigAnd (l : List SB)
  | bigOr (l : List SB)
  | cond (c t e : SB)
  | implies (c v : SB)
  | eqI (l r : SI)
  | neI (l r : SI)
  | eqP (l r : SP)
  | neP (l r : SP)
  | cmpI (o : Op) (l r : SI)
  | cmpP (o : Op) (l r : SP)
  | acc (loc : Nat) (p : SP)
/-- Integer nodes; `lit` and `py` are `PythonIntExpression` for a number literal and for
another expression (literals of other number types, on which the translation stops with a
failed assertion, are not modelled).  Models lib/silver_nodes/int_expr.py:41-198. -/
inductive SI
  | lit (n : Int)
  | py (a : Nat)
  | raw (n : Int)
  | add (l r : SI)
  | sub (l r : SI)
  | sum (l : List SI)
  | inc (v : SI)
  | condInc (c : SB) (v : SI)
/-- Permission nodes; `atom` stands for `RawPermExpression`, `PermCall`, `PermVar` and
`CurrentPerm`, whose translation is opaque (`WildcardPerm` is not modelled).  Models
lib/silver_nodes/perm_expr.py:30-149. -/
inductive SP
  | atom (a : Nat)
  | sub (l r : SP)
  | no
  | full
  | int (i : SI)
end

mutual
/-- Viper assertions (the constructors used in lib/silver_nodes/bool_expr.py:33-301,
lib/silver_nodes/int_cmp_expr.py:60-113, lib/silver_nodes/perm_cmp_expr.py:23-80 and
lib/silver_nodes/location_expr.py:60-78). -/
inductive VB
  | tt
  | ff
  | not (b : VB)
  | forPerm (v : Nat) (target : Nat) (body : VB)
  | atom (a : Nat)
  | inex (inh exh : VB)
  | and (l r : VB)
  | or (l r : VB)
  | cond (c t e : VB)
  | implies (c v : VB)
  | eqI (l r : VI)
  | neI (l r : VI)
  | eqP (l r : VP)
  | neP (l r : VP)
  | cmpI (o : Op) (l r : VI)
  | cmpP (o : Op) (l r : VP)
  | acc (loc : Nat) (p : VP)
/-- Viper integer expressions (the constructors used in lib/silver_nodes/int_expr.py:41-198). -/
inductive VI
  | lit (n : Int)
  | atom (a : Nat)
  | add (l r : VI)
  | sub (l r : VI)
  | cond (c : VB) (t e : VI)
/-- Viper permission expressions (the constructors used in
lib/silver_nodes/perm_expr.py:30-149). -/
inductive VP
  | atom (a : Nat)
  | sub (l r : VP)
  | no
  | full
  | mul (i : VI) (p : VP)
end

/-- `get_value`.  Models lib/silver_nodes/int_expr.py:44-49, 76-80, 98-99. -/
def SI.value : SI → Option Int
  | .lit n => some n
  | .raw n => some n
  | _ => none

mutual
/-- `is_always_true`.  Models lib/silver_nodes/bool_expr.py:36-38, 48-50, 174-175, 252-254,
lib/silver_nodes/int_cmp_expr.py:39-47. -/
def SB.alwaysTrue : SB → Bool
  | .tt => true
  | .bigAnd l => l.isEmpty
  | .implies c v => c.alwaysFalse || v.alwaysTrue
  | .cmpI o l r =>
    match l.value with
    | none => false
    | some a =>
      match r.value with
      | none => false
      | some b => o.int a b
  | _ => false
/-- `is_always_false`.  Models lib/silver_nodes/bool_expr.py:40-42, 60-62, 207-208,
lib/silver_nodes/int_cmp_expr.py:49-57. -/
def SB.alwaysFalse : SB → Bool
  | .ff => true
  | .bigOr l => l.isEmpty
  | .cmpI o l r =>
    match l.value with
    | none => false
    | some a =>
      match r.value with
      | none => false
      | some b => !o.int a b
  | _ => false
end

/-- `join_expressions`: the last expression is combined with the others, from the back; `dflt`
is the result for the empty list, on which the code is not called.  Models
lib/util.py:287-312. -/
def join {α : Type} (op : α → α → α) (dflt : α) (l : List α) : α :=
  match l.reverse with
  | [] => dflt
  | last :: others => others.foldl (fun result part => op part result) last

/-- `value + 1`, as computed in the constructor of `CondInc`.  Models
lib/silver_nodes/int_expr.py:63-64, 101-104, 189. -/
def SI.plusOne : SI → SI
  | .raw n => .raw (n + 1)
  | v => .add v (.raw 1)

/-- The translation of `value + 1`, from the translation of `value`.  Models
lib/silver_nodes/int_expr.py:111-127, 191-198. -/
def plusOneV : SI → VI → VI
  | .raw n, _ => .lit (n + 1)
  | _, t => .add t (.lit 1)

/-- The conjunction of translated conjuncts.  Models lib/silver_nodes/bool_expr.py:185-191. -/
def joinAnd (l : List VB) : VB := join .and .tt l

/-- The disjunction of translated disjuncts.  Models lib/silver_nodes/bool_expr.py:218-224. -/
def joinOr (l : List VB) : VB := join .or .ff l

/-- The sum of translated summands.  Models lib/silver_nodes/int_expr.py:156-165. -/
def joinSum (l : List VI) : VI := join .add (.lit 0) l

mutual
/-- `translate` of Boolean nodes (no Boolean list node reports the opposite constant,
so that the first test of `BigAnd.translate` and `BigOr.translate` never succeeds).  Models
lib/silver_nodes/bool_expr.py:52-298, lib/silver_nodes/int_cmp_expr.py:66-113,
lib/silver_nodes/perm_cmp_expr.py:30-80, lib/silver_nodes/location_expr.py:69-78. -/
def SB.tr : SB → VB
  | .tt => .tt
  | .ff => .ff
  | .not b => .not b.tr
  | .forPerm v t b => .forPerm v t b.tr
  | .py a => .atom a
  | .inex i e => .inex i.tr e.tr
  | .bigAnd l => joinAnd (trAnd l)
  | .bigOr l => joinOr (trOr l)
  | .cond c t e => .cond c.tr t.tr e.tr
  | .implies c v => if c.alwaysTrue then v.tr else .implies c.tr v.tr
  | .eqI l r => .eqI l.tr r.tr
  | .neI l r => .neI l.tr r.tr
  | .eqP l r => .eqP l.tr r.tr
  | .neP l r => .neP l.tr r.tr
  | .cmpI o l r => .cmpI o l.tr r.tr
  | .cmpP o l r => .cmpP o l.tr r.tr
  | .acc x p => .acc x p.tr
/-- The translated conjuncts without those that are always true.  Models
lib/silver_nodes/bool_expr.py:181-184. -/
def trAnd : List SB → List VB
  | [] => []
  | b :: bs => if b.alwaysTrue then trAnd bs else b.tr :: trAnd bs
/-- The translated disjuncts without those that are always false.  Models
lib/silver_nodes/bool_expr.py:214-217. -/
def trOr : List SB → List VB
  | [] => []
  | b :: bs => if b.alwaysFalse then trOr bs else b.tr :: trOr bs
/-- `translate` of integer nodes.  Models lib/silver_nodes/int_expr.py:82-198. -/
def SI.tr : SI → VI
  | .lit n => .lit n
  | .py a => .atom a
  | .raw n => .lit n
  | .add l r => .add l.tr r.tr
  | .sub l r => .sub l.tr r.tr
  | .sum l => joinSum (trSum l)
  | .inc v => .add v.tr (.lit 1)
  | .condInc c v => .cond c.tr (plusOneV v v.tr) v.tr
/-- The translated summands.  Models lib/silver_nodes/int_expr.py:159-161. -/
def trSum : List SI → List VI
  | [] => []
  | i :: is => i.tr :: trSum is
/-- `translate` of permission nodes.  Models lib/silver_nodes/perm_expr.py:55-149. -/
def SP.tr : SP → VP
  | .atom a => .atom a
  | .sub l r => .sub l.tr r.tr
  | .no => .no
  | .full => .full
  | .int i => .mul i.tr .full
end

end Nagini.SilNodes
