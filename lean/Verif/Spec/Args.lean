import Verif.Model.Args

/-!
How Python binds the arguments of a call (language reference, "Calls"), stated parameter by
parameter.
-/
namespace Nagini.Args

variable {E : Type}

/-- The positional values of a call at run time. -/
def Pos.values : Pos E → List (Val E)
  | .plain e => [.expr e]
  | .star e n => (List.range (n.getD 0)).map (Val.item e)

/-- The keyword values of a call at run time. -/
def Kw.values : Kw E → List (String × Val E)
  | .named n e => [(n, .expr e)]
  | .unpack e ks => ks.map fun k => (k, .entry e k)

/-- The expression of an argument. -/
def Pos.ex : Pos E → E
  | .plain e => e
  | .star e _ => e

/-- The expression of a keyword argument. -/
def Kw.ex : Kw E → E
  | .named _ e => e
  | .unpack e _ => e

/-- The order in which Python evaluates the arguments of a call. -/
def pyOrder (ps : List (Pos E)) (ks : List (Kw E)) : List E := ps.map Pos.ex ++ ks.map Kw.ex

/-- Positional values including the receiver. -/
def withRecv (recv : Bool) (r : Val E) (vs : List (Val E)) : List (Val E) :=
  if recv then r :: vs else vs

/-- The parameters that accept positional arguments. -/
def Sig.positional (s : Sig E) : List String := s.posonly ++ s.pos

/-- The default value of the `i`-th positional parameter: `defaults` belongs to the last ones. -/
def Sig.posDefault (s : Sig E) (i : Nat) : Option E :=
  if s.positional.length ≤ i + s.defaults.length then
    s.defaults[i + s.defaults.length - s.positional.length]?
  else none

/-- The names a keyword argument can refer to. -/
def Sig.named (s : Sig E) : List String := s.pos ++ s.kwonly.map (·.1)

/-- Signatures the parser accepts. -/
structure Sig.Wf (s : Sig E) : Prop where
  nodup : (s.positional ++ s.kwonly.map (·.1)).Nodup
  defaults : s.defaults.length ≤ s.positional.length

/-- Python accepts a call with positional values `ps` and keyword values `kvs`, and gives the
parameters (positional ones, keyword-only ones, `*args`, `**kwargs`) the values `res`. -/
structure Binds (s : Sig E) (ps : List (Val E)) (kvs : List (String × Val E)) (res : List (Val E)) :
    Prop where
  /-- no keyword is given twice -/
  nodup : (kvs.map (·.1)).Nodup
  /-- surplus positional arguments need `*args` -/
  fits : ps.length ≤ s.positional.length ∨ s.vararg = true
  /-- no parameter is given by position and by keyword -/
  clash : ∀ i n, i < ps.length → s.positional[i]? = some n → n ∈ s.pos → ∀ v, (n, v) ∉ kvs
  /-- unknown keywords need `**kwargs` -/
  known : ∀ n v, (n, v) ∈ kvs → n ∈ s.named ∨ s.kwarg = true
  /-- ordinary parameters -/
  positional : ∀ i n, s.positional[i]? = some n → ∃ v, res[i]? = some v ∧
    (ps[i]? = some v ∨
      ps.length ≤ i ∧ n ∈ s.pos ∧ (n, v) ∈ kvs ∨
      ps.length ≤ i ∧ (n ∈ s.pos → ∀ w, (n, w) ∉ kvs) ∧ ∃ d, s.posDefault i = some d ∧ v = .expr d)
  /-- keyword-only parameters -/
  kwonly : ∀ j n d, s.kwonly[j]? = some (n, d) → ∃ v, res[s.positional.length + j]? = some v ∧
    ((n, v) ∈ kvs ∨ (∀ w, (n, w) ∉ kvs) ∧ ∃ e, d = some e ∧ v = .expr e)
  /-- the tuple and the dict -/
  rest : res.drop (s.positional.length + s.kwonly.length) =
    (if s.vararg then [.tuple (ps.drop s.positional.length)] else []) ++
      (if s.kwarg then [.dict (kvs.filter fun kv => decide (kv.1 ∉ s.named))] else [])

/-- The value Python uses for a parameter (by index, keyword-only ones last) that gets no argument. -/
def Sig.pyDefault (s : Sig E) (i : Nat) : Option E :=
  if i < s.positional.length then s.posDefault i
  else (s.kwonly[i - s.positional.length]?).bind (·.2)

/-- The parameter `n` at index `i` gets no argument in a call. -/
def Omitted (s : Sig E) (ps : List (Val E)) (kvs : List (String × Val E)) (i : Nat) (n : String) : Prop :=
  s.named[i]? = some n ∧ (i < s.pos.length → ps.length ≤ i) ∧ ∀ w, (n, w) ∉ kvs

/-- A keyword that no parameter has, i.e. one that goes to `**kwargs`. -/
def Kw.surplus (s : Sig E) : Kw E → Prop
  | .named n _ => n ∉ s.named
  | .unpack _ _ => True

/-- A keyword argument `name=e`. -/
def Kw.IsNamed : Kw E → Prop
  | .named _ _ => True
  | .unpack _ _ => False

end Nagini.Args
