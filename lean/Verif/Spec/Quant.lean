/-!
The meaning of `Forall`, `Forall2`, ..., `Exists`, `Let` and `Old` in Python: `Forall(d, lambda x: p)` says
that `p` holds for all elements of `d`, where lambdas bind their parameters lexically.
-/
namespace Nagini.Quant

/-- Values, types and heaps: the instances of a type and the elements of a collection. -/
structure World where
  V : Type
  Ty : Type
  H : Type
  inst : Ty → V → Prop
  elems : H → V → List V

variable (W : World)

/-- A term: a function of the heap and the values of some names, possibly in `Old(...)`. -/
structure Term where
  old : Bool
  names : List Nat
  fn : W.H → List W.V → W.V

/-- What a quantifier ranges over: a type, or a collection, possibly in `Old(...)`. -/
inductive Dom
  | typ (T : W.Ty)
  | coll (old : Bool) (t : Term W)

/-- A bound name with its static type and its domain. -/
structure Bind where
  name : Nat
  ty : W.Ty
  dom : Dom W

/-- Assertions.  Lambdas carry their position in the source. -/
inductive Form
  | atom (names : List Nat) (p : W.H → List W.V → Prop)
  | neg (f : Form)
  | and (f g : Form)
  | imp (f g : Form)
  | old (f : Form)
  | all (pos : Nat) (bs : List (Bind W)) (body : Form)
  | ex (pos : Nat) (b : Bind W) (body : Form)
  | bind (pos : Nat) (x : Nat) (t : Term W) (body : Form)

variable {W}

/-- An environment with one more name. -/
def set {N : Type} [DecidableEq N] (ρ : N → W.V) (n : N) (v : W.V) : N → W.V :=
  fun k => if k = n then v else ρ k

/-- The value of a term; `h0` is the old heap. -/
def Term.eval (h h0 : W.H) (ρ : Nat → W.V) (t : Term W) : W.V :=
  t.fn (if t.old then h0 else h) (t.names.map ρ)

/-- The values a quantifier ranges over. -/
def Dom.has (h h0 : W.H) (ρ : Nat → W.V) (v : W.V) : Dom W → Prop
  | .typ T => W.inst T v
  | .coll old t => v ∈ W.elems (if old then h0 else h) (t.eval (if old then h0 else h) h0 ρ)

/-- All choices of values for some names, each from its domain (in the environment `ρ0` outside). -/
def pyAll (h h0 : W.H) (ρ0 : Nat → W.V) (P : (Nat → W.V) → Prop) : (Nat → W.V) → List (Bind W) → Prop
  | ρ, [] => P ρ
  | ρ, b :: bs => ∀ v, b.dom.has h h0 ρ0 v → pyAll h h0 ρ0 P (set ρ b.name v) bs

/-- The truth of an assertion. -/
def Form.holds (h0 : W.H) : W.H → (Nat → W.V) → Form W → Prop
  | h, ρ, .atom ns p => p h (ns.map ρ)
  | h, ρ, .neg f => ¬ f.holds h0 h ρ
  | h, ρ, .and f g => f.holds h0 h ρ ∧ g.holds h0 h ρ
  | h, ρ, .imp f g => f.holds h0 h ρ → g.holds h0 h ρ
  | _, ρ, .old f => f.holds h0 h0 ρ
  | h, ρ, .all _ bs body => pyAll h h0 ρ (fun ρ' => body.holds h0 h ρ') ρ bs
  | h, ρ, .ex _ b body => ∃ v, b.dom.has h h0 ρ v ∧ body.holds h0 h (set ρ b.name v)
  | h, ρ, .bind _ x t body => body.holds h0 h (set ρ x (t.eval h h0 ρ))

/-- What mypy guarantees: the values a quantifier ranges over have the static type of the parameter of the
lambda, wherever the quantifier is evaluated. -/
def Form.Typed (h0 : W.H) : W.H → (Nat → W.V) → Form W → Prop
  | _, _, .atom _ _ => True
  | h, ρ, .neg f => f.Typed h0 h ρ
  | h, ρ, .and f g => f.Typed h0 h ρ ∧ g.Typed h0 h ρ
  | h, ρ, .imp f g => f.Typed h0 h ρ ∧ g.Typed h0 h ρ
  | _, ρ, .old f => f.Typed h0 h0 ρ
  | h, ρ, .all _ bs body => (∀ b ∈ bs, ∀ v, b.dom.has h h0 ρ v → W.inst b.ty v) ∧
      pyAll h h0 ρ (fun ρ' => body.Typed h0 h ρ') ρ bs
  | h, ρ, .ex _ b body => ∀ v, b.dom.has h h0 ρ v → W.inst b.ty v ∧ body.Typed h0 h (set ρ b.name v)
  | h, ρ, .bind _ x t body => body.Typed h0 h (set ρ x (t.eval h h0 ρ))

/-- Positions of the lambdas in an assertion. -/
def Form.positions : Form W → List Nat
  | .atom _ _ => []
  | .neg f => f.positions
  | .and f g => f.positions ++ g.positions
  | .imp f g => f.positions ++ g.positions
  | .old f => f.positions
  | .all p _ body => p :: body.positions
  | .ex p _ body => p :: body.positions
  | .bind p _ _ body => p :: body.positions

/-- A lambda does not have the position of a lambda inside it, its parameters are distinct, and a
quantifier has at least one. -/
def Form.wf : Form W → Prop
  | .atom _ _ => True
  | .neg f => f.wf
  | .and f g => f.wf ∧ g.wf
  | .imp f g => f.wf ∧ g.wf
  | .old f => f.wf
  | .all p bs body => p ∉ body.positions ∧ (bs.map Bind.name).Nodup ∧ bs ≠ [] ∧ body.wf
  | .ex p _ body => p ∉ body.positions ∧ body.wf
  | .bind p _ _ body => p ∉ body.positions ∧ body.wf

end Nagini.Quant
