import Verif.Model.Placement
import Verif.Spec.Body
/-!
Specification: where contract statements belong, and which contracts a unit therefore has.
-/
namespace Nagini.Placement

open Nagini.Body (Fn Nm)

/-- The name of a contract function. -/
def Kind.nm : Kind → Nm
  | .requires => .requires
  | .ensures => .ensures
  | .exsures => .exsures
  | .decreases => .decreases
  | .invariant => .invariant

/-- A call of a contract function occurs in an expression. -/
inductive OccE : E → Kind → List E → Prop
  | here (k : Kind) (args : List E) : OccE (.call (.name k.nm) args) k args
  | arg (f : Fn) (args : List E) (e : E) (k : Kind) (as : List E) :
    e ∈ args → OccE e k as → OccE (.call f args) k as
  | part (n : Nat) (args : List E) (e : E) (k : Kind) (as : List E) :
    e ∈ args → OccE e k as → OccE (.op n args) k as

/-- A call of a contract function occurs in a statement. -/
inductive OccS : S → Kind → List E → Prop
  | call (f : Fn) (args : List E) (k : Kind) (as : List E) :
    OccE (.call f args) k as → OccS (.call f args) k as
  | simple (n : Nat) (es : List E) (e : E) (k : Kind) (as : List E) :
    e ∈ es → OccE e k as → OccS (.simple n es) k as
  | blockE (es : List E) (a b : List S) (e : E) (k : Kind) (as : List E) :
    e ∈ es → OccE e k as → OccS (.block es a b) k as
  | blockS (es : List E) (a b : List S) (s : S) (k : Kind) (as : List E) :
    s ∈ a ++ b → OccS s k as → OccS (.block es a b) k as
  | whileE (n : Nat) (c : E) (a b : List S) (k : Kind) (as : List E) :
    OccE c k as → OccS (.whileLoop n c a b) k as
  | whileS (n : Nat) (c : E) (a b : List S) (s : S) (k : Kind) (as : List E) :
    s ∈ a ++ b → OccS s k as → OccS (.whileLoop n c a b) k as
  | forE (n : Nat) (t i : E) (a b : List S) (e : E) (k : Kind) (as : List E) :
    e = t ∨ e = i → OccE e k as → OccS (.forLoop n t i a b) k as
  | forS (n : Nat) (t i : E) (a b : List S) (s : S) (k : Kind) (as : List E) :
    s ∈ a ++ b → OccS s k as → OccS (.forLoop n t i a b) k as

/-- No call of a contract function occurs in the expression. -/
def Plain (e : E) : Prop := ∀ k as, ¬ OccE e k as

/-- Statements that may precede the code of a loop: docstrings, global declarations, invariants. -/
inductive LoopHead : S → Prop
  | str : LoopHead .str
  | glob : LoopHead .glob
  | inv (args : List E) : (∀ e ∈ args, Plain e) → LoopHead (.call (.name .invariant) args)

/-- Statements that may precede the code of a method: docstrings, global declarations, method
contracts. -/
inductive MethodHead : S → Prop
  | str : MethodHead .str
  | glob : MethodHead .glob
  | contract (k : Kind) (args : List E) : k ≠ .invariant → (∀ e ∈ args, Plain e) →
    MethodHead (.call (.name k.nm) args)

/-- Code: no contract anywhere but invariants in front of the code of loops. -/
inductive Code : S → Prop
  | str : Code .str
  | glob : Code .glob
  | call (f : Fn) (args : List E) : Plain (.call f args) → Code (.call f args)
  | simple (n : Nat) (es : List E) : (∀ e ∈ es, Plain e) → Code (.simple n es)
  | block (es : List E) (a b : List S) : (∀ e ∈ es, Plain e) → (∀ s ∈ a, Code s) →
    (∀ s ∈ b, Code s) → Code (.block es a b)
  | whileLoop (n : Nat) (c : E) (hd code orelse : List S) : Plain c → (∀ s ∈ hd, LoopHead s) →
    (∀ s ∈ code, Code s) → (∀ s ∈ orelse, Code s) → Code (.whileLoop n c (hd ++ code) orelse)
  | forLoop (n : Nat) (t i : E) (hd code orelse : List S) : Plain t → Plain i →
    (∀ s ∈ hd, LoopHead s) → (∀ s ∈ code, Code s) → (∀ s ∈ orelse, Code s) →
    Code (.forLoop n t i (hd ++ code) orelse)

/-- A unit whose contracts are where they belong: the contracts of a method in front of its code,
postconditions possibly behind it. -/
def Placed (u : U) (ss : List S) : Prop :=
  if u.isModule then ∀ s ∈ ss, Code s
  else ∃ hd code tl, ss = hd ++ code ++ tl ∧ (∀ s ∈ hd, MethodHead s) ∧ (∀ s ∈ code, Code s) ∧
    ∀ s ∈ tl, ∃ args, s = .call (.name .ensures) args ∧ ∀ e ∈ args, Plain e

/-- The contract that a statement states itself, for the loop whose body it stands in. -/
def stated (l : Option Nat) : S → List Rec
  | .call (.name .requires) args => [⟨.requires, none, args⟩]
  | .call (.name .ensures) args => [⟨.ensures, none, args⟩]
  | .call (.name .exsures) args => [⟨.exsures, none, args⟩]
  | .call (.name .decreases) args => [⟨.decreases, none, args⟩]
  | .call (.name .invariant) args => [⟨.invariant, l, args⟩]
  | _ => []

mutual
/-- The contracts stated by the statements of the bodies of loops in a statement, in order. -/
def inLoops : S → List Rec
  | .block _ a b => inLoopsL a ++ inLoopsL b
  | .whileLoop n _ body orelse => bodyOf n body ++ inLoopsL orelse
  | .forLoop n _ _ body orelse => bodyOf n body ++ inLoopsL orelse
  | _ => []
/-- The same for a list of statements. -/
def inLoopsL : List S → List Rec
  | [] => []
  | s :: ss => inLoops s ++ inLoopsL ss
/-- The contracts stated by the statements of the body of a loop and in the loops of it. -/
def bodyOf (n : Nat) : List S → List Rec
  | [] => []
  | s :: ss => stated (some n) s ++ inLoops s ++ bodyOf n ss
end

/-- The contracts stated by the statements of a unit and of the bodies of its loops. -/
def written : List S → List Rec
  | [] => []
  | s :: ss => stated none s ++ inLoops s ++ written ss

mutual
/-- No call in a statement merely ends in the name of a contract function, and there are no IO
existentials (whose argument contains contracts). -/
def regular : S → Bool
  | .call f _ => !Body.Disguised (.call f) && !(f == .call (.name .ioExists))
  | .block _ a b => regularL a && regularL b
  | .whileLoop _ _ a b => regularL a && regularL b
  | .forLoop _ _ _ a b => regularL a && regularL b
  | _ => true
/-- The same for a list of statements. -/
def regularL : List S → Bool
  | [] => true
  | s :: ss => regular s && regularL ss
end

/-- The statement is a contract of a method. -/
def methodContract : S → Bool
  | .call (.name .requires) _ => true
  | .call (.name .ensures) _ => true
  | .call (.name .exsures) _ => true
  | .call (.name .decreases) _ => true
  | _ => false

mutual
/-- No statement of the body of a loop is a contract of a method. -/
def noStray : S → Bool
  | .block _ a b => noStrayL a && noStrayL b
  | .whileLoop _ _ a b => a.all (fun s => !methodContract s) && noStrayL a && noStrayL b
  | .forLoop _ _ _ a b => a.all (fun s => !methodContract s) && noStrayL a && noStrayL b
  | _ => true
/-- The same for a list of statements. -/
def noStrayL : List S → Bool
  | [] => true
  | s :: ss => noStray s && noStrayL ss
end

/-- A contract statement of a kind without contracts in its arguments. -/
def IsContract (k : Kind) (s : S) : Prop :=
  ∃ args, s = .call (.name k.nm) args ∧ ∀ e ∈ args, Plain e

/-- Code as the manual asks for: in loops, first docstrings, then global declarations, then
invariants, then code.  Calls have a function part with a name or a subscript. -/
inductive Tidy : S → Prop
  | str : Tidy .str
  | glob : Tidy .glob
  | call (f : Fn) (args : List E) : Body.fnName f ≠ none → Plain (.call f args) →
    Tidy (.call f args)
  | simple (n : Nat) (es : List E) : (∀ e ∈ es, Plain e) → Tidy (.simple n es)
  | block (es : List E) (a b : List S) : (∀ e ∈ es, Plain e) → (∀ s ∈ a, Tidy s) →
    (∀ s ∈ b, Tidy s) → Tidy (.block es a b)
  | whileLoop (n : Nat) (c : E) (docs globs invs code orelse : List S) : Plain c →
    (∀ s ∈ docs, s = .str) → (∀ s ∈ globs, s = .glob) → (∀ s ∈ invs, IsContract .invariant s) →
    (∀ s ∈ code, Tidy s) → (∀ s ∈ orelse, Tidy s) →
    Tidy (.whileLoop n c (docs ++ globs ++ invs ++ code) orelse)
  | forLoop (n : Nat) (t i : E) (docs globs invs code orelse : List S) : Plain t → Plain i →
    (∀ s ∈ docs, s = .str) → (∀ s ∈ globs, s = .glob) → (∀ s ∈ invs, IsContract .invariant s) →
    (∀ s ∈ code, Tidy s) → (∀ s ∈ orelse, Tidy s) →
    Tidy (.forLoop n t i (docs ++ globs ++ invs ++ code) orelse)

end Nagini.Placement
