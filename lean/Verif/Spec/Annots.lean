/-!
Specification for C144: which names Python looks up when it executes the definitions of a module.

Annotations of parameters and results are evaluated when `def` is executed, those of methods when their
class is, and those of variables of the module when the assignment is executed.  A name that is not
defined yet is a `NameError`.
-/
namespace Nagini.Annots

/-- Names: `x` and `m.x`. -/
inductive Name where
  | single (n : Nat)
  | comb (m n : Nat)
  deriving DecidableEq

/-- Annotations: names, `m.x`, strings (`text n` is the string that consists of the name `n`), `None`,
`a | b` and `h[a, …]`. -/
inductive Ann where
  | name (n : Nat)
  | attr (m n : Nat)
  | text (n : Nat)
  | none
  | bar (a b : Ann)
  | sub (h : Nat) (args : List Ann)

mutual
/-- The names that are looked up when an annotation is evaluated. -/
def Ann.names : Ann → List Name
  | .name n => [.single n]
  | .attr m n => [.comb m n]
  | .text _ => []
  | .none => []
  | .bar a b => a.names ++ b.names
  | .sub h args => .single h :: namesList args
/-- The names that are looked up when a list of annotations is evaluated. -/
def namesList : List Ann → List Name
  | [] => []
  | a :: as => a.names ++ namesList as
end

/-- Statements of a module.

* `fn x anns`: a function `x` with the annotations `anns`;
* `cls x anns`: a class `x` whose methods have the annotations `anns`;
* `var x ann`: `x: ann = …`, where the right-hand side is a literal. -/
inductive Item where
  | fn (x : Nat) (anns : List Ann)
  | cls (x : Nat) (anns : List Ann)
  | var (x : Nat) (ann : Ann)

/-- The annotations of a statement. -/
def Item.anns : Item → List Ann
  | .fn _ as => as
  | .cls _ as => as
  | .var _ a => [a]

/-- The name that a statement defines. -/
def Item.defines : Item → Nat
  | .fn x _ => x
  | .cls x _ => x
  | .var x _ => x

/-- Executing the statements of a module, starting with the defined names `D`, raises no `NameError`. -/
def Runs : List Name → List Item → Prop
  | _, [] => True
  | D, i :: is => (∀ n ∈ namesList i.anns, n ∈ D) ∧ Runs (.single i.defines :: D) is

/-- What a name stands for: a class or a type variable. -/
inductive Entry where
  | cls (c : Nat)
  | tvar

/-- The name `Optional`. -/
def optionalN : Nat := 0
/-- The name `Union`. -/
def unionN : Nat := 1
/-- The class `object`. -/
def objectC : Nat := 0

/-- The classes of a program: what names and `m.x` stand for (whether or not they are defined already),
which classes are built in, and the superclasses of each class, starting with itself. -/
structure World where
  entry : Nat → Option Entry
  member : Nat → Nat → Option Nat
  builtin : Nat → Bool
  supers : Nat → List Nat

/-- Classes are their own first superclass. -/
def World.Ok (W : World) : Prop := ∀ c, ∃ l, W.supers c = c :: l

/-- The names of built-in classes and of `Optional` and `Union` (which are no classes) are defined. -/
def Base (W : World) (D : List Name) : Prop :=
  (∀ n c, W.entry n = some (.cls c) → W.builtin c = true → .single n ∈ D) ∧
    .single optionalN ∈ D ∧ .single unionN ∈ D ∧ W.entry optionalN = none ∧ W.entry unionN = none

end Nagini.Annots
