import Verif.Spec.GlobalNames

/-!
Model of the checks that global names are defined (translators/common.py, translators/call.py,
translators/expression.py, translators/statement.py, lib/program_nodes.py): the set of defined names that the main
method maintains, the dependencies recorded for bodies, and what is asserted in the main method.

Simplified: one module; dependencies of annotations, default values (C123) and initialisers of class attributes are
left out.  The dependencies of a call are those that following the recorded dependencies finds, as C40 proves for
`add_all_call_deps` whenever that computation ends.
-/
set_option linter.unusedVariables false
namespace Nagini.GlobalNames

/-- Encoded names: `_single(n)` and `_combine(_single(c), _single(m))`.
Models translators/common.py:309-372 and resources/name_domain.sil:13-15. -/
inductive Ref
  | single (n : Nat)
  | comb (c m : Nat)
  deriving DecidableEq

/-- `get_method`, following at most `fuel` classes.  Models lib/program_nodes.py:574-585. -/
def lookup (p : Prog) (m : Nat) : Nat → Nat → Option (List Act)
  | 0, _ => none
  | fuel + 1, c =>
    match p.classes[c]? with
    | none => none
    | some cd =>
      match cd.methods m with
      | some b => some b
      | none =>
        match cd.sup with
        | some d => lookup p m fuel d
        | none => none

/-- Whether `d` is `c` or one of its subclasses.  Models lib/program_nodes.py:474-482 (which collects them from the
superclass down). -/
def isSub (p : Prog) (c : Nat) : Nat → Nat → Bool
  | 0, _ => false
  | fuel + 1, d =>
    match p.classes[d]? with
    | none => false
    | some cd =>
      decide (d = c) ||
        match cd.sup with
        | some e => isSub p c fuel e
        | none => false

/-- `all_subclasses`.  Models lib/program_nodes.py:474-482. -/
def subclasses (p : Prog) (c : Nat) : List Nat :=
  (List.range p.classes.length).filter fun d => isSub p c (d + 1) d

/-- The name of a class.  Models translators/common.py:318 (`declaration.name`). -/
def className (p : Prog) (c : Nat) : Nat := (p.classes[c]?.map Cls.name).getD 0

/-- A recorded dependency: the name that has to be defined (not for conditional dependencies), the body whose
dependencies are to be followed, and the conditions.  Models lib/program_nodes.py:1013-1034. -/
structure Dep where
  ref : Option Ref
  body : List Act
  conds : List Nat

/-- What is recorded for an action in the body of a function or method.  A class is recorded when an object of it is
created, but classes have no `add_all_call_deps`; implicit calls record nothing.
Models translators/call.py:286-292, 718-724, 737-756, 764-768, translators/expression.py:942-944 and
lib/program_nodes.py:1033-1034. -/
def depsOf (p : Prog) : Act → List Dep
  | .read n => [⟨some (.single n), [], []⟩]
  | .call f => [⟨some (.single f), (p.funs f).getD [], []⟩]
  | .new c => [⟨some (.single (className p c)), [], []⟩]
  | .meth c m => (subclasses p c).map fun d => ⟨none, (lookup p m (d + 1) d).getD [], [d]⟩
  | .smeth c m => [⟨some (.comb (className p c) m), (lookup p m (c + 1) c).getD [], []⟩]
  | .implicit _ _ => []

/-- The dependencies that are found from a body, with their conditions.  Models lib/program_nodes.py:1010-1034 (see
C40). -/
inductive Needs (p : Prog) : List Act → List Nat → Ref → Prop
  | direct {b a e r} : a ∈ b → e ∈ depsOf p a → e.ref = some r → Needs p b [] r
  | step {b a e cs r} : a ∈ b → e ∈ depsOf p a → Needs p e.body cs r → Needs p b (e.conds ++ cs) r

/-- The assertion about dependencies: each is defined if the classes in its conditions are.
Models translators/common.py:425-443. -/
def Passes (p : Prog) (E : List Ref) (b : List Act) : Prop :=
  ∀ cs r, Needs p b cs r → (∀ c ∈ cs, Ref.single (className p c) ∈ E) → r ∈ E

/-- What is asserted for an action in the main method: for calls of functions and constructors the name and the
dependencies, for calls of methods nothing.
Models translators/common.py:400-445, translators/call.py:293-295, 725-727, 769-770 and
translators/expression.py:939-941. -/
def checkAct (p : Prog) (E : List Ref) : Act → Prop
  | .read n => .single n ∈ E
  | .call f => .single f ∈ E ∧ Passes p E ((p.funs f).getD [])
  | .new c => .single (className p c) ∈ E ∧ Passes p E ((lookup p initName (c + 1) c).getD [])
  | .meth _ _ | .smeth _ _ | .implicit _ _ => True

/-- The main method verifies, as far as names are concerned, if the names `E` are defined before.  The definitions in
the body of a class mark their names as defined, too.
Models translators/statement.py:336-391, 1449-1450 and translators/common.py:309-333. -/
def Verified (p : Prog) : List Ref → List Stm → Prop
  | _, [] => True
  | E, .def_ f :: r => Verified p (.single f :: E) r
  | E, .cls c :: r => ∀ cd, p.classes[c]? = some cd →
      (∀ d, cd.sup = some d → .single (className p d) ∈ E) ∧
      Verified p (.single cd.name :: cd.inner.map Ref.single ++ E) r
  | E, .assign x as :: r => (∀ a ∈ as, checkAct p E a) ∧ Verified p (.single x :: E) r
  | E, .eval as :: r => (∀ a ∈ as, checkAct p E a) ∧ Verified p E r

end Nagini.GlobalNames
