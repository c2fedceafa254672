import Verif.Spec.Classes

/-!
Model of class hierarchies: subtyping, common superclass, member lookup,
topological sorting of union members and dispatch over them.
-/
set_option linter.unusedVariables false
namespace Nagini.Classes

variable (H : Hier)

/-- `PythonClass.issubtype`.  Models lib/program_nodes.py:711-716 (superclasses that
are generic instantiations behave like their class when compared with a class,
program_nodes.py:890-896). -/
def issubtype (c d : Nat) : Bool :=
  if c = d then true
  else match h : H.sup c with
    | none => false
    | some p => issubtype p d
termination_by H.depth c
decreasing_by exact H.depth_lt c p h

/-- `get_common_superclass`; `none` is the internal-error assertion.
Models lib/program_nodes.py:718-732. -/
def commonSuper (a b : Nat) : Option Nat :=
  if issubtype H a b then some b
  else if issubtype H b a then some a
  else match h : H.sup a with
    | some p => commonSuper p b
    | none =>
      match h' : H.sup b with
      | some q => commonSuper a q
      | none => none
termination_by H.depth a + H.depth b
decreasing_by
  · have := H.depth_lt a p h; omega
  · have := H.depth_lt b q h'; omega

/-- `UnionType.cls`: the common superclass of the (non-None) members, folded from
the first member.  Models lib/program_nodes.py:939-953. -/
def unionCls (first : Nat) : List Nat → Option Nat
  | [] => some first
  | c :: cs =>
    match commonSuper H first c with
    | some m => unionCls m cs
    | none => none

/-- Member lookup along the superclass chain.  Models `get_field`,
`get_static_field`, `get_function`, `get_predicate` (lib/program_nodes.py:551-572,
595-604, 631-640) for the respective dictionary, and `get_method` (574-585) for
the combination of `methods` and `static_methods`. -/
def lookup {α : Type} (defs : Nat → Option α) (c : Nat) : Option α :=
  match defs c with
  | some x => some x
  | none =>
    match h : H.sup c with
    | none => none
    | some p => lookup defs p
termination_by H.depth c
decreasing_by exact H.depth_lt c p h

/-- `has_function`.  Models lib/program_nodes.py:587-593. -/
def hasFunction {α : Type} (defs : Nat → Option α) (c : Nat) : Bool :=
  (defs c).isSome ||
    match h : H.sup c with
    | none => false
    | some p => hasFunction defs p
termination_by H.depth c
decreasing_by exact H.depth_lt c p h

/-- `get_method`: instance methods before static methods of the same class.
Models lib/program_nodes.py:574-585. -/
def getMethod {α : Type} (methods staticMethods : Nat → Option α) (c : Nat) : Option α :=
  lookup H (fun k => (methods k).or (staticMethods k)) c

/-- `get_func_or_method`: a function anywhere on the chain wins over methods.
Models lib/program_nodes.py:606-614. -/
def getFuncOrMethod {α : Type} (funcs methods : Nat → Option α) (c : Nat) : Option α :=
  match lookup H funcs c with
  | some x => some x
  | none => lookup H methods c

/-- The dependency map of `toposort_classes`: for every class of the set its
subclasses in the set, minus itself (the `toposort` library discards self
dependencies).  Models lib/program_nodes.py:1948-1951; `all_subclasses` (474-482)
is represented by `issubtype`, its inverse relation (`direct_subclasses` is
maintained with `superclass` in analyzer.py:320-321 and 659-669). -/
def depMap (S : List Nat) : List (Nat × List Nat) :=
  S.map fun c => (c, S.filter fun s => issubtype H s c && !(s == c))

/-- `toposort_flatten(map, False)` of the `toposort` library: repeatedly yields the
set of items without remaining dependencies (in the iteration order of that set,
given by `order`); `none` is CircularDependencyError.  `fuel` bounds the number of
rounds.  Models the call in lib/program_nodes.py:1953. -/
def toposortFlatten (order : List Nat → List Nat) : (fuel : Nat) → List (Nat × List Nat) → Option (List Nat)
  | 0, data => if data.isEmpty then some [] else none
  | fuel + 1, data =>
    let ordered := (data.filter fun p => p.2.isEmpty).map (·.1)
    if ordered.isEmpty then
      (if data.isEmpty then some [] else none)
    else
      (toposortFlatten order fuel
        ((data.filter fun p => !(ordered.contains p.1)).map
          fun p => (p.1, p.2.filter fun d => !(ordered.contains d)))).map (order ordered ++ ·)

/-- `toposort_classes`.  Models lib/program_nodes.py:1943-1953. -/
def toposortClasses (order : List Nat → List Nat) (S : List Nat) : Option (List Nat) :=
  toposortFlatten order S.length (depMap H S)

/-- Which block the statement built by `chain_if_stmts` executes for a receiver of
dynamic class `d` (`none`: the empty block).  The guards are type checks of the
receiver, i.e. `issubtype d`.  Models lib/program_nodes.py:1955-1967. -/
def chainIf (d : Nat) : List Nat → Option Nat
  | [] => none
  | c :: cs => if issubtype H d c then some c else chainIf d cs

/-- Which alternative the expression built by `chain_cond_exp` evaluates: the guard
of the last alternative is not tested.  Models lib/program_nodes.py:1969-1981
(`none`: IndexError on the empty list). -/
def chainCond (d : Nat) : List Nat → Option Nat
  | [] => none
  | [c] => some c
  | c :: cs => if issubtype H d c then some c else chainCond d cs

end Nagini.Classes
