import Mathlib.Data.Fin.Basic
/-!
Model of the dependency computation for definedness checks (lib/program_nodes.py
`add_all_call_deps`) and of the inlining of statically bound calls (translators/call.py).
-/
namespace Nagini.Deps
variable {N : Nat}

/-- A dependency tuple `(reference, target, module, *conditions)`.  References, modules and
condition classes are numbers, the possible targets are numbered by `Fin N`.  Models the
tuples created at translators/call.py:750-754 and documented at
lib/program_nodes.py:1013-1021. -/
structure Dep (N : Nat) where
  ref : Nat
  target : Fin N
  mod : Nat
  conds : List Nat
deriving DecidableEq

/-- The loop over the dependencies of one callee; `prefix_` are the conditions under which we
are.  `rec` is `dep[1].add_all_call_deps`.  The result set is a list, the order in which the
set `call_deps` is iterated is that of the list.  Models lib/program_nodes.py:1022-1034. -/
def loop (rec : Fin N → List Nat → List (Dep N) → Option (List (Dep N))) (prefix_ : List Nat) :
    List (Dep N) → List (Dep N) → Option (List (Dep N))
  | [], res => some res
  | d :: ds, res =>
    if d ∈ res then loop rec prefix_ ds res
    else if d.conds ≠ [] then
      match rec d.target (prefix_ ++ d.conds) res with
      | none => none
      | some r => loop rec prefix_ ds r
    else
      match rec d.target prefix_ ({ d with conds := prefix_ } :: res) with
      | none => none
      | some r => loop rec prefix_ ds r

/-- `add_all_call_deps`, with at most the given depth of recursive calls (`none`: exceeded).
A target that cannot have dependencies has an empty list.  Models
lib/program_nodes.py:1010-1034 and lib/program_nodes.py:1106-1111. -/
def addAll (deps : Fin N → List (Dep N)) : Nat → Fin N → List Nat → List (Dep N) →
    Option (List (Dep N))
  | 0, _, _, _ => none
  | n + 1, a, p, res => loop (addAll deps n) p (deps a) res

/-! ### Inlining -/

/-- Expressions, as far as inlining is concerned: calls of statically bound methods with
arguments; everything else is a leaf.  Models the calls that reach translators/call.py:1100. -/
inductive Expr (N : Nat)
  | leaf
  | call (m : Fin N) (args : List (Expr N))

mutual
/-- `_inline_call` (with `rec` for translating the body of the inlined method); `stack` is
`ctx.inlined_calls`.  The result lists the inlined methods in order, or the method for which
the program is rejected.  Models translators/call.py:1100-1160. -/
def inlE (rec : List (Fin N) → Fin N → Option (Except (Fin N) (List (Fin N))))
    (stack : List (Fin N)) : Expr N → Option (Except (Fin N) (List (Fin N)))
  | .leaf => some (.ok [])
  | .call m args =>
    if m ∈ stack then some (.error m)
    else
      match inlL rec stack args with
      | none => none
      | some (.error e) => some (.error e)
      | some (.ok as) =>
        match rec (m :: stack) m with
        | none => none
        | some (.error e) => some (.error e)
        | some (.ok bs) => some (.ok (as ++ m :: bs))
/-- Several expressions in order: the arguments of a call (translators/call.py:1113) or the
statements of a body (translators/call.py:1094-1095). -/
def inlL (rec : List (Fin N) → Fin N → Option (Except (Fin N) (List (Fin N))))
    (stack : List (Fin N)) : List (Expr N) → Option (Except (Fin N) (List (Fin N)))
  | [] => some (.ok [])
  | e :: es =>
    match inlE rec stack e with
    | none => none
    | some (.error x) => some (.error x)
    | some (.ok as) =>
      match inlL rec stack es with
      | none => none
      | some (.error x) => some (.error x)
      | some (.ok bs) => some (.ok (as ++ bs))
end

/-- Translation of the body of method `m` while the methods in `stack` are being inlined,
with at most the given nesting depth (`none`: exceeded).  Models
translators/call.py:1042-1098. -/
def inlM (body : Fin N → List (Expr N)) : Nat → List (Fin N) → Fin N →
    Option (Except (Fin N) (List (Fin N)))
  | 0, _, _ => none
  | n + 1, stack, m => inlL (inlM body n) stack (body m)

end Nagini.Deps
