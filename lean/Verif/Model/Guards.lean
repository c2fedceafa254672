/-!
Model of the collection of guards: lib/guard_collectors.py and its use for obligations.
-/
namespace Nagini.Guards

/-- Assertions: an expression without obligations, an obligation (`MustTerminate`, `MustRelease`,
`MustInvoke`; also `WaitLevel()`, for which guards are collected in the same way),
`TerminatesSif(c, m)`, a conjunction, `Implies(c, a)`, `a if c else b`, and other expressions, which
are visited generically (`Unfolding`).  The arguments of obligations are not visited
and are left out.  Models the cases of lib/guard_collectors.py:35-56 and
translators/obligation/obligation_info.py:122-141. -/
inductive A
  | atom (x : Nat)
  | obl (k : Nat)
  | sif (c : A) (k : Nat)
  | and (l r : A)
  | implies (c a : A)
  | ife (c a b : A)
  | unfolding (a : A)
deriving DecidableEq

/-- An element of `current_guard`: a condition of the contract, or its negation
`ast.UnaryOp(ast.Not(), test)`.  Models lib/guard_collectors.py:24, 40, 49, 53. -/
inductive Cond
  | pos (c : A)
  | neg (c : A)
deriving DecidableEq

/-- The state of the visitor: `current_guard`, and the instances collected so far.  Models
lib/guard_collectors.py:24, translators/obligation/obligation_info.py:116-120. -/
structure St where
  guard : List Cond
  out : List (Nat × List Cond)
deriving DecidableEq

/-- `current_guard.append`.  Models lib/guard_collectors.py:40, 49, 54. -/
def St.push (s : St) (c : Cond) : St := { s with guard := s.guard ++ [c] }

/-- `current_guard.pop`.  Models lib/guard_collectors.py:42, 51, 56. -/
def St.pop (s : St) : St := { s with guard := s.guard.dropLast }

/-- The visitor.  Models lib/guard_collectors.py:35-56,
translators/obligation/obligation_info.py:122-141. -/
def visit : A → St → St
  | .atom _, s => s
  | .obl k, s => { s with out := s.out ++ [(k, s.guard)] }
  | .sif c k, s => { s with out := s.out ++ [(k, s.guard ++ [.pos c])] }
  | .and l r, s => visit r (visit l s)
  | .implies c a, s => (visit a (s.push (.pos c))).pop
  | .ife c a b, s =>
    let s1 := (visit a (s.push (.pos c))).pop
    (visit b (s1.push (.neg c))).pop
  | .unfolding a, s => visit a s

/-- `traverse`, for each part of a contract; the result is `none` if an assertion fails.  Models
lib/guard_collectors.py:26-33, translators/obligation/obligation_info.py:308-314. -/
def traverseAll (out : List (Nat × List Cond)) : List A → Option (List (Nat × List Cond))
  | [] => some out
  | a :: as =>
    let s := visit a ⟨[], out⟩
    if s.guard.length = 0 then traverseAll s.out as else none

/-- `get_instance`: obligations that are translated but were not collected raise a `KeyError`.
Models translators/obligation/obligation_info.py:143-145. -/
def lookup (out : List (Nat × List Cond)) (k : Nat) : Option (List Cond) :=
  (out.find? (·.1 == k)).map (·.2)

end Nagini.Guards
