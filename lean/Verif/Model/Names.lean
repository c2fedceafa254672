/-
Model of the numeric name identities and of fresh-name generation.

Strings are modelled as lists of Unicode code points (`List Nat`): every
Python `str` is such a list, so a statement about all lists covers all strings.
-/
namespace Nagini.Names

/-- A Python string, as the list of its code points (`ord` of each character, as
read by lib/util.py:434). -/
abbrev PyStr := List Nat

/-- The loop of `string_to_int`: `result += pow(256, index) * ord(char)`.
Models /repo/src/nagini_translation/lib/util.py:432-434. -/
def stringToIntFrom (result index : Nat) : PyStr → Nat
  | [] => result
  | c :: cs => stringToIntFrom (result + 256 ^ index * c) (index + 1) cs

/-- `string_to_int`.
Models /repo/src/nagini_translation/lib/util.py:427-434. -/
def stringToInt (s : PyStr) : Nat := stringToIntFrom 0 0 s

/-- `int_to_string`: the `while i > 0` loop, which appends `chr(i % 256)` and
divides by 256.
Models /repo/src/nagini_translation/lib/util.py:437-442 (for `i ≥ 0`; negative
arguments return the empty string and never come from `string_to_int`). -/
def intToString (i : Nat) : PyStr :=
  if h : 0 < i then (i % 256) :: intToString (i / 256) else []
termination_by i
decreasing_by omega

/-- Decimal digits of a positive number, most significant first, as code points.
Helper for `str(counter)`; models Python's built-in `str` on ints as used in
/repo/src/nagini_translation/lib/program_nodes.py:85,88. -/
def decDigits (n : Nat) (acc : PyStr) : PyStr :=
  if n < 10 then (48 + n) :: acc else decDigits (n / 10) ((48 + n % 10) :: acc)
termination_by n
decreasing_by omega

/-- `name + '_' + str(counter)` (95 is `ord('_')`).
Models /repo/src/nagini_translation/lib/program_nodes.py:85 and 88. -/
def candidate (name : PyStr) (counter : Nat) : PyStr :=
  name ++ 95 :: decDigits counter []

/-- A scope: a module owns a set of used names (identified by `setId`, shared
between the modules of one program), every other scope has `sil_names = None`
and a superscope.
Models /repo/src/nagini_translation/lib/program_nodes.py:66-73, 147-150
(modules), 401, 1062, 1293 (classes, methods, IO operations). -/
inductive Scope where
  | root (setId : Nat)
  | nested (superscope : Scope)

/-- The used-name sets of all programs in the process, by identity
(`sil_names`, lib/program_nodes.py:66-73). -/
abbrev Store := Nat → List PyStr

/-- `contains_name`.  Models lib/program_nodes.py:75-80. -/
def containsName (σ : Store) : Scope → PyStr → Bool
  | .root i, n => (σ i).contains n
  | .nested s, n => containsName σ s n

/-- `_add_name`.  Models lib/program_nodes.py:95-99. -/
def addName (σ : Store) : Scope → PyStr → Store
  | .root i, n => fun j => if j = i then n :: σ i else σ j
  | .nested s, n => addName σ s n

/-- The `while self.contains_name(new_name)` loop, with `fuel` bounding the
number of tests; `none` means that the loop is still running after `fuel` tests.
Models lib/program_nodes.py:84-88. -/
def searchName (σ : Store) (sc : Scope) (name : PyStr) : (fuel counter : Nat) → Option PyStr
  | 0, _ => none
  | fuel + 1, counter =>
    if containsName σ sc (candidate name counter) then
      searchName σ sc name fuel (counter + 1)
    else some (candidate name counter)

/-- `get_fresh_name`, given a bound on the number of loop tests.
Models lib/program_nodes.py:82-93. -/
def getFreshName (fuel : Nat) (σ : Store) (sc : Scope) (name : PyStr) : Option (PyStr × Store) :=
  if containsName σ sc name then
    match searchName σ sc name fuel 0 with
    | some n => some (n, addName σ sc n)
    | none => none
  else some (name, addName σ sc name)

end Nagini.Names
