import Verif.Spec.Previous

/-!
Model of `Previous(x)` in the invariants of `for` loops.

Simplified: the iterator's field `__previous` contains the elements of the previous iterations (For); the enclosing
statements are reduced to the enclosing `for` loops; `Previous` is used in functions, where all enclosing loops have iterators.
-/
namespace Nagini.Previous

/-- Does `Previous` refer to the loop?  Models lib/util.py:265-272. -/
def refersTo (x : String) : Target → Bool
  | .name y => y == x
  | .cons (.name y) _ => y == x
  | _ => false

/-- `find_loop_for_previous`, for the enclosing loops from the inside to the outside.  Models lib/util.py:255-275. -/
def findLoop (x : String) : List Loop → Option Loop
  | [] => none
  | l :: ls => if refersTo x l.target then some l else findLoop x ls

/-- `translate_previous`: the sequence `__previous` of the iterator of the loop.  `none`: the program is rejected.
Models translators/contract.py:479-497. -/
def translate (x : String) (loops : List Loop) : Option (List V) := (findLoop x loops).map (·.done)

end Nagini.Previous
