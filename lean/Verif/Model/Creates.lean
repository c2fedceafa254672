import Verif.Model.ExprTypes

/-!
Model of the types with which pure collections are created: the second argument of the calls of
`PSeq___create__`, `PSet___create__` and `PMultiset___create__` that displays, `ToSeq` and `ToMS` are
translated to, translators/contract.py.  Static types are those of `ExprTypes`.
-/
namespace Nagini.Creates

open ExprTypes

/-- `coll_type.type_args[0]`.  The first type argument of an optional type is `None`, whose literal is
the one of `NoneType`; classes without type arguments have no such attribute, and empty tuples no first
argument, which are exceptions (`none`).  Models translators/contract.py:708, 732,
lib/program_nodes.py:787-793, 982-985, translators/type_domain_factory.py:856-857. -/
def firstArg : Ty → Option Ty
  | .cls _ => none
  | .tup [] => none
  | .tup (a :: _) => some a
  | .vtup a => some a
  | .coll _ a => some a
  | .dict k _ => some k
  | .opt _ => some (.cls noneC)

/-- The type of the elements that `ToSeq(e)` is created with, from the static type of `e`.
Models translators/contract.py:721-740. -/
def seqArg : Ty → Option Ty
  | .cls c => if c = rangeC ∨ c = bytearrayC then some (.cls intC) else firstArg (.cls c)
  | t => firstArg t

/-- The type of the elements that `ToMS(e)` is created with, from the static type of `e`.
Models translators/contract.py:698-719. -/
def msArg : Ty → Option Ty
  | .cls c => if c = rangeC then some (.cls intC) else firstArg (.cls c)
  | t => firstArg t

/-- Displays of pure collections.  Models translators/contract.py:1210-1217. -/
def pure : Kind → Bool
  | .pseq => true
  | .pset => true
  | .pms => true
  | .list => false
  | .set => false

/-- The type argument of the static type of a display: `seq_type.type_args[0]`.
Models translators/contract.py:776, 829, 856. -/
def displayArg : Ty → Option Ty
  | .coll _ a => some a
  | _ => none

/-- The kind and the element type of the pure collection that an expression creates; `none` for other
expressions and if translating it raises an exception.
Models translators/contract.py:698-740, 757-782, 810-835, 838-862. -/
def created (P : Prog) (tenv : Nat → Option Ty) : Exp → Option (Kind × Ty)
  | .toSeq e => ((typ P tenv e).bind seqArg).map fun a => (.pseq, a)
  | .toMS e => ((typ P tenv e).bind msArg).map fun a => (.pms, a)
  | .disp k ann es => if pure k then ((typ P tenv (.disp k ann es)).bind displayArg).map fun a => (k, a) else none
  | _ => none

end Nagini.Creates
