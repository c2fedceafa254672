import Verif.Spec.MethodVars

/-!
Model of the type variables of methods: the expressions that stand for them (analyzer.py), and the type preconditions
and postconditions of methods (translators/method.py) in terms of these.

Simplified: tuples, unions and optional types in the types of parameters are left out (for unions, the arguments are
looked up in a function that does not exist), as are `*args`, `**kwargs` and `Type[T]`.
-/
namespace Nagini.MethodVars

/-- The axioms about `issubtype` and about type arguments that are used here; `ar` gives the number of type arguments.
Models translators/type_domain_factory.py:275-320, 656-731 (reflexivity, transitivity, object, type arguments). -/
structure Dom.Ok (ar : Nat → Nat) (D : Dom) : Prop where
  refl : ∀ z, D.sub z z
  trans : ∀ x y z, D.sub x y → D.sub y z → D.sub x z
  object : ∀ z, D.sub z (D.app 0 [])
  arg : ∀ (c : Nat) (as : List D.T) (z : D.T) (i : Nat) (x : D.T), as.length = ar c → D.sub z (D.app c as) →
    as[i]? = some x → D.arg c z i = x

mutual
/-- `create_type_var_definition`: the applications of `get_type_arg` to the type of the argument, in the order in which
they are applied.  Models analyzer.py:1164-1190. -/
def defOf (v : Nat) : Ty → Option Path
  | .var w => if w = v then some [] else none
  | .app c as => defArgs v c 0 as
/-- The loop over the type arguments: the definition for the argument is applied first, and then the argument is taken.
Models analyzer.py:1175-1184. -/
def defArgs (v c i : Nat) : List Ty → Option Path
  | [] => none
  | a :: r =>
    match defOf v a with
    | some l => some (l ++ [(c, i)])
    | none => defArgs v c (i + 1) r
end

/-- The value of a definition for an argument type.  Models translators/method.py:491-492 and
translators/type_domain_factory.py:892-907. -/
def evalDef (D : Dom) (l : Path) (z : D.T) : D.T := l.foldl (fun t p => D.arg p.1 t p.2) z

/-- The value of a type variable: the first parameter that has a definition for it is used.
Models analyzer.py:1149-1160 and translators/method.py:482-496. -/
def bindVar (D : Dom) (v : Nat) : List Ty → List D.T → Option D.T
  | P :: ps, a :: as =>
    match defOf v P with
    | some l => some (evalDef D l a)
    | none => bindVar D v ps as
  | _, _ => none

/-- The values of all type variables (those that have none do not occur in parameters).
Models translators/method.py:463-496. -/
def bind (D : Dom) (m : Meth) (as : List D.T) (v : Nat) : D.T := (bindVar D v m.params as).getD (D.app 0 [])

/-- The type preconditions of a method hold.  Models translators/method.py:55-67, 223-244, 270-277, translators/type.py:87-103 and
translators/type_domain_factory.py:789-836. -/
def Accepted (D : Dom) (m : Meth) (as : List D.T) : Prop :=
  (∀ (i : Nat) (P : Ty) (a : D.T), m.params[i]? = some P → as[i]? = some a → D.sub a (den D (bind D m as) P)) ∧
  ∀ v b, (v, b) ∈ m.bounds → D.sub (bind D m as v) (den D (bind D m as) b)

/-- What is known about the type of the result.  Models translators/method.py:329-335, 392-405 (the postcondition about
the type of the result). -/
def ResultType (D : Dom) (m : Meth) (as : List D.T) (r : D.T) : Prop := D.sub r (den D (bind D m as) m.res)

end Nagini.MethodVars
