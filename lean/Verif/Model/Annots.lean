import Verif.Spec.Annots

/-!
Model of the checks that the names in annotations are defined: the dependencies that are recorded for
functions and classes (translators/program.py), the type that an annotation stands for
(lib/resolver.py) and the names whose definedness is asserted (translators/common.py,
translators/statement.py).

Simplified: one module (names of imported modules, `m.x`, are in the set of defined names or not, see
C39); a subscript is applied to a name; no `Tuple[a, ...]` and no `Callable`; the bound of a type variable is a built-in
class.
-/
namespace Nagini.Annots

/-- What `get_target` finds for an annotation: an exception in nagini, nothing, a type variable, or a type with
its `python_class` and `contains_type_var()`.  Models lib/resolver.py:61-172 and
lib/program_nodes.py:375-379, 804-809, 936-957, 990-992. -/
inductive Target where
  | crash
  | unknown
  | tvar
  | ty (c : Nat) (tv : Bool)
  deriving DecidableEq

/-- `get_common_superclass` with single inheritance: the first superclass of `c` that is one of `d`.  Models
lib/program_nodes.py:718-732. -/
def join (W : World) (c d : Nat) : Nat := ((W.supers c).find? fun e => (W.supers d).contains e).getD objectC

/-- What `find_entry` finds for a name.  Models lib/resolver.py:72-75, 175-185. -/
def look (W : World) (n : Nat) : Target :=
  match W.entry n with
  | none => .unknown
  | some .tvar => .tvar
  | some (.cls c) => .ty c false

/-- Whether the type contains a type variable; `None` does not.  Models lib/program_nodes.py:805, 937. -/
def Target.hasTvar : Target → Bool
  | .tvar => true
  | .ty _ tv => tv
  | _ => false

/-- The common superclass of the classes of a union, starting with `c`; a type variable has no method
`get_common_superclass`.  Models lib/program_nodes.py:946-953. -/
def joinAll (W : World) : Nat → List Target → Option Nat
  | c, [] => some c
  | _, .crash :: _ => none
  | _, .tvar :: _ => none
  | c, .unknown :: ts => joinAll W c ts
  | c, .ty d _ :: ts => joinAll W (join W c d) ts

/-- The class of a union: `None` is skipped, and a union of `None` only is an error.  Models
lib/program_nodes.py:926-931, 940-957. -/
def unionTy (W : World) : List Target → Target
  | [] => .crash
  | .crash :: _ => .crash
  | .tvar :: _ => .crash
  | .unknown :: ts => unionTy W ts
  | .ty c tv :: ts =>
    match joinAll W c ts with
    | some d => .ty d (tv || ts.any Target.hasTvar)
    | none => .crash

/-- `Optional[t]`: an error if nothing is known about `t`.  Models lib/program_nodes.py:982-992. -/
def optionalTy : List Target → Target
  | [.ty c tv] => .ty c tv
  | [.tvar] => .tvar
  | _ => .crash

/-- `GenericType(c, args)`.  Models lib/resolver.py:145-160. -/
def genericTy (c : Nat) (ts : List Target) : Target :=
  if ts.contains .crash then .crash else .ty c (ts.any Target.hasTvar)

/-- `Union[…]`: a single argument stands for itself.  Models lib/resolver.py:164-170. -/
def unionOrOne (W : World) : List Target → Target
  | [t] => t
  | ts => unionTy W ts

mutual
/-- `get_target`, where strings are references.  Models lib/resolver.py:72-75, 96-126, 127-172. -/
def target (W : World) : Ann → Target
  | .name n => look W n
  | .attr m n =>
    match W.member m n with
    | none => .unknown
    | some c => .ty c false
  | .text n => look W n
  | .none => .unknown
  | .bar _ _ => .unknown
  | .sub h args =>
    match look W h with
    | .ty c _ => genericTy c (targets W args)
    | _ =>
      if h = optionalN then optionalTy (targets W args)
      else if h = unionN then unionOrOne W (targets W args)
      else .unknown
/-- `get_target` of the arguments of a subscript.  Models lib/resolver.py:147-155. -/
def targets (W : World) : List Ann → List Target
  | [] => []
  | a :: as => target W a :: targets W as
end

/-- The dependency that an annotation adds to `definition_deps`; `none` is an exception.  Models
translators/program.py:444-450, 456-460. -/
def dep (W : World) (a : Ann) : Option (List Ann) :=
  match a with
  | .text _ => some []
  | .none => some []
  | a =>
    match target W a with
    | .crash => none
    | .unknown => some []
    | .tvar => some []
    | .ty c tv => if !W.builtin c && !tv then some [a] else some []

mutual
/-- `extract_identifiers`: the names of a reference; `none` is an exception.  Models
translators/common.py:374-398, 446-459. -/
def idents : Ann → Option (List Name)
  | .name n => some [.single n]
  | .attr m n => some [.comb m n]
  | .text _ => some []
  | .none => none
  | .bar _ _ => none
  | .sub h args =>
    if h = optionalN ∨ h = unionN then identsList args else some [.single h]
/-- The names of several references.  Models translators/common.py:384-386. -/
def identsList : List Ann → Option (List Name)
  | [] => some []
  | a :: as =>
    match idents a, identsList as with
    | some l, some r => some (l ++ r)
    | _, _ => none
end

/-- The result of translating and verifying a statement: an exception (translators/common.py:459), a failing or a
verified assertion (translators/statement.py:411). -/
inductive Outcome where
  | crash
  | reject
  | accept
  deriving DecidableEq

/-- The check of one annotation: the names of its dependencies are in the set of defined names.  Models
translators/statement.py:393-411. -/
def checkAnn (W : World) (D : List Name) (a : Ann) : Outcome :=
  match (dep W a).bind identsList with
  | none => .crash
  | some l => if l.all fun n => decide (n ∈ D) then .accept else .reject

/-- Crashes are noticed before anything is verified.  Models translators/statement.py:406-411. -/
def Outcome.and : Outcome → Outcome → Outcome
  | .crash, _ => .crash
  | _, .crash => .crash
  | .reject, _ => .reject
  | .accept, o => o

/-- `_check_dependencies_defined`.  Models translators/statement.py:393-411. -/
def checkAnns (W : World) (D : List Name) : List Ann → Outcome
  | [] => .accept
  | a :: as => (checkAnn W D a).and (checkAnns W D as)

/-- The check of a statement: functions and classes assert their dependencies
(translators/statement.py:336-355, 357-370, translators/program.py:441-443); assignments do not look at the
annotation (translators/statement.py:1627-1661). -/
def checkItem (W : World) (D : List Name) : Item → Outcome
  | .fn _ as => checkAnns W D as
  | .cls _ as => checkAnns W D as
  | .var _ _ => .accept

/-- The statements of a module; each of them adds its name to the set of defined names.  Models
translators/common.py:308-333, translators/statement.py:355, 391. -/
def checkModule (W : World) : List Name → List Item → Outcome
  | _, [] => .accept
  | D, i :: is => (checkItem W D i).and (checkModule W (.single i.defines :: D) is)

end Nagini.Annots
