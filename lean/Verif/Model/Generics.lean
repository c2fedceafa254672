/-!
Model of types and their subtyping in lib/program_nodes.py and of the common supertype in
lib/resolver.py.  Classes are numbered in the order of their definition, so a superclass has a smaller
number.  Union types are not modelled.
-/
namespace Nagini.Generics

/-- A type: a class, a generic class with arguments, or a type variable of the class in question, by
index.  Models `PythonClass`, `GenericType` and `TypeVar`, lib/program_nodes.py:349-384, 387-420,
781-794. -/
inductive Ty
  | cls (c : Nat)
  | gen (c : Nat) (args : List Ty)
  | var (i : Nat)

/-- A superclass: a class or a generic type.  Models `PythonClass.superclass`,
lib/program_nodes.py:392-420. -/
inductive Sup
  | cls (c : Nat)
  | gen (c : Nat) (args : List Ty)

/-- What is used of a class: its superclass and the number of its type variables.
Models lib/program_nodes.py:392-420. -/
structure Info where
  sup : Option Sup
  nvars : Nat

/-- The classes of a program.  Models `PythonModule.classes`, lib/program_nodes.py:95-140. -/
abbrev Table := Nat → Info

/-- `PythonClass.superclass`; a superclass is defined before the class (simplified: other entries are
ignored).  Models lib/program_nodes.py:392-420. -/
def supOf (tbl : Table) (c : Nat) : Option Sup :=
  match (tbl c).sup with
  | some (.cls d) => if d < c then some (.cls d) else none
  | some (.gen d as) => if d < c then some (.gen d as) else none
  | none => none

mutual
/-- Equality of types: identity of classes and variables, `GenericType.__eq__` otherwise.
Models lib/program_nodes.py:904-912. -/
def eqTy : Ty → Ty → Bool
  | .cls c, .cls d => c == d
  | .var i, .var j => i == j
  | .gen c as, .gen d bs => c == d && eqList as bs
  | _, _ => false
/-- Equality of lists of arguments.  Models lib/program_nodes.py:893, 907-911. -/
def eqList : List Ty → List Ty → Bool
  | [], [] => true
  | a :: as, b :: bs => eqTy a b && eqList as bs
  | _, _ => false
end

theorem supOf_cls_lt {tbl : Table} {c d : Nat} (h : supOf tbl c = some (.cls d)) : d < c := by
  unfold supOf at h
  split at h
  · split at h
    · cases h; assumption
    · cases h
  · split at h <;> cases h
  · cases h

theorem supOf_gen_lt {tbl : Table} {c d : Nat} {as : List Ty} (h : supOf tbl c = some (.gen d as)) : d < c := by
  unfold supOf at h
  split at h
  · split at h <;> cases h
  · split at h
    · cases h; assumption
    · cases h
  · cases h

/-- `PythonClass.issubtype` and, for a generic superclass, `GenericType.issubtype`.
Models lib/program_nodes.py:711-716, 890-896. -/
def classSub (tbl : Table) (c : Nat) (other : Ty) : Bool :=
  if eqTy other (.cls c) then true
  else
    match h : supOf tbl c with
    | none => false
    | some (.cls d) => classSub tbl d other
    | some (.gen d as) =>
      match other with
      | .gen e bs => classSub tbl d (.cls e) && eqList as bs
      | _ => classSub tbl d other
termination_by c
decreasing_by
  · exact supOf_cls_lt h
  · exact supOf_gen_lt h
  · exact supOf_gen_lt h

/-- `issubtype` of a class or a generic type (type variables have no such method).
Models lib/program_nodes.py:711-716, 890-896. -/
def issubtype (tbl : Table) : Ty → Ty → Bool
  | .cls c, other => classSub tbl c other
  | .gen c as, .gen e bs => classSub tbl c (.cls e) && eqList as bs
  | .gen c _, other => classSub tbl c other
  | .var _, _ => false

/-- The argument of a superclass, instantiated: only type variables themselves are replaced.
Models lib/program_nodes.py:826-830. -/
def instArg (as : List Ty) : Ty → Ty
  | .var i => as[i]?.getD (.var i)
  | t => t

/-- The superclass of a type.  Models lib/program_nodes.py:392-420, 819-832. -/
def superclass (tbl : Table) : Ty → Option Ty
  | .cls c =>
    match supOf tbl c with
    | some (.cls d) => some (.cls d)
    | some (.gen d bs) => some (.gen d bs)
    | none => none
  | .gen c as =>
    match supOf tbl c with
    | some (.cls d) => some (.cls d)
    | some (.gen d bs) => some (.gen d (bs.map (instArg as)))
    | none => none
  | .var _ => none

/-- The number of the class of a type.  Models `python_class`, lib/program_nodes.py:375-377, 776-778, 807-809. -/
def head : Ty → Nat
  | .cls c => c
  | .gen c _ => c
  | .var _ => 0

/-- `pairwise_supertype`; the number bounds the recursion, `none` stands for `None`.
Models lib/resolver.py:653-665. -/
def pairwise (tbl : Table) : Nat → Ty → Ty → Option Ty
  | 0, _, _ => none
  | n + 1, t1, t2 =>
    if issubtype tbl t1 t2 then some t2
    else if issubtype tbl t2 t1 then some t1
    else
      match superclass tbl t1, superclass tbl t2 with
      | none, none => none
      | none, some s2 => pairwise tbl n s2 t1
      | some s1, _ => pairwise tbl n t2 s1

/-- Recursion deep enough: each call replaces a class by one with a smaller number.
Models the recursion depth of lib/resolver.py:653-665. -/
def pairwiseSuper (tbl : Table) (t1 t2 : Ty) : Option Ty :=
  pairwise tbl (head t1 + head t2 + 1) t1 t2

/-- `common_supertype`; an exception (`None` has no method `issubtype`, or an empty list) is
`Except.error`.  Models lib/resolver.py:639-650. -/
def common (tbl : Table) : List Ty → Except Unit (Option Ty)
  | [] => .error ()
  | t :: ts => ts.foldl (fun acc new =>
      match acc with
      | .error e => .error e
      | .ok none => .error ()
      | .ok (some cur) => .ok (pairwiseSuper tbl cur new)) (.ok (some t))

end Nagini.Generics
