import Verif.Spec.Classes

/-!
Programs with classes and what Python does when it executes them: method bodies, dynamically bound
calls, statically bound calls (`C.m(o)`), calls with `super`, constructors, property setters.

`Hp` are the states of the heap, `V` the values (arguments are one value, e.g. a tuple), `Obj` the
objects, `dyn o` is the class of `o`, which never changes.
-/
namespace Nagini.Dispatch

open Classes

/-- Names of members: ordinary methods, the constructor, setters of properties. -/
inductive Name
  | meth (n : Nat)
  | init
  | setter (n : Nat)
  deriving DecidableEq

/-- Code.  `act r k` is a primitive step with the (non-deterministic) effect `r` and the result handed
to `k`; `asrt p k` an assertion; `loop I c b v k` the loop that replaces the value `v` by the result of
`b v` while `c v` (with the invariant `I`); `call o C n a k` is `o.n(a)`, where `o` has the static
class `C`; `scall o C n a k` is `C.n(o, a)`; `sup T o n a k` is `super().n(a)` or `super(T, self).n(a)`
in a method with `self = o`; `new C a k` is `C(a)`; `newcls c C a k` is `cls(a)` in a class method of
`C` that is called for the class `c`. -/
inductive Prog (Hp V Obj : Type) : Type
  | ret (v : V)
  | act (r : Hp → V → Hp → Prop) (k : V → Prog Hp V Obj)
  | asrt (p : Hp → Prop) (k : Prog Hp V Obj)
  | loop (I : V → Hp → Prop) (c : V → Bool) (b : V → Prog Hp V Obj) (v : V) (k : V → Prog Hp V Obj)
  | call (o : Obj) (C : Nat) (n : Name) (a : V) (k : V → Prog Hp V Obj)
  | scall (o : Obj) (C : Nat) (n : Name) (a : V) (k : V → Prog Hp V Obj)
  | sup (T : Option Nat) (o : Obj) (n : Name) (a : V) (k : V → Prog Hp V Obj)
  | new (C : Nat) (a : V) (k : Obj → Prog Hp V Obj)
  | newcls (c C : Nat) (a : V) (k : Obj → Prog Hp V Obj)

/-- A method: its contract and its body.  `interface`: the implementation is not part of the program. -/
structure Meth (Hp V Obj : Type) where
  pre : Obj → V → Hp → Prop
  post : Obj → V → Hp → V → Hp → Prop
  body : Obj → V → Prog Hp V Obj
  interface : Bool

/-- Result of an execution: an assertion has failed (or a method of the interface was called although
its precondition does not hold), or a value and a heap. -/
inductive Res (Hp V : Type)
  | fail
  | ok (v : V) (h : Hp)

/-- What is executed: code of a method of class `K`, or the method `m` defined in class `K`. -/
inductive Job (Hp V Obj : Type)
  | prog (K : Nat) (p : Prog Hp V Obj)
  | inv (K : Nat) (m : Meth Hp V Obj) (o : Obj) (a : V)

variable {Hp V Obj : Type}

/-- The class in which a member is defined, and the member. -/
abbrev Owned (Hp V Obj : Type) := Nat × Meth Hp V Obj

/-- The members of the classes together with the class that contains them. -/
def owned (own : Nat → Name → Option (Meth Hp V Obj)) (n : Name) (c : Nat) : Option (Owned Hp V Obj) :=
  (own c n).map fun m => (c, m)

/-- Attribute lookup of Python: the nearest class on the chain of superclasses decides. -/
def Finds (H : Hier) (own : Nat → Name → Option (Meth Hp V Obj)) (c : Nat) (n : Name) (K : Nat)
    (m : Meth Hp V Obj) : Prop := Nearest H (owned own n) c (K, m)

/-- Executions.  `alloc h o h'`: the object `o` is created.  Receivers are instances of their static
class (the static type check of mypy is trusted).  Interface methods satisfy their contract. -/
inductive Run (H : Hier) (dyn : Obj → Nat) (alloc : Hp → Obj → Hp → Prop)
    (own : Nat → Name → Option (Meth Hp V Obj)) : Job Hp V Obj → Hp → Res Hp V → Prop
  | ret {K v h} : Run H dyn alloc own (.prog K (.ret v)) h (.ok v h)
  | act {K r k h v h' R} : r h v h' → Run H dyn alloc own (.prog K (k v)) h' R →
      Run H dyn alloc own (.prog K (.act r k)) h R
  | asrt {K p k h R} : p h → Run H dyn alloc own (.prog K k) h R →
      Run H dyn alloc own (.prog K (.asrt p k)) h R
  | asrt_fail {K p k h} : ¬ p h → Run H dyn alloc own (.prog K (.asrt p k)) h .fail
  | loop_end {K I c b v k h R} : c v = false → Run H dyn alloc own (.prog K (k v)) h R →
      Run H dyn alloc own (.prog K (.loop I c b v k)) h R
  | loop_step {K I c b v k h v' h' R} : c v = true →
      Run H dyn alloc own (.prog K (b v)) h (.ok v' h') →
      Run H dyn alloc own (.prog K (.loop I c b v' k)) h' R →
      Run H dyn alloc own (.prog K (.loop I c b v k)) h R
  | loop_fail {K I c b v k h} : c v = true → Run H dyn alloc own (.prog K (b v)) h .fail →
      Run H dyn alloc own (.prog K (.loop I c b v k)) h .fail
  | call {K o C n a k h L m v h' R} : Anc H (dyn o) C → Finds H own (dyn o) n L m →
      Run H dyn alloc own (.inv L m o a) h (.ok v h') → Run H dyn alloc own (.prog K (k v)) h' R →
      Run H dyn alloc own (.prog K (.call o C n a k)) h R
  | call_fail {K o C n a k h L m} : Anc H (dyn o) C → Finds H own (dyn o) n L m →
      Run H dyn alloc own (.inv L m o a) h .fail →
      Run H dyn alloc own (.prog K (.call o C n a k)) h .fail
  | scall {K o C n a k h L m v h' R} : Finds H own C n L m →
      Run H dyn alloc own (.inv L m o a) h (.ok v h') → Run H dyn alloc own (.prog K (k v)) h' R →
      Run H dyn alloc own (.prog K (.scall o C n a k)) h R
  | scall_fail {K o C n a k h L m} : Finds H own C n L m →
      Run H dyn alloc own (.inv L m o a) h .fail →
      Run H dyn alloc own (.prog K (.scall o C n a k)) h .fail
  | sup {K T o n a k h p L m v h' R} : H.sup (T.getD K) = some p → Finds H own p n L m →
      Run H dyn alloc own (.inv L m o a) h (.ok v h') → Run H dyn alloc own (.prog K (k v)) h' R →
      Run H dyn alloc own (.prog K (.sup T o n a k)) h R
  | sup_fail {K T o n a k h p L m} : H.sup (T.getD K) = some p → Finds H own p n L m →
      Run H dyn alloc own (.inv L m o a) h .fail →
      Run H dyn alloc own (.prog K (.sup T o n a k)) h .fail
  | new {K C a k h o h₁ L m v h' R} : dyn o = C → alloc h o h₁ → Finds H own C .init L m →
      Run H dyn alloc own (.inv L m o a) h₁ (.ok v h') → Run H dyn alloc own (.prog K (k o)) h' R →
      Run H dyn alloc own (.prog K (.new C a k)) h R
  | new_fail {K C a k h o h₁ L m} : dyn o = C → alloc h o h₁ → Finds H own C .init L m →
      Run H dyn alloc own (.inv L m o a) h₁ .fail →
      Run H dyn alloc own (.prog K (.new C a k)) h .fail
  | new_plain {K C a k h o h₁ R} : dyn o = C → alloc h o h₁ →
      (∀ d, Anc H C d → own d .init = none) → Run H dyn alloc own (.prog K (k o)) h₁ R →
      Run H dyn alloc own (.prog K (.new C a k)) h R
  | newcls {K c C a k h o h₁ L m v h' R} : Anc H c C → dyn o = c → alloc h o h₁ →
      Finds H own c .init L m →
      Run H dyn alloc own (.inv L m o a) h₁ (.ok v h') → Run H dyn alloc own (.prog K (k o)) h' R →
      Run H dyn alloc own (.prog K (.newcls c C a k)) h R
  | newcls_fail {K c C a k h o h₁ L m} : Anc H c C → dyn o = c → alloc h o h₁ →
      Finds H own c .init L m → Run H dyn alloc own (.inv L m o a) h₁ .fail →
      Run H dyn alloc own (.prog K (.newcls c C a k)) h .fail
  | newcls_plain {K c C a k h o h₁ R} : Anc H c C → dyn o = c → alloc h o h₁ →
      (∀ d, Anc H c d → own d .init = none) → Run H dyn alloc own (.prog K (k o)) h₁ R →
      Run H dyn alloc own (.prog K (.newcls c C a k)) h R
  | inv {L m o a h R} : m.interface = false → Run H dyn alloc own (.prog L (m.body o a)) h R →
      Run H dyn alloc own (.inv L m o a) h R
  | inv_interface {L m o a h v h'} : m.interface = true → m.pre o a h → m.post o a h v h' →
      Run H dyn alloc own (.inv L m o a) h (.ok v h')
  | inv_interface_fail {L m o a h} : m.interface = true → ¬ m.pre o a h →
      Run H dyn alloc own (.inv L m o a) h .fail

/-- Every call of a member that satisfies the precondition known for the static class of the receiver
fails nowhere, and satisfies the postcondition known for the static class if it returns. -/
def CallsSound (H : Hier) (dyn : Obj → Nat) (alloc : Hp → Obj → Hp → Prop)
    (own : Nat → Name → Option (Meth Hp V Obj)) : Prop :=
  ∀ (n : Name), n ≠ .init → ∀ (o : Obj) (C K L : Nat) (known run : Meth Hp V Obj) (a : V) (h : Hp)
    (R : Res Hp V),
    Anc H (dyn o) C → Finds H own C n K known → Finds H own (dyn o) n L run → known.pre o a h →
    Run H dyn alloc own (.inv L run o a) h R →
    ∃ v h', R = .ok v h' ∧ known.post o a h v h'

/-- Execution of the code `p` never fails. -/
def MainSound (H : Hier) (dyn : Obj → Nat) (alloc : Hp → Obj → Hp → Prop)
    (own : Nat → Name → Option (Meth Hp V Obj)) (K : Nat) (p : Prog Hp V Obj) : Prop :=
  ∀ h, ¬ Run H dyn alloc own (.prog K p) h .fail

/-- Every `super(T, self)` in the code of a method of class `K` names the class `K`. -/
def SuperOk (K : Nat) : Prog Hp V Obj → Prop
  | .ret _ => True
  | .act _ k => ∀ v, SuperOk K (k v)
  | .asrt _ k => SuperOk K k
  | .loop _ _ b _ k => (∀ v, SuperOk K (b v)) ∧ ∀ v, SuperOk K (k v)
  | .call _ _ _ _ k => ∀ v, SuperOk K (k v)
  | .scall _ _ _ _ k => ∀ v, SuperOk K (k v)
  | .sup T _ _ _ k => (T = none ∨ T = some K) ∧ ∀ v, SuperOk K (k v)
  | .new _ _ k => ∀ o, SuperOk K (k o)
  | .newcls _ _ _ k => ∀ o, SuperOk K (k o)

end Nagini.Dispatch
