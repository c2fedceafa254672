import Verif.Spec.Dispatch
import Verif.Model.Classes

/-!
Model of which proof obligations are generated for the methods of a program with classes
(translators/program.py, translators/method.py) and of how calls are verified (translators/call.py).
Verification of straight-line code is represented by its weakest precondition.

Not modelled: methods declared `ContractOnly`, methods marked `Inline`, pure functions (C10, C57),
exceptions (C08), the order of argument evaluation (C01), type variables; static and class methods,
which make no assumption about the class of a receiver.
-/
set_option linter.unusedVariables false
namespace Nagini.Dispatch

open Classes

variable {Hp V Obj : Type} (H : Hier) (dyn : Obj → Nat) (alloc : Hp → Obj → Hp → Prop)
  (own : Nat → Name → Option (Meth Hp V Obj))

/-- The member that the translation finds for a class, with the class that contains it.
Models `get_method`, lib/program_nodes.py:574-585, and `get_field` (setters of properties), 551-560. -/
def resolve (c : Nat) (n : Name) : Option (Owned Hp V Obj) := lookup H (owned own n) c

/-- The class whose member is called by `super(...)` in a method of class `K`: the superclass of `K`,
whatever class is named.  Models lib/resolver.py:89-92 and the test `is_valid_super_call`,
translators/common.py:927-943, which accepts every class as first argument. -/
def superClass (K : Nat) (T : Option Nat) : Option Nat := H.sup K

/-- `VC inl K p h Q`: the code `p` of a method of class `K` verifies in heap `h` with the postcondition
`Q`; the methods `inl` are being inlined.
* Dynamically bound calls: the contract of the member found for the static class is used
  (translators/call.py:1315-1328, 1365; the types of arguments are assumed,
  translators/method.py:55-67).
* Statically bound calls and calls with `super` are inlined (translators/call.py:1297-1305,
  1310-1314, 1042-1100); recursive ones are rejected (1110-1112); methods of the interface are called
  by contract (1291-1295; simplified: with the receiver as argument, see C151).
* Constructor calls: a new object with exactly the type named, then the contract of the constructor
  found (translators/call.py:251-349; the dynamic type of `cls` for `cls(...)`, 1785-1839).
* Loops by their invariant. -/
inductive VC : List (Nat × Name) → Nat → Prog Hp V Obj → Hp → (V → Hp → Prop) → Prop
  | ret {inl K v h Q} : Q v h → VC inl K (.ret v) h Q
  | act {inl K r k h Q} : (∀ v h', r h v h' → VC inl K (k v) h' Q) → VC inl K (.act r k) h Q
  | asrt {inl K p k h Q} : p h → VC inl K k h Q → VC inl K (.asrt p k) h Q
  | loop {inl K} {I : V → Hp → Prop} {c : V → Bool} {b v k h Q} : I v h →
      (∀ v h, I v h → c v = true → VC inl K (b v) h I) →
      (∀ v h, I v h → c v = false → VC inl K (k v) h Q) → VC inl K (.loop I c b v k) h Q
  | call {inl K o C n a k h Q L m} : resolve H own C n = some (L, m) →
      (Anc H (dyn o) C → m.pre o a h) →
      (∀ v h', Anc H (dyn o) C → m.post o a h v h' → VC inl K (k v) h' Q) →
      VC inl K (.call o C n a k) h Q
  | scall_contract {inl K o C n a k h Q L m} : resolve H own C n = some (L, m) →
      m.interface = true → m.pre o a h → (∀ v h', m.post o a h v h' → VC inl K (k v) h' Q) →
      VC inl K (.scall o C n a k) h Q
  | scall_inline {inl K o C n a k h Q L m} (P : V → Hp → Prop) : resolve H own C n = some (L, m) →
      m.interface = false → (L, n) ∉ inl → VC ((L, n) :: inl) L (m.body o a) h P →
      (∀ v h', P v h' → VC inl K (k v) h' Q) → VC inl K (.scall o C n a k) h Q
  | sup_contract {inl K T o n a k h Q p L m} : superClass H K T = some p →
      resolve H own p n = some (L, m) → m.interface = true → m.pre o a h →
      (∀ v h', m.post o a h v h' → VC inl K (k v) h' Q) → VC inl K (.sup T o n a k) h Q
  | sup_inline {inl K T o n a k h Q p L m} (P : V → Hp → Prop) : superClass H K T = some p →
      resolve H own p n = some (L, m) → m.interface = false → (L, n) ∉ inl →
      VC ((L, n) :: inl) L (m.body o a) h P →
      (∀ v h', P v h' → VC inl K (k v) h' Q) → VC inl K (.sup T o n a k) h Q
  | new {inl K C a k h Q L m} : resolve H own C .init = some (L, m) →
      (∀ o h₁, dyn o = C → alloc h o h₁ → m.pre o a h₁) →
      (∀ o h₁ v h', dyn o = C → alloc h o h₁ → m.post o a h₁ v h' → VC inl K (k o) h' Q) →
      VC inl K (.new C a k) h Q
  | new_plain {inl K C a k h Q} : resolve H own C .init = none →
      (∀ o h₁, dyn o = C → alloc h o h₁ → VC inl K (k o) h₁ Q) → VC inl K (.new C a k) h Q
  | newcls {inl K c C a k h Q L m} : resolve H own C .init = some (L, m) →
      (∀ o h₁, Anc H c C → dyn o = c → alloc h o h₁ → m.pre o a h₁) →
      (∀ o h₁ v h', Anc H c C → dyn o = c → alloc h o h₁ → m.post o a h₁ v h' → VC inl K (k o) h' Q) →
      VC inl K (.newcls c C a k) h Q
  | newcls_plain {inl K c C a k h Q} : resolve H own C .init = none →
      (∀ o h₁, Anc H c C → dyn o = c → alloc h o h₁ → VC inl K (k o) h₁ Q) →
      VC inl K (.newcls c C a k) h Q

/-- The Viper method for `m`, defined in class `c`, verifies: the body starts with the assumption that
the type of `self` is exactly `c`.  Models translators/method.py:506-514, 558-600. -/
def bodyCheck (c : Nat) (m : Meth Hp V Obj) : Prop :=
  ∀ o a h, dyn o = c → m.pre o a h → VC H dyn alloc own [] c (m.body o a) h (m.post o a h)

/-- The check for a class `d` that inherits `m` from class `c` verifies: the body is inlined into a
method with the same contract that requires the type of `self` to be exactly `d`.
Models translators/program.py:215-281. -/
def inheritCheck (d c : Nat) (n : Name) (m : Meth Hp V Obj) : Prop :=
  ∀ o a h, dyn o = d → m.pre o a h → VC H dyn alloc own [(c, n)] c (m.body o a) h (m.post o a h)

/-- The check that `m`, defined in class `c`, may override `m'`.
Models translators/program.py:283-351 and 398-413. -/
def overrideCheck (c : Nat) (m m' : Meth Hp V Obj) : Prop :=
  ∀ o a h, Anc H (dyn o) c → m'.pre o a h →
    m.pre o a h ∧ ∀ v h', m.post o a h v h' → m'.post o a h v h'

/-- `has_classmethod`: the class or one of its superclasses has a class method (`cm`).
Models lib/program_nodes.py:667-673. -/
def hasClassmethod (cm : Nat → Bool) (c : Nat) : Prop := ∃ d, Anc H c d ∧ cm d = true

/-- The overridden member: what the *direct* superclass contains.
Models lib/program_nodes.py:1139-1152. -/
def overridden (c : Nat) (n : Name) : Option (Meth Hp V Obj) :=
  match H.sup c with
  | none => none
  | some p => own p n

/-- The override check of the member `n` of class `c` is generated and verifies, if one is needed:
for a constructor only if the superclass has class methods, for a property every override is rejected.
Models translators/program.py:1436-1447 and 108-109. -/
def overrideOk (cm : Nat → Bool) (c : Nat) : Name → Meth Hp V Obj → Prop
  | .meth n, m => ∀ m', overridden H own c (.meth n) = some m' → overrideCheck H dyn c m m'
  | .init, m => ∀ m' p, H.sup c = some p → hasClassmethod H cm p →
      overridden H own c .init = some m' → overrideCheck H dyn c m m'
  | .setter n, _ => overridden H own c (.setter n) = none

/-- A class `d` is checked: the members it contains (interface methods are skipped), and the methods it
inherits, except the constructor; setters of properties are not among `all_methods`.
Models translators/program.py:1406-1447 and 1461-1473, 102-116, lib/program_nodes.py:495-501. -/
def classChecked (cm : Nat → Bool) (d : Nat) : Prop :=
  (∀ n m, own d n = some m → m.interface = false →
    bodyCheck H dyn alloc own d m ∧ overrideOk H dyn own cm d n m) ∧
  (∀ n c m, resolve H own d (.meth n) = some (c, m) → c ≠ d → m.interface = false →
    inheritCheck H dyn alloc own d c (.meth n) m)

/-- All classes are checked.  Models the loop over classes, translators/program.py:1406-1483. -/
def checked (cm : Nat → Bool) : Prop := ∀ d, classChecked H dyn alloc own cm d

/-- `cls(...)` occurs in class methods only: every `newcls c C` is in a class method of `C`.
Models `_is_cls_call`, translators/call.py:1772-1783 and `_has_classmethod`, analyzer.py:872-874.
Moreover no constructor is called on an object (`o.__init__(..)`), which mypy reports as an error. -/
def clsCalls (cm : Nat → Bool) : Prog Hp V Obj → Prop
  | .ret _ => True
  | .act _ k => ∀ v, clsCalls cm (k v)
  | .asrt _ k => clsCalls cm k
  | .loop _ _ b _ k => (∀ v, clsCalls cm (b v)) ∧ ∀ v, clsCalls cm (k v)
  | .call _ _ n _ k => n ≠ .init ∧ ∀ v, clsCalls cm (k v)
  | .scall _ _ _ _ k => ∀ v, clsCalls cm (k v)
  | .sup _ _ _ _ k => ∀ v, clsCalls cm (k v)
  | .new _ _ k => ∀ o, clsCalls cm (k o)
  | .newcls _ C _ k => cm C = true ∧ ∀ o, clsCalls cm (k o)

/-- What the generated checks (translators/program.py:1406-1483) do not cover and is assumed instead. -/
structure Guard (cm : Nat → Bool) : Prop where
  /-- A constructor or the setter of a property that a class inherits would verify for the class. -/
  inherited : ∀ d c n m, (∀ k, n ≠ .meth k) → Finds H own d n c m → c ≠ d → m.interface = false →
    inheritCheck H dyn alloc own d c n m
  /-- A class that redefines a member has a direct superclass that contains it. -/
  noGap : ∀ n c p e, own c n ≠ none → H.sup c = some p → own p n = none → Anc H p e → own e n = none
  /-- Interface methods satisfy the override check. -/
  interfaceOk : ∀ c n m, own c n = some m → m.interface = true → overrideOk H dyn own cm c n m
  /-- A class with a class method has a constructor, unless its subclasses have none, too. -/
  initOk : ∀ C c, cm C = true → Anc H c C → own c .init ≠ none → ∃ d, Anc H C d ∧ own d .init ≠ none
  /-- Every `super(T, self)` names the class that contains it. -/
  superOk : ∀ c n m o a, own c n = some m → m.interface = false → SuperOk c (m.body o a)

end Nagini.Dispatch
