/-!
Model of for loops, translators/statement.py:471-697 and 759-891, with resources/iterator.sil.

`V` are the values, `S` the local variables and the heap of the user's program.  The loop body and the
`else` clause are relations on `S`; the body may read `Previous(x)`.  Information flow (SIF), obligations,
user invariants and type information about other variables are left out.
-/
namespace Nagini.For

variable {V S : Type}

/-- The iterator object.  Models the fields `list_acc`, `__iter_index` and `__previous`,
resources/iterator.sil:8-10, resources/list.sil:9. -/
structure It (V : Type) where
  list : List V
  idx : Int
  prev : List V

/-- `s[i]`, if `i` is in bounds.  Models resources/iterator.sil:31. -/
def seqAt (l : List V) (i : Int) : Option V := if 0 ≤ i then l[i.toNat]? else none

/-- `s[..i]`.  Models resources/iterator.sil:27. -/
def seqTake (l : List V) (i : Int) : List V := l.take i.toNat

/-- The postcondition of `Iterator.__next__`; `err` says whether `_err != null`, `ty` are the values of
the type argument of the iterator.  Models resources/iterator.sil:20-36. -/
structure NextPost (ty : V → Prop) (it it' : It V) (res : V) (err : Bool) : Prop where
  same : it'.list = it.list
  le : it'.idx ≤ (it'.list.length : Int) + 1
  stops : (it.idx = (it.list.length : Int)) ↔ err = true
  inc : err = false → it'.idx = it.idx + 1
  pos : err = false → it'.idx > 0
  prev : err = false → it'.prev = seqTake it'.list (it'.idx - 1)
  posNonempty : (it'.list.length : Int) > 0 → it'.idx > 0
  prevAll : err = true → it'.prev = it'.list
  idxAll : err = true → it'.idx = (it'.list.length : Int)
  value : (it'.list.length : Int) > 0 → seqAt it'.list (it'.idx - 1) = some res ∧ res ∈ it'.list
  typed : (it'.list.length : Int) > 0 → ty res
  members : ∀ r, r ∈ it'.prev ↔ (r ∈ it.prev ∨ ((it'.idx > 1 ∧ seqAt it'.list (it'.idx - 2) = some r ∧ err = false) ∨
    (it'.idx > 0 ∧ err = true ∧ seqAt it'.list (it'.idx - 1) = some r)))

/-- The implementation of `Iterator.__next__` in the comment; `d` is the value of the result variable
before, which the empty list leaves.  Models resources/iterator.sil:40-59. -/
def nextImpl (d : V) (it : It V) : It V × V × Bool :=
  if it.idx < (it.list.length : Int) then
    ({ it with idx := it.idx + 1, prev := seqTake it.list (it.idx + 1 - 1) }, (seqAt it.list (it.idx + 1 - 1)).getD d, false)
  else
    ({ it with idx := it.list.length, prev := it.list },
      if (it.list.length : Int) > 0 then (seqAt it.list (it.list.length - 1)).getD d else d, true)

/-- The static type of the iterable.  Models translators/statement.py:519-550, 776-781. -/
inductive Kind
  | list | set | dict | bytearray | range | bytes | other
deriving DecidableEq

/-- Permission for the contents of the container that `__iter__` requires, in units of 1/20.
Models resources/list.sil:171, set_dict.sil:39, 107, bytearray.sil:145, range.sil:89. -/
def iterNeeds : Kind → Int
  | .list => 2
  | .set => 2
  | .dict => 2
  | .bytearray => 1
  | _ => 0

/-- Permission that `__iter__` returns.  Models resources/list.sil:174, set_dict.sil:42, 110,
bytearray.sil:148. -/
def iterGives : Kind → Int
  | .list => 1
  | .set => 1
  | .dict => 1
  | .bytearray => 1
  | _ => 0

/-- Permission that `Iterator.__del__` returns.  Models resources/iterator.sil:64-73. -/
def delGives : Kind → Int
  | .list => 1
  | .set => 1
  | .dict => 1
  | _ => 0

/-- Permission for the container in the loop invariant.  Models translators/statement.py:519-547. -/
def invNeeds : Kind → Int
  | .list => 1
  | .set => 1
  | .dict => 1
  | .bytearray => 1
  | _ => 0

/-- Labels.  Models `end_label` and `post_label`, translators/statement.py:762-763. -/
inductive Lbl
  | cont | post
deriving DecidableEq

/-- Statements of the generated code.  Models translators/statement.py:767-891: the call of `__iter__`,
the call of `__next__`, the conditional assignment of the targets, the assignment of `seqtmp`, the loop,
the user's body, labels, the call of `__del__`, `_set_result_none` and the `else` clause. -/
inductive VStmt
  | iter
  | next
  | assignIf
  | tmp
  | loop (body : List VStmt)
  | body
  | label (l : Lbl)
  | del
  | resNone
  | orelse

/-- Rejected loops.  Models translators/statement.py:550, 781. -/
inductive Err
  | unknownIterable | unsupported
deriving DecidableEq

/-- The type of the elements has to be known.  Models translators/statement.py:776-781. -/
def targetKnown : Kind → Bool
  | .other => false
  | _ => true

/-- The invariant has to be known.  Models translators/statement.py:519-550. -/
def invKnown : Kind → Bool
  | .bytes => false
  | .other => false
  | _ => true

/-- The generated code.  Models `translate_stmt_For`, translators/statement.py:759-891. -/
def translateFor (k : Kind) (hasElse : Bool) : Except Err (List VStmt) :=
  if targetKnown k then
    if invKnown k then
      .ok ([.iter, .next, .assignIf, .tmp, .loop [.body, .label .cont, .next, .assignIf], .del, .resNone] ++
        (if hasElse then [.orelse] else []) ++ [.label .post, .resNone])
    else .error .unsupported
  else .error .unknownIterable

/-- The state: the iterator, `loop_target`, whether `iter_err != null`, `seqtmp`, the user's state, the
permission for the contents of the container, and whether the result variable was reset.
Models the variables created in translators/statement.py:668, 692, 770, 785, 821. -/
structure St (V S : Type) where
  it : It V
  cur : V
  err : Bool
  tmp : List V
  user : S
  perm : Int
  reset : Bool

/-- How a user's statement ends.  Models the statements of translators/statement.py:1778-1874. -/
inductive Ends
  | norm | cont | brk | leave (n : Nat)
deriving DecidableEq

/-- How generated code ends.  Models the control flow of Viper used in
translators/statement.py:1781, 1815, 1871. -/
inductive Out
  | norm | goto (l : Lbl) | leave (n : Nat)
deriving DecidableEq

/-- The loop: the container, the values of the element type, the assignment of the targets, the body,
which may read `Previous(x)`, the `else` clause, and what is known after the assignment.
Models the arguments of `translate_stmt_For`, translators/statement.py:759, and the results of `assign_to`,
translators/statement.py:794-797.  `break` and `continue` in the `else` clause count as leaving. -/
structure Loop (V S : Type) where
  kind : Kind
  contents : List V
  ty : V → Prop
  bind : S → V → S
  bound : S → V → Prop
  body : List V → S → Ends → S → Prop
  orelse : S → Option Nat → S → Prop

/-- The statements after a label.  Models `goto` in Viper, translators/statement.py:1781, 1815. -/
def after (l : Lbl) : List VStmt → Option (List VStmt)
  | [] => none
  | .label m :: r => if m = l then some r else after l r
  | _ :: r => after l r

/-- Runs of the generated code, where methods return any state that satisfies their postconditions.
Models the meaning of the Viper statements built in translators/statement.py:767-891;
`iter` also models resources/list.sil:169-179, and `del` resources/iterator.sil:64-73. -/
inductive Exec (L : Loop V S) : List VStmt → St V S → Out → St V S → Prop
  | nil (s) : Exec L [] s .norm s
  | iter (r s o s') (it : It V) : iterNeeds L.kind ≤ s.perm → it.list = L.contents → it.idx = 0 → it.prev = [] →
      Exec L r { s with it := it, perm := s.perm - iterNeeds L.kind + iterGives L.kind } o s' → Exec L (.iter :: r) s o s'
  | next (r s o s') (it' : It V) (res : V) (err : Bool) : NextPost L.ty s.it it' res err →
      Exec L r { s with it := it', cur := res, err := err } o s' → Exec L (.next :: r) s o s'
  | assign (r s o s') : s.err = false → Exec L r { s with user := L.bind s.user s.cur } o s' → Exec L (.assignIf :: r) s o s'
  | noAssign (r s o s') : s.err = true → Exec L r s o s' → Exec L (.assignIf :: r) s o s'
  | tmp (r s o s') : Exec L r { s with tmp := L.contents } o s' → Exec L (.tmp :: r) s o s'
  | loopStop (b r s o s') : s.err = true → Exec L r s o s' → Exec L (.loop b :: r) s o s'
  | loopNext (b r s s₁ o s') : s.err = false → Exec L b s .norm s₁ → Exec L (.loop b :: r) s₁ o s' →
      Exec L (.loop b :: r) s o s'
  | loopGoto (b r r' s s₁ l o s') : s.err = false → Exec L b s (.goto l) s₁ → after l r = some r' → Exec L r' s₁ o s' →
      Exec L (.loop b :: r) s o s'
  | loopLeave (b r s n s') : s.err = false → Exec L b s (.leave n) s' → Exec L (.loop b :: r) s (.leave n) s'
  | bodyNorm (r s u o s') : L.body s.it.prev s.user .norm u → Exec L r { s with user := u } o s' → Exec L (.body :: r) s o s'
  | bodyCont (r r' s u o s') : L.body s.it.prev s.user .cont u → after .cont r = some r' →
      Exec L r' { s with user := u } o s' → Exec L (.body :: r) s o s'
  | bodyBreak (r s u) : L.body s.it.prev s.user .brk u → Exec L (.body :: r) s (.goto .post) { s with user := u }
  | bodyLeave (r s u n) : L.body s.it.prev s.user (.leave n) u → Exec L (.body :: r) s (.leave n) { s with user := u }
  | label (l r s o s') : Exec L r s o s' → Exec L (.label l :: r) s o s'
  | del (r s o s') : Exec L r { s with perm := s.perm + delGives L.kind } o s' → Exec L (.del :: r) s o s'
  | resNone (r s o s') : Exec L r { s with reset := true } o s' → Exec L (.resNone :: r) s o s'
  | elseNorm (r s u o s') : L.orelse s.user none u → Exec L r { s with user := u } o s' → Exec L (.orelse :: r) s o s'
  | elseLeave (r s u n) : L.orelse s.user (some n) u → Exec L (.orelse :: r) s (.leave n) { s with user := u }

/-- An assertion: when it is well-defined, and when it holds.  Models Viper assertions as built in
translators/statement.py:508-660. -/
structure Asrt (V S : Type) where
  wd : St V S → Prop
  holds : St V S → Prop

/-- A comparison without partial operations.  Models translators/statement.py:563-590. -/
def Asrt.pure (p : St V S → Prop) : Asrt V S := ⟨fun _ => True, p⟩

/-- Implication.  Models `Implies`, translators/statement.py:588. -/
def Asrt.imp (p : St V S → Prop) (a : Asrt V S) : Asrt V S := ⟨fun s => p s → a.wd s, fun s => p s → a.holds s⟩

/-- The target is the current element.  Models translators/statement.py:609-629. -/
def current : Asrt V S := ⟨fun s => (seqAt s.it.list (s.it.idx - 1)).isSome, fun s => seqAt s.it.list (s.it.idx - 1) = some s.cur⟩

/-- The generated invariant.  Models `_create_for_loop_invariant`, translators/statement.py:471-660;
the permissions for the fields of the iterator are left out (they do not change). -/
def invariant (L : Loop V S) : List (Asrt V S) :=
  let noErr : St V S → Prop := fun s => s.err = false
  let someErr : St V S → Prop := fun s => s.err = true
  let nonempty : St V S → Prop := fun s => (s.it.list.length : Int) > 0
  [ .pure fun s => invNeeds L.kind ≤ s.perm,
    .pure fun s => s.it.list = L.contents,
    .pure fun s => s.tmp = L.contents,
    .imp noErr (.pure fun s => s.it.idx - 1 = (s.it.prev.length : Int)),
    .imp someErr (.pure fun s => s.it.idx = (s.it.prev.length : Int)),
    .imp noErr (.pure nonempty),
    .pure fun s => s.it.idx ≥ 0 ∧ s.it.idx ≤ (s.it.list.length : Int),
    .imp nonempty (.pure fun s => s.it.idx > 0),
    .imp nonempty current,
    .imp nonempty (.pure fun s => s.cur ∈ s.it.list),
    .imp noErr (.pure fun s => s.it.prev = seqTake s.it.list (s.it.idx - 1)),
    .imp nonempty (.pure fun s => L.ty s.cur),
    .imp nonempty (.pure fun s => L.bound s.user s.cur),
    .imp someErr (.pure fun s => s.it.prev = s.it.list),
    .imp (fun s => (s.it.list.length : Int) = 0) (.pure someErr) ]

/-- All assertions hold.  Models the check of invariants in Viper, translators/statement.py:868. -/
def holdsAll (as : List (Asrt V S)) (s : St V S) : Prop := ∀ a ∈ as, a.holds s

/-- All assertions are well-defined where the previous ones hold.  Models the well-definedness check of
invariants in Viper, translators/statement.py:868. -/
def wdAll : List (Asrt V S) → St V S → Prop
  | [], _ => True
  | a :: as, s => a.wd s ∧ (a.holds s → wdAll as s)

end Nagini.For
