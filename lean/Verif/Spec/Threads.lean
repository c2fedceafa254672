import Verif.Model.Threads
import Mathlib.Algebra.BigOperators.Group.Finset.Basic
/-!
What contracts of threads mean to a user, what the generated assertions mean in Viper, and how threads pass on
permissions.
-/
namespace Nagini.Threads

/-- Fields of references, and global variables. -/
structure Heap where
  field : Int → String → Int
  glob : String → Int

/-- Resources. -/
inductive Loc
  | field (r : Int) (f : String)
  | glob (g : String)
  | pred (n : String) (vs : List Int)
  | start (r : Int)
  | post (r : Int)
  | maySet (r : Int) (f : String)
  deriving DecidableEq

/-- Facts that do not depend on a thread: which threads can be joined, and whether a field mentioned in a `MaySet`
exists. -/
structure World where
  joinable : Int → Prop
  isSet : Int → String → Prop

/-! ### Python -/

/-- Values: `args` are the arguments, `r` is the result, `h` the heap at the end and `ho` the heap at the start of
the call. -/
def evalT (args bs : List (String × Int)) (r : Int) (ho : Heap) : Heap → Term → Int
  | h, .var x => match bs.lookup x with
    | some v => v
    | none => match args.lookup x with
      | some v => v
      | none => h.glob x
  | _, .res => r
  | _, .lit n => n
  | h, .field t f => h.field (evalT args bs r ho h t) f
  | h, .plus a b => evalT args bs r ho h a + evalT args bs r ho h b
  | _, .old t => evalT args bs r ho ho t
  | _, .arg _ => 0

/-- Truth of conditions. -/
def holdsC (args : List (String × Int)) (r : Int) (ho h : Heap) : List (String × Int) → Cond → Prop
  | bs, .eq a b => evalT args bs r ho h a = evalT args bs r ho h b
  | bs, .lt a b => evalT args bs r ho h a < evalT args bs r ho h b
  | bs, .neg k => ¬ holdsC args r ho h bs k
  | bs, .conj k l => holdsC args r ho h bs k ∧ holdsC args r ho h bs l
  | bs, .all x k => ∀ v : Int, holdsC args r ho h ((x, v) :: bs) k

/-- Truth of the facts in an assertion. -/
def holdsA (W : World) (args : List (String × Int)) (r : Int) (ho h : Heap) : Asn → Prop
  | .pure k => holdsC args r ho h [] k
  | .post t _ => W.joinable (evalT args [] r ho h t)
  | .and a b => holdsA W args r ho h a ∧ holdsA W args r ho h b
  | .imp k a => holdsC args r ho h [] k → holdsA W args r ho h a
  | _ => True

open Classical in
/-- The permissions in an assertion. -/
noncomputable def permA (W : World) (args : List (String × Int)) (r : Int) (ho h : Heap) : Asn → Loc → ℚ
  | .pure _, _ => 0
  | .field t f p, l => if l = .field (evalT args [] r ho h t) f then p else 0
  | .builtin f t p, l => if l = .field (evalT args [] r ho h t) f then p else 0
  | .pred n ts p, l => if l = .pred n (ts.map (evalT args [] r ho h)) then p else 0
  | .glob g p, l => if l = .glob g then p else 0
  | .start t p, l => if l = .start (evalT args [] r ho h t) then p else 0
  | .post t p, l => if l = .post (evalT args [] r ho h t) then p else 0
  | .maySet t f, l =>
    if W.isSet (evalT args [] r ho h t) f then (if l = .field (evalT args [] r ho h t) f then 1 else 0)
    else (if l = .maySet (evalT args [] r ho h t) f then 1 else 0)
  | .mayCreate t f, l => if l = .maySet (evalT args [] r ho h t) f then 1 else 0
  | .and a b, l => permA W args r ho h a l + permA W args r ho h b l
  | .imp k a, l => if holdsC args r ho h [] k then permA W args r ho h a l else 0

/-- The facts a method promises. -/
def holdsPosts (W : World) (args : List (String × Int)) (r : Int) (ho h : Heap) (as : List Asn) : Prop :=
  ∀ a ∈ as, holdsA W args r ho h a

/-- The permissions a method promises. -/
noncomputable def permPosts (W : World) (args : List (String × Int)) (r : Int) (ho h : Heap) (as : List Asn)
    (l : Loc) : ℚ := (as.map fun a => permA W args r ho h a l).sum

/-! ### Viper -/

/-- The values of the arguments, of the result and of the remembered expressions of a thread, the value of the
result variable of the method that starts it, and arbitrary truth values. -/
structure VEnv where
  param : Nat → Int
  res : Int
  callerRes : Int
  old : Term → Int
  unknown : Nat → Int → Prop

/-- Values in the state `h` with old state `ho`. -/
def evalV (E : VEnv) (bs : List (String × Int)) (ho : Heap) : Heap → VT → Int
  | _, .param i => E.param i
  | _, .bound x => (bs.lookup x).getD 0
  | h, .glob x => h.glob x
  | _, .result => E.res
  | _, .callerRes => E.callerRes
  | _, .lit n => n
  | h, .field t f => h.field (evalV E bs ho h t) f
  | h, .plus a b => evalV E bs ho h a + evalV E bs ho h b
  | _, .old t => evalV E bs ho ho t
  | _, .getOld k => E.old k

/-- Truth of conditions. -/
def truthV (W : World) (E : VEnv) (ho h : Heap) : List (String × Int) → VC → Prop
  | _, .tt => True
  | bs, .eq a b => evalV E bs ho h a = evalV E bs ho h b
  | bs, .lt a b => evalV E bs ho h a < evalV E bs ho h b
  | bs, .neg k => ¬ truthV W E ho h bs k
  | bs, .conj k l => truthV W E ho h bs k ∧ truthV W E ho h bs l
  | bs, .all x k => ∀ v : Int, truthV W E ho h ((x, v) :: bs) k
  | bs, .unknown n t => E.unknown n (evalV E bs ho h t)
  | bs, .joinable t => W.joinable (evalV E bs ho h t)

/-- Permission amounts when the amount `p` of `ThreadPost` is held.  That amount is the one before the join, also
if the assertion itself contains permission to the same `ThreadPost`. -/
def evalP (p : ℚ) : VP → ℚ
  | .lit q => q
  | .held => p
  | .mul a b => evalP p a * evalP p b

/-- The resource that is named. -/
def evalL (E : VEnv) (ho h : Heap) : VL → Loc
  | .field t f => .field (evalV E [] ho h t) f
  | .glob g => .glob g
  | .pred n ts => .pred n (ts.map (evalV E [] ho h))
  | .start t => .start (evalV E [] ho h t)
  | .post t => .post (evalV E [] ho h t)
  | .maySet t f => .maySet (evalV E [] ho h t) f

/-- The facts that inhaling the assertion assumes. -/
def factsV (W : World) (E : VEnv) (ho h : Heap) : VA → Prop
  | .pure k => truthV W E ho h [] k
  | .acc _ _ => True
  | .and a b => factsV W E ho h a ∧ factsV W E ho h b
  | .imp k a => truthV W E ho h [] k → factsV W E ho h a
  | .cond k a b => (truthV W E ho h [] k → factsV W E ho h a) ∧ (¬ truthV W E ho h [] k → factsV W E ho h b)

open Classical in
/-- The permissions that inhaling the assertion adds. -/
noncomputable def gainV (W : World) (E : VEnv) (ho h : Heap) (p : ℚ) : VA → Loc → ℚ
  | .pure _, _ => 0
  | .acc v q, l => if l = evalL E ho h v then evalP p q else 0
  | .and a b, l => gainV W E ho h p a l + gainV W E ho h p b l
  | .imp k a, l => if truthV W E ho h [] k then gainV W E ho h p a l else 0
  | .cond k a b, l => if truthV W E ho h [] k then gainV W E ho h p a l else gainV W E ho h p b l

/-! ### One thread -/

/-- The life of a thread with target `m`: it is started with `args` in the heap `start`, by a caller whose own old
heap is `callerOld`, and ends in the heap `fin`. -/
structure Life where
  args : List Int
  res : Int
  start : Heap
  callerOld : Heap
  fin : Heap

/-- The thread's variables in Viper: its arguments and its result, and values of `Old` expressions that satisfy
the equations inhaled at the start. -/
structure Agrees (m : Method) (L : Life) (E : VEnv) (eqs : List (Term × VT)) : Prop where
  args : L.args.length = m.params.length
  param : ∀ i v, L.args[i]? = some v → E.param i = v
  res : E.res = L.res
  eqs : ∀ e ∈ eqs, E.old e.1 = evalV E [] L.callerOld L.start e.2

/-- The thread ended as its contract says: it established the postconditions, or raised a declared exception. -/
def Ended (W : World) (m : Method) (L : Life) : Prop :=
  holdsPosts W (m.params.zip L.args) L.res L.start L.fin m.posts ∨ m.exc = true

/-! ### Threads -/

/-- A thread as seen by the others: what its postconditions give up in a normal end, what joining it with a given
amount of `ThreadPost` adds, and whether it may raise exceptions. -/
structure Thr where
  give : Loc → ℚ
  inh : ℚ → Loc → ℚ
  exc : Bool

/-- The permissions held by `n` threads, and the threads that have ended.  The thread object of thread `t` is the
reference `t`. -/
structure St where
  n : Nat
  hold : Nat → Loc → ℚ
  done : Nat → Prop

/-- Replace what thread `i` holds. -/
def St.set (s : St) (i : Nat) (f : Loc → ℚ) : St := { s with hold := fun j => if j = i then f else s.hold j }

/-- One thread that holds everything except permissions to join threads. -/
def init : St := ⟨1, fun i l => if i = 0 then (match l with | .post _ => 0 | _ => 1) else 0, fun _ => False⟩

/-- Steps: pass on permissions, start a thread, end a thread normally or with an exception, join a thread. -/
inductive Step (T : Nat → Thr) : St → St → Prop
  | move (s : St) (i j : Nat) (f : Loc → ℚ) : i < s.n → j < s.n → i ≠ j → (∀ l, 0 ≤ f l ∧ f l ≤ s.hold i l) →
      Step T s ((s.set i fun l => s.hold i l - f l).set j fun l => s.hold j l + f l)
  | start (s : St) (i : Nat) : i < s.n →
      Step T s { (s.set i fun l => s.hold i l + if l = .post s.n then 1 else 0).set s.n fun _ => 0 with n := s.n + 1 }
  | finish (s : St) (t : Nat) : t < s.n → ¬ s.done t → (∀ l, (T t).give l ≤ s.hold t l) →
      Step T s { s.set t fun l => s.hold t l - (T t).give l with done := fun u => u = t ∨ s.done u }
  | raise (s : St) (t : Nat) : t < s.n → ¬ s.done t → (T t).exc = true →
      Step T s { s with done := fun u => u = t ∨ s.done u }
  | join (s : St) (i t : Nat) : i < s.n → t < s.n → s.done t → 0 < s.hold i (.post t) →
      Step T s (s.set i fun l => s.hold i l + (T t).inh (s.hold i (.post t)) l -
        if l = .post t then s.hold i (.post t) else 0)

/-- States that are reachable from the initial one. -/
inductive Reach (T : Nat → Thr) : St → Prop
  | init : Reach T init
  | step {s s'} : Reach T s → Step T s s' → Reach T s'

/-- The sum of the permissions to `l` that the threads hold. -/
def St.total (s : St) (l : Loc) : ℚ := ∑ i ∈ Finset.range s.n, s.hold i l

end Nagini.Threads
