/-!
Programs with obligations, as a user sees them, and their executions by a single thread.

Contracts mention `MustTerminate` and `MustRelease`; executions ignore contracts.  The state `σ` consists of
everything the expressions of a program depend on (heap, local variables, values at the beginning of a method).
-/
namespace Nagini.Oblig

/-- An obligation in a contract, evaluated in some state: the conditions under which it is mentioned, the lock, the
measure. -/
inductive Ob
  | terminate (guard : Bool) (measure : Int)
  | release (guard : Bool) (lock : Nat) (measure : Option Int)
  deriving DecidableEq

/-- A contract evaluated in some state: the truth of everything that is not an obligation, and the obligations. -/
structure Contract where
  pure : Prop
  obs : List Ob

/-- The locks a contract mentions. -/
def Contract.locks (c : Contract) : List Nat :=
  c.obs.filterMap fun
    | .release true l _ => some l
    | _ => none

/-- A contract promises termination. -/
def Contract.terminates (c : Contract) : Prop := ∃ v, Ob.terminate true v ∈ c.obs

/-- Ways to leave a statement other than reaching its end. -/
inductive Exit
  | brk
  | cont
  | ret
  | exc
  deriving DecidableEq

/-- Statements.  `act` stands for any statement that does not concern obligations.  A call of `m` starts in the state
`arg s`, and if it ends in the state `t`, the caller continues in `back s t`.  The invariant of a loop may refer to the
state before the loop. -/
inductive Stmt (σ M : Type)
  | act (r : σ → σ → Prop)
  | acquire (l : σ → Nat)
  | release (l : σ → Nat)
  | exit (e : Exit)
  | call (m : M) (arg : σ → σ) (back : σ → σ → σ)
  | seq (s t : Stmt σ M)
  | ite (c : σ → Bool) (s t : Stmt σ M)
  | loop (c : σ → Bool) (inv : σ → σ → Contract) (body : Stmt σ M)
  | tryExcept (s t : Stmt σ M)

/-- Methods; the postcondition depends on whether an exception was raised, on the state at the beginning and on the
state at the end. -/
structure Method (σ M : Type) where
  pre : σ → Contract
  post : Bool → σ → σ → Contract
  body : Stmt σ M

/-- What remains to be done. -/
inductive Item (σ M : Type)
  | stmt (s : Stmt σ M)
  | handler (t : Stmt σ M)
  | again (c : σ → Bool) (body : Stmt σ M)
  | ret (s : σ) (back : σ → σ → σ)

/-- A thread: is it leaving statements, what remains to be done, the state, the locks it holds. -/
structure Cfg (σ M : Type) where
  mode : Option Exit
  ctrl : List (Item σ M)
  st : σ
  held : List Nat

/-- Steps of a thread.  Locks are not reentrant. -/
inductive Step {σ M : Type} (P : M → Method σ M) : Cfg σ M → Cfg σ M → Prop
  | act {r K s s' H} : r s s' → Step P ⟨none, .stmt (.act r) :: K, s, H⟩ ⟨none, K, s', H⟩
  | acquire {l K s H} : l s ∉ H → Step P ⟨none, .stmt (.acquire l) :: K, s, H⟩ ⟨none, K, s, l s :: H⟩
  | release {l K s H} : l s ∈ H → Step P ⟨none, .stmt (.release l) :: K, s, H⟩ ⟨none, K, s, H.erase (l s)⟩
  | exit {e K s H} : Step P ⟨none, .stmt (.exit e) :: K, s, H⟩ ⟨some e, K, s, H⟩
  | call {m arg back K s H} : Step P ⟨none, .stmt (.call m arg back) :: K, s, H⟩
      ⟨none, .stmt (P m).body :: .ret s back :: K, arg s, H⟩
  | seq {a b K s H} : Step P ⟨none, .stmt (.seq a b) :: K, s, H⟩ ⟨none, .stmt a :: .stmt b :: K, s, H⟩
  | ite {c a b K s H} : Step P ⟨none, .stmt (.ite c a b) :: K, s, H⟩
      ⟨none, .stmt (if c s then a else b) :: K, s, H⟩
  | enter {c inv body K s H} : c s = true → Step P ⟨none, .stmt (.loop c inv body) :: K, s, H⟩
      ⟨none, .stmt body :: .again c body :: K, s, H⟩
  | skip {c inv body K s H} : c s = false → Step P ⟨none, .stmt (.loop c inv body) :: K, s, H⟩ ⟨none, K, s, H⟩
  | tryExcept {a b K s H} : Step P ⟨none, .stmt (.tryExcept a b) :: K, s, H⟩
      ⟨none, .stmt a :: .handler b :: K, s, H⟩
  | noExc {t K s H} : Step P ⟨none, .handler t :: K, s, H⟩ ⟨none, K, s, H⟩
  | caught {t K s H} : Step P ⟨some .exc, .handler t :: K, s, H⟩ ⟨none, .stmt t :: K, s, H⟩
  | past {e t K s H} : e ≠ .exc → Step P ⟨some e, .handler t :: K, s, H⟩ ⟨some e, K, s, H⟩
  | drop {e t K s H} : Step P ⟨some e, .stmt t :: K, s, H⟩ ⟨some e, K, s, H⟩
  | again {e c body K s H} : e = none ∨ e = some .cont → c s = true → Step P ⟨e, .again c body :: K, s, H⟩
      ⟨none, .stmt body :: .again c body :: K, s, H⟩
  | done {e c body K s H} : e = none ∨ e = some .cont → c s = false → Step P ⟨e, .again c body :: K, s, H⟩
      ⟨none, K, s, H⟩
  | brk {c body K s H} : Step P ⟨some .brk, .again c body :: K, s, H⟩ ⟨none, K, s, H⟩
  | leave {e c body K s H} : e = .ret ∨ e = .exc → Step P ⟨some e, .again c body :: K, s, H⟩ ⟨some e, K, s, H⟩
  | ret {e s0 back K s H} : e = none ∨ e = some .ret → Step P ⟨e, .ret s0 back :: K, s, H⟩
      ⟨none, K, back s0 s, H⟩
  | raise {s0 back K s H} : Step P ⟨some .exc, .ret s0 back :: K, s, H⟩ ⟨some .exc, K, back s0 s, H⟩

/-- Finitely many steps. -/
inductive Steps {σ M : Type} (P : M → Method σ M) : Cfg σ M → Cfg σ M → Prop
  | refl (c) : Steps P c c
  | step {a b c} : Steps P a b → Step P b c → Steps P a c

/-- An infinite execution. -/
def Infinite {σ M : Type} (P : M → Method σ M) (run : Nat → Cfg σ M) : Prop := ∀ n, Step P (run n) (run (n + 1))

/-- A thread that starts to execute the body of a method, holding the locks mentioned in its precondition and other
locks `R`. -/
structure Starts {σ M : Type} (P : M → Method σ M) (m : M) (R : List Nat) (c : Cfg σ M) : Prop where
  mode : c.mode = none
  ctrl : c.ctrl = [.stmt (P m).body]
  pure : ((P m).pre c.st).pure
  held : c.held.Perm (((P m).pre c.st).locks ++ R)
  nodup : c.held.Nodup
  positive : ∀ o ∈ ((P m).pre c.st).obs, match o with
    | .terminate true v => 0 < v
    | .release true _ (some v) => 0 < v
    | _ => True

/-- A thread that has finished the execution of a method. -/
def Finished {σ M : Type} (c : Cfg σ M) : Prop := c.ctrl = []

end Nagini.Oblig
