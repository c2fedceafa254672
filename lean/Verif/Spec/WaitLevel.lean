import Verif.Model.WaitLevel
/-!
Executions of threads with locks.  Steps are guarded by the checks of the encoding; which locks a
thread owns is part of the state.
-/
namespace Nagini.WaitLevel

/-- What a thread waits for. -/
inductive Wait
  | none
  | on (x : Obj)
deriving DecidableEq

/-- A thread: the stack of methods and loops being executed (innermost first). -/
structure Th where
  stack : List Frame
  wait : Wait
  started : Bool

/-- The threads. -/
abbrev Sys := Nat → Th

def Sys.set (σ : Sys) (i : Nat) (t : Th) : Sys := fun j => if j = i then t else σ j

/-- Thread `i` owns lock `l`. -/
def Owns (σ : Sys) (i l : Nat) : Prop := ∃ f ∈ (σ i).stack, l ∈ f.held

/-- The largest of the levels kept by the caller and its residue: the value of the residue for
which the body of the callee is executed. -/
def maxLevel (L : Obj → Rat) (rest : List Nat) (residue : Rat) : Rat :=
  rest.foldl (fun m l => max m (L (.lock l))) residue

/-- Execution steps. -/
inductive Step (L : Obj → Rat) : Sys → Sys → Prop
  /-- a call passes some obligations; its constraints are checked -/
  | call {σ} (i f fs passed rest es) : σ i = ⟨f :: fs, .none, true⟩ →
      f.held.Perm (passed ++ rest) → preCheck L rest f.res es = true →
      Step L σ (σ.set i ⟨⟨passed, maxLevel L rest f.res, maxLevel L rest f.res, false⟩ ::
        { f with held := rest } :: fs, .none, true⟩)
  /-- a loop takes some obligations -/
  | loop {σ} (i f fs passed rest) : σ i = ⟨f :: fs, .none, true⟩ → f.held.Perm (passed ++ rest) →
      Step L σ (σ.set i ⟨⟨passed, maxLevel L rest f.res, f.mres, true⟩ ::
        { f with held := rest } :: fs, .none, true⟩)
  /-- the end of a method or loop gives all obligations back -/
  | ret {σ} (i g f fs) : σ i = ⟨g :: f :: fs, .none, true⟩ →
      Step L σ (σ.set i ⟨{ f with held := f.held ++ g.held } :: fs, .none, true⟩)
  /-- the end of a thread -/
  | finish {σ} (i f) : σ i = ⟨[f], .none, true⟩ → f.held = [] → Step L σ (σ.set i ⟨[], .none, true⟩)
  /-- `l.acquire()` starts to wait -/
  | acquire {σ} (i f fs l) : σ i = ⟨f :: fs, .none, true⟩ → acquireCheck L f l = true →
      Step L σ (σ.set i ⟨f :: fs, .on (.lock l), true⟩)
  /-- a lock that is not owned is granted -/
  | grant {σ} (i f fs l) : σ i = ⟨f :: fs, .on (.lock l), true⟩ → (∀ j, ¬ Owns σ j l) →
      Step L σ (σ.set i ⟨{ f with held := l :: f.held } :: fs, .none, true⟩)
  /-- `l.release()` -/
  | release {σ} (i f fs l) : σ i = ⟨f :: fs, .none, true⟩ → l ∈ f.held →
      Step L σ (σ.set i ⟨{ f with held := f.held.erase l } :: fs, .none, true⟩)
  /-- `t.start()`: obligations may be passed; the constraints of the target method are not checked,
  its body is verified for every residue `r` that satisfies them -/
  | fork {σ} (i f fs passed rest j es r) : σ i = ⟨f :: fs, .none, true⟩ → i ≠ j →
      (σ j).started = false → f.held.Perm (passed ++ rest) → forkAssume L rest f j = true →
      preAssume L r es = true →
      Step L σ ((σ.set i ⟨{ f with held := rest } :: fs, .none, true⟩).set j
        ⟨[⟨passed, r, r, false⟩], .none, true⟩)
  /-- `t.join()` starts to wait -/
  | join {σ} (i f fs t) : σ i = ⟨f :: fs, .none, true⟩ → (σ t).started = true →
      joinCheck L f t = true → Step L σ (σ.set i ⟨f :: fs, .on (.thread t), true⟩)
  /-- a thread that has ended is joined -/
  | joined {σ} (i f fs t) : σ i = ⟨f :: fs, .on (.thread t), true⟩ → (σ t).stack = [] →
      Step L σ (σ.set i ⟨f :: fs, .none, true⟩)

/-- Initially only thread 0 runs, without locks. -/
def initial (r : Rat) : Sys := fun i =>
  if i = 0 then ⟨[⟨[], r, r, false⟩], .none, true⟩ else ⟨[], .none, false⟩

inductive Reach (L : Obj → Rat) : Sys → Prop
  | init (r) : Reach L (initial r)
  | step {σ τ} : Reach L σ → Step L σ τ → Reach L τ

/-- Deadlock: each of the threads waits for a lock owned by one of them, or for one of them. -/
def Deadlock (σ : Sys) (D : List Nat) : Prop :=
  D ≠ [] ∧ ∀ i ∈ D,
    (∃ l, (σ i).wait = .on (.lock l) ∧ ∃ j ∈ D, Owns σ j l) ∨
    (∃ t, (σ i).wait = .on (.thread t) ∧ t ∈ D)

/-- Thread `i` is executing a loop. -/
def InLoop (σ : Sys) (i : Nat) : Prop := ∃ f fs, (σ i).stack = f :: fs ∧ f.loop = true

/-- Events that reset the flag. -/
def Resets (e : Ev) : Prop := ∃ n, 0 < n ∧ (e = .fork n ∨ e = .join n)

/-- An inlined call occurred and nothing reset the flag since. -/
def Lost (es : List Ev) : Prop :=
  ∃ before after, es = before ++ .inline :: after ∧ ∀ e ∈ after, ¬ Resets e

open Classical in
/-- The constraints that are not lost, when the events `es` happened before. -/
noncomputable def kept (es : List Ev) : List Meth → List Nat
  | [] => []
  | m :: ms => (if Lost es then [] else m.constraints) ++ kept (es ++ m.body) ms

end Nagini.WaitLevel
