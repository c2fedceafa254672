import Verif.Model.For

/-!
For loops in Python.
-/
namespace Nagini.For

variable {V S : Type}

/-- How a Python loop statement ends: control goes on behind it, or leaves. -/
inductive PyEnd
  | behind | leave (n : Nat)

/-- The `else` clause, if there is one. -/
def PyElse (L : Loop V S) (hasElse : Bool) (s : S) (e : PyEnd) (s' : S) : Prop :=
  match hasElse, e with
  | true, .behind => L.orelse s none s'
  | true, .leave n => L.orelse s (some n) s'
  | false, .behind => s' = s
  | false, .leave _ => False

/-- `PyFor L hasElse vis rest s e s'`: with `vis` visited and `rest` to come, the loop ends with `e`.
`completed` says whether all elements were visited. -/
inductive PyFor (L : Loop V S) (hasElse : Bool) : List V → List V → S → PyEnd → (completed : Bool) → S → Prop
  | done (vis s e s') : PyElse L hasElse s e s' → PyFor L hasElse vis [] s e true s'
  | step (vis x xs s u b e s') (o : Ends) : o = .norm ∨ o = .cont → L.body vis (L.bind s x) o u →
      PyFor L hasElse (vis ++ [x]) xs u e b s' → PyFor L hasElse vis (x :: xs) s e b s'
  | brk (vis x xs s u) : L.body vis (L.bind s x) .brk u → PyFor L hasElse vis (x :: xs) s .behind false u
  | leave (vis x xs s u n) : L.body vis (L.bind s x) (.leave n) u → PyFor L hasElse vis (x :: xs) s (.leave n) false u

/-- The outcome of the generated code for an outcome of the Python loop. -/
def outOf : PyEnd → Out
  | .behind => .norm
  | .leave n => .leave n

/-- `Heads L b s k t`: from `s`, the loop with body `b` is at its head again, in state `t`, after `k` iterations. -/
inductive Heads (L : Loop V S) (b : List VStmt) (s : St V S) : Nat → St V S → Prop
  | first : Heads L b s 0 s
  | again (k t t') : Heads L b s k t → t.err = false → Exec L b t .norm t' → Heads L b s (k + 1) t'

/-- `Reaches L p s k t`: started in `s`, the code `p` is at the head of its loop in state `t`, after `k` iterations. -/
def Reaches (L : Loop V S) (p : List VStmt) (s : St V S) (k : Nat) (t : St V S) : Prop :=
  ∃ pre b rest s₁, p = pre ++ .loop b :: rest ∧ Exec L pre s .norm s₁ ∧ Heads L b s₁ k t

/-- The iterator after `n` elements were returned and before the end was noticed. -/
def At (xs : List V) (n : Nat) (it : It V) : Prop := it = ⟨xs, (n : Int), xs.take (n - 1)⟩

/-- The iterator after the end was noticed. -/
def AtEnd (xs : List V) (it : It V) : Prop := it = ⟨xs, (xs.length : Int), xs⟩

end Nagini.For
