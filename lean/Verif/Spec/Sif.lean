/-
Python's meaning of the statements that the information flow mode translates to Silver's extended
AST (C85, C86): sequencing, loops with `else`, `break`, `continue`, `return`, exceptions with
handlers, `else` and `finally`, and `with`.

Everything a statement does apart from control flow is an arbitrary function of the state `σ`;
values returned and iterated over are elements of an arbitrary type `V`.  Nothing here refers to the
translation.
-/

namespace Nagini.Sif

/-- An exception object. -/
structure Exc where
  id : Nat
  cls : Nat
  deriving DecidableEq, Repr

mutual
/-- Python statements. -/
inductive Stmt (σ V : Type) where
  /-- Any statement that cannot raise or jump. -/
  | act (f : σ → σ)
  /-- A statement that reads the variable `h` bound by `except … as h`. -/
  | actH (h : Nat) (f : Option Exc → σ → σ)
  /-- A call of a method that may raise. -/
  | call (f : σ → σ × Option Exc)
  /-- `raise E(…)`. -/
  | raise (f : σ → σ × Exc)
  /-- `raise h` for a variable bound by `except … as h`. -/
  | raiseH (h : Nat)
  | ret (f : σ → σ × V)
  | brk
  | cont
  | seq (a b : Stmt σ V)
  | ite (c : σ → Bool) (a b : Stmt σ V)
  | while (c : σ → Bool) (body orelse : Stmt σ V)
  /-- `for` over the elements `it s`, each bound by `asg`. -/
  | for (it : σ → List V) (asg : V → σ → σ) (body orelse : Stmt σ V)
  /-- Absent `else` and `finally` parts are `pass`. -/
  | try (body : Stmt σ V) (hs : Handlers σ V) (orelse fin : Stmt σ V)
  /-- `with`: entering (evaluation of the manager and `__enter__`), `__exit__(None, None, None)`,
  `__exit__(type(e), e, tb)` with the truth value of its result, the assignment to the `as`
  variable, the body. -/
  | with (enter exitN : σ → σ) (exitE : Exc → σ → σ × Bool) (bind : σ → σ) (body : Stmt σ V)
/-- The `except` clauses of a `try` statement: which exceptions they catch, the optional name. -/
inductive Handlers (σ V : Type) where
  | nil
  | cons (m : Exc → Bool) (name : Option Nat) (body : Stmt σ V) (rest : Handlers σ V)
end

/-- How the execution of a statement ends. -/
inductive Out (V : Type) where
  | norm | brk | cont
  | ret (v : V)
  | exc (e : Exc)
  deriving DecidableEq, Repr

/-- The state: everything but handler variables, and the handler variables. -/
structure Cfg (σ : Type) where
  s : σ
  env : Nat → Option Exc

variable {σ V : Type}

def Cfg.upd (c : Cfg σ) (f : σ → σ) : Cfg σ := { c with s := f c.s }

def Cfg.bind (c : Cfg σ) (h : Option Nat) (e : Option Exc) : Cfg σ :=
  match h with
  | none => c
  | some h => { c with env := fun k => if k = h then e else c.env k }

/-- The first clause that catches `e`. -/
def Handlers.pick : Handlers σ V → Exc → Option (Option Nat × Stmt σ V)
  | .nil, _ => none
  | .cons m h b rest, e => if m e then some (h, b) else rest.pick e

/-- A `finally` block that ends normally keeps the pending outcome, otherwise replaces it. -/
def Out.after : Out V → Out V → Out V
  | o, .norm => o
  | _, o => o

abbrev Res (σ V : Type) := Option (Cfg σ × Out V)

/-- The iterations of a `for` loop over the remaining elements. -/
def forGo (asg : V → σ → σ) (body orelse : Cfg σ → Res σ V) : List V → Cfg σ → Res σ V
  | [], c => orelse c
  | v :: vs, c =>
    match body (c.upd (asg v)) with
    | some (c', .norm) => forGo asg body orelse vs c'
    | some (c', .cont) => forGo asg body orelse vs c'
    | some (c', .brk) => some (c', .norm)
    | some (c', .ret w) => some (c', .ret w)
    | some (c', .exc e) => some (c', .exc e)
    | none => none

/-- The part of a `try` statement before its `finally` block; `run` executes statements. -/
def tryGo (run : Stmt σ V → Cfg σ → Res σ V) (b : Stmt σ V) (hs : Handlers σ V) (e : Stmt σ V)
    (c : Cfg σ) : Res σ V :=
  match run b c with
  | none => none
  | some (c', .norm) => run e c'
  | some (c', .exc x) => match hs.pick x with
    | none => some (c', .exc x)
    | some (h, hb) => match run hb (c'.bind h (some x)) with
      | some (c'', o) => some (c''.bind h none, o)
      | none => none
  | some (c', o) => some (c', o)

/-- Python's execution of a statement (the first argument bounds its length). -/
def exec : Nat → Stmt σ V → Cfg σ → Res σ V
  | 0, _, _ => none
  | n + 1, st, c =>
    match st with
    | .act f => some (c.upd f, .norm)
    | .actH h f => some (c.upd (f (c.env h)), .norm)
    | .call f => some ({ c with s := (f c.s).1 },
        match (f c.s).2 with | none => .norm | some e => .exc e)
    | .raise f => some ({ c with s := (f c.s).1 }, .exc (f c.s).2)
    | .raiseH h => match c.env h with
      | some e => some (c, .exc e)
      | none => none
    | .ret f => some ({ c with s := (f c.s).1 }, .ret (f c.s).2)
    | .brk => some (c, .brk)
    | .cont => some (c, .cont)
    | .seq a b => match exec n a c with
      | some (c', .norm) => exec n b c'
      | r => r
    | .ite t a b => if t c.s then exec n a c else exec n b c
    | .while t b e =>
      if t c.s then
        match exec n b c with
        | some (c', .norm) => exec n (.while t b e) c'
        | some (c', .cont) => exec n (.while t b e) c'
        | some (c', .brk) => some (c', .norm)
        | r => r
      else exec n e c
    | .for it asg b e => forGo asg (exec n b) (exec n e) (it c.s) c
    | .try b hs e f =>
      match tryGo (exec n) b hs e c with
      | none => none
      | some (c', o) => match exec n f c' with
        | none => none
        | some (c'', o') => some (c'', o.after o')
    | .with enter exitN exitE bind b =>
      match exec n b ((c.upd enter).upd bind) with
      | none => none
      | some (c', .exc x) =>
        some ({ c' with s := (exitE x c'.s).1 }, if (exitE x c'.s).2 then .norm else .exc x)
      | some (c', o) => some (c'.upd exitN, o)

/-! Syntactic restrictions. -/

/-- The statement neither calls methods that may raise nor contains loops, `try` or `with`. -/
def calm : Stmt σ V → Prop
  | .act _ | .actH _ _ | .raise _ | .raiseH _ | .ret _ | .brk | .cont => True
  | .seq a b => calm a ∧ calm b
  | .ite _ a b => calm a ∧ calm b
  | _ => False

/-- The statement can moreover only end normally or return. -/
def plain : Stmt σ V → Prop
  | .act _ | .ret _ => True
  | .seq a b => plain a ∧ plain b
  | .ite _ a b => plain a ∧ plain b
  | _ => False

mutual
/-- No `continue` that belongs to a loop around the statement. -/
def noCont : Stmt σ V → Prop
  | .cont => False
  | .seq a b => noCont a ∧ noCont b
  | .ite _ a b => noCont a ∧ noCont b
  | .while _ _ e => noCont e
  | .for _ _ _ e => noCont e
  | .try b hs e f => noCont b ∧ noContH hs ∧ noCont e ∧ noCont f
  | .with _ _ _ _ b => noCont b
  | _ => True
def noContH : Handlers σ V → Prop
  | .nil => True
  | .cons _ _ b rest => noCont b ∧ noContH rest
end

mutual
/-- Handlers with a name are `calm`, `finally` blocks are `plain`, `for` loops have no
`continue`. -/
def Ok : Stmt σ V → Prop
  | .seq a b => Ok a ∧ Ok b
  | .ite _ a b => Ok a ∧ Ok b
  | .while _ b e => Ok b ∧ Ok e
  | .for _ _ b e => Ok b ∧ noCont b ∧ Ok e
  | .try b hs e f => Ok b ∧ OkH hs ∧ Ok e ∧ plain f
  | .with _ _ _ _ b => Ok b
  | _ => True
def OkH : Handlers σ V → Prop
  | .nil => True
  | .cons _ none b rest => Ok b ∧ OkH rest
  | .cons _ (some _) b rest => calm b ∧ OkH rest
end

end Nagini.Sif
