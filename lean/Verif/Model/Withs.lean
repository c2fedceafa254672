/-!
Model of the translation of a with statement (translators/statement.py, translators/method.py) that is not
inside a try or with statement.  The context expression, `__enter__`, the body and `__exit__` are functions
of the state.  The first argument of `__exit__`, a type, is left out: the code does not set it unless there
is an exception ("FIXME", translators/method.py:639-640).  `__enter__` and `__exit__` raise no exceptions.
-/
namespace Nagini.Withs

/-- How a statement ends.  Stands for the values that the finally variable of a block has,
lib/program_nodes.py:1547-1555, translators/expression.py:800-905. -/
inductive Outcome (V : Type)
  | normal
  | ret
  | raise (e : V)
  | brk
  | cont

/-- The parts of a with statement.  Values are objects, `none` is None.  `bind` assigns to the variable
after `as`, if there is one.  Stands for the node and the methods called,
translators/statement.py:908-949. -/
structure Stmt (S V : Type) where
  context : S → S × V
  enter : V → S → S × V
  bind : V → S → S
  body : S → S × Outcome V
  exit : V → Option V → Option V → S → S × V

/-- The state of the generated code: the state of the program, the finally variable and the error variable
of the block.  Models translators/statement.py:909-915, lib/program_nodes.py:1547-1585. -/
structure St (S V : Type) where
  state : S
  code : Int
  error : V

variable {S V : Type}

/-- The statements for the context expression, `__enter__`, `as` and the assignment to the finally
variable.  Models translators/statement.py:917-951. -/
def enterStmts (w : Stmt S V) (σ : St S V) : V × St S V :=
  let r := w.context σ.state
  let q := w.enter r.2 r.1
  (r.2, ⟨w.bind q.2 q.1, 0, σ.error⟩)

/-- The body, with the jump to the code for `__exit__`: the way it ends is in the finally variable, an
exception is in the error variable.  Models translators/statement.py:952-956,
translators/expression.py:800-905. -/
def bodyStmts (w : Stmt S V) (σ : St S V) : St S V :=
  let r := w.body σ.state
  match r.2 with
  | .normal => ⟨r.1, σ.code, σ.error⟩
  | .ret => ⟨r.1, 1, σ.error⟩
  | .raise e => ⟨r.1, 2, e⟩
  | .brk => ⟨r.1, 3, σ.error⟩
  | .cont => ⟨r.1, 4, σ.error⟩

/-- The arguments of `__exit__`: the exception and an unknown traceback, or nothing.
Models translators/method.py:625-662. -/
def exitArgs (tb : V) (σ : St S V) : Option V × Option V :=
  if σ.code > 1 then (some σ.error, some tb) else (none, none)

/-- The code for `__exit__`, and the jumps that follow it.
Models translators/method.py:681-708, 725, 763-838. -/
def exitStmts (w : Stmt S V) (c tb : V) (σ : St S V) : S × Outcome V :=
  let a := exitArgs tb σ
  let r := w.exit c a.1 a.2 σ.state
  (r.1, if σ.code = 4 then .cont else if σ.code = 3 then .brk
    else if σ.code = 2 then .raise σ.error else if σ.code = 1 then .ret else .normal)

/-- The generated code, started in a state with an arbitrary value `error` of the error variable and with
an arbitrary traceback.  Models translators/statement.py:908-966. -/
def run (w : Stmt S V) (error tb : V) (s : S) : S × Outcome V :=
  let r := enterStmts w ⟨s, 0, error⟩
  exitStmts w r.1 tb (bodyStmts w r.2)

end Nagini.Withs
