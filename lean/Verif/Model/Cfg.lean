import Verif.Spec.Cfg

/-!
Model of the control flow graph that nagini generates for a method body: the code for the body
(translators/method.py:516-528), a jump to the end, the code of all except clauses, else suites, finally suites
and `__exit__` calls of the method (translators/method.py:530-552), and the end label
(translators/method.py:425-432).

Viper's `if` and `while` statements are flattened to labels and conditional jumps; loops are executed as loops,
their invariants are not modelled.  Code is a list of instructions; a jump continues with the rest of the
program from the label on.

Modelled is a method that has a return type and declares exceptions.
-/
namespace Nagini.Cfg

variable {σ Val Exc Ty : Type}

/-- Labels: `END_LABEL`, those of a try or with block (analyzer.py:1898-1911 and 1924-1957: `post_name`, the
names of the handlers, the else block and `finally_name`), those of a loop (translators/statement.py:1704-1705),
and the ones needed to flatten `if` and `while` (translators/statement.py:1085-1086, 1725-1726). -/
inductive Label where
  | endL
  | post (i : Nat)
  | handler (i k : Nat)
  | elseL (i : Nat)
  | finL (i : Nat)
  | loopPost (i : Nat)
  | loopEnd (i : Nat)
  | head (i : Nat)
  | loopElse (i : Nat)
  | els (i : Nat)
  | endif (i : Nat)
  deriving DecidableEq, Repr

/-- The variables: those of the program, the result variable (translators/method.py:585-591), the error
variables (`some i` is the one of block i, lib/program_nodes.py:1571-1587, `none` the one of the method,
translators/method.py:554-558) and the finally variables of the blocks (lib/program_nodes.py:1549-1570).  For
result and error variables, `none` is null. -/
structure M (σ Val Exc : Type) where
  user : σ
  res : Option Val
  err : Option Nat → Option Exc
  fin : Nat → Nat

/-- Instructions of the flattened code (translators/expression.py:870-877, translators/method.py:827-839).
`jump c u l` is `if (c) { u; goto l }`. -/
inductive Instr (σ Val Exc : Type) where
  | op (f : M σ Val Exc → Option (M σ Val Exc))
  | jump (c : M σ Val Exc → Bool) (u : M σ Val Exc → M σ Val Exc) (l : Label)
  | goto (l : Label)
  | label (l : Label)

/-- An assignment to a finally variable (translators/statement.py:1788-1792). -/
def M.setFin (i c : Nat) (m : M σ Val Exc) : M σ Val Exc :=
  { m with fin := fun j => if j = i then c else m.fin j }

/-- An assignment to an error variable (translators/statement.py:1023-1025). -/
def M.setErr (v : Option Nat) (e : Option Exc) (m : M σ Val Exc) : M σ Val Exc :=
  { m with err := fun j => if j = v then e else m.err j }

/-- The assignment of one finally variable to another (translators/method.py:733-737). -/
def M.copyFin (i j : Nat) (m : M σ Val Exc) : M σ Val Exc := m.setFin j (m.fin i)

/-- The assignment of a block's error variable to that of the method (translators/method.py:792-793). -/
def M.copyErr (v : Option Nat) (m : M σ Val Exc) : M σ Val Exc := m.setErr none (m.err v)

/-- `_set_result_none` (translators/statement.py:1756-1776). -/
def M.resetResult (m : M σ Val Exc) : M σ Val Exc := ({ m with res := none } : M σ Val Exc).setErr none none

/-- The position of a statement: the constructs around it, innermost first.  `body` and `withB`: in the
protected region of a try or with block; `other`: in an except clause or else suite; `final`: in a finally
suite (analyzer.py:1896-1897, 1922-1923, 1935-1957).  Of the except clauses, type and presence of a name are
kept. -/
inductive Frame (Ty : Type) where
  | loop (i : Nat)
  | loopElse (i : Nat)
  | body (i : Nat) (fin : Bool) (hs : List (Ty × Bool))
  | other (i : Nat) (fin : Bool)
  | final (i : Nat)
  | withB (i : Nat)
  deriving DecidableEq

/-- `get_parent_of_type(node, (ast.While, ast.For))` (lib/util.py:278-284). -/
def parentLoop : List (Frame Ty) → Option Nat
  | [] => none
  | .loop i :: _ => some i
  | .loopElse i :: _ => some i
  | _ :: fs => parentLoop fs

/-- A try block (lib/program_nodes.py:1526-1547) that protects a statement: its identity, whether it has a
`finally_block`, whether it has a `with_item`, its handlers, and the parent loop of its node. -/
structure Block (Ty : Type) where
  i : Nat
  fin : Bool
  isWith : Bool
  hs : List (Ty × Bool)
  loop : Option Nat

/-- `get_surrounding_try_blocks` (lib/util.py:158-173): the blocks in whose protected region the statement is,
innermost first. -/
def surrounding : List (Frame Ty) → List (Block Ty)
  | [] => []
  | .body i f hs :: fs => ⟨i, f, false, hs, parentLoop fs⟩ :: surrounding fs
  | .withB i :: fs => ⟨i, false, true, [], parentLoop fs⟩ :: surrounding fs
  | _ :: fs => surrounding fs

/-- The loop over `tries` in translators/statement.py:1786-1797, 1820-1831, 1859-1871 and
translators/expression.py:885-890: the first block with `finally_block or with_item`. -/
def firstFinally (ts : List (Block Ty)) : Option (Block Ty) := ts.find? fun b => b.fin || b.isWith

/-- The loops over `tries` in translators/method.py:729-741 and 765-778: the first block with
`finally_block`. -/
def firstTryFinally (ts : List (Block Ty)) : Option (Block Ty) := ts.find? fun b => b.fin

/-- `get_error_var` (translators/common.py:846-868). -/
def errorVar (fs : List (Frame Ty)) : Option Nat := (surrounding fs).head?.map (·.i)

/-- The handlers tested for an exception: those of the given blocks up to the first one with a `finally_block`
(translators/expression.py:837-851, translators/method.py:742-763).  A handler is given by block, number and
type. -/
def tested : List (Block Ty) → List (Nat × Nat × Ty)
  | [] => []
  | b :: bs => (b.hs.zipIdx.map fun h => (b.i, h.2, h.1.1)) ++ if b.fin then [] else tested bs

section
variable (isinst : Exc → Ty → Bool)

/-- `type_check(var, handler.exception)` on an error variable (translators/expression.py:841-843); null has no
exception type. -/
def hasType (e : Option Exc) (ty : Ty) : Bool :=
  match e with
  | none => false
  | some e => isinst e ty

/-- `create_exception_catchers` (translators/expression.py:800-877) and `_create_goto_finally`
(translators/expression.py:879-905) for the error variable `v`: if it is not null, the handlers are tested in
turn, and otherwise control goes to the first clean-up code, or the exception goes to the caller. -/
def catchers (fs : List (Frame Ty)) : List (Instr σ Val Exc) :=
  let v := errorVar fs
  ((tested (surrounding fs)).map fun h =>
    .jump (fun m => (m.err v).isSome && hasType isinst (m.err v) h.2.2) id (.handler h.1 h.2.1)) ++
  [match firstFinally (surrounding fs) with
    | some b => .jump (fun m => (m.err v).isSome) (M.setFin b.i 2) (.finL b.i)
    | none => .jump (fun m => (m.err v).isSome) (M.copyErr v) .endL]

/-- The jump of `translate_stmt_Return` (translators/statement.py:1854-1874). -/
def returnJump (fs : List (Frame Ty)) : List (Instr σ Val Exc) :=
  match firstFinally (surrounding fs) with
  | some b => [.op fun m => some (m.setFin b.i 1), .goto (.finL b.i)]
  | none => [.goto .endL]

/-- `translate_stmt_Break` and `translate_stmt_Continue` (translators/statement.py:1778-1833), `c` being 3 or 4
and `l` giving the loop's label.  Without a loop nothing is generated (`self.loops[loop]` is a KeyError). -/
def loopJump (c : Nat) (l : Nat → Label) (fs : List (Frame Ty)) : List (Instr σ Val Exc) :=
  match parentLoop fs with
  | none => []
  | some j =>
    match firstFinally (surrounding fs) with
    | some b => [.op fun m => some (m.setFin b.i c), .goto (.finL b.i)]
    | none => [.goto (l j)]

/-- The break and continue cases behind the clean-up code of block i (translators/method.py:716-719, 764-785,
835-838); `fs` is the position of the block. -/
def loopDispatch (i c : Nat) (l : Nat → Label) (fs : List (Frame Ty)) : List (Instr σ Val Exc) :=
  match parentLoop fs with
  | none => []
  | some j =>
    match firstTryFinally ((surrounding fs).filter fun b => b.loop == some j) with
    | some b => [.jump (fun m => m.fin i == c) (M.copyFin i b.i) (.finL b.i)]
    | none => [.jump (fun m => m.fin i == c) id (l j)]

/-- The code behind the clean-up code of block i (translators/method.py:709-839): the cases continue, break,
exception and return, in this order; otherwise control goes behind the block. -/
def dispatch (i : Nat) (fs : List (Frame Ty)) : List (Instr σ Val Exc) :=
  loopDispatch i 4 .loopEnd fs ++ loopDispatch i 3 .loopPost fs ++
  ((tested (surrounding fs)).map fun h =>
    .jump (fun m => m.fin i == 2 && hasType isinst (m.err (some i)) h.2.2) id (.handler h.1 h.2.1)) ++
  [match firstTryFinally (surrounding fs) with
    | some b => .jump (fun m => m.fin i == 2) (M.copyFin i b.i) (.finL b.i)
    | none => .jump (fun m => m.fin i == 2) (M.copyErr (some i)) .endL,
   match firstTryFinally (surrounding fs) with
    | some b => .jump (fun m => m.fin i == 1) (M.copyFin i b.i) (.finL b.i)
    | none => .jump (fun m => m.fin i == 1) id .endL,
   .goto (.post i)]

/-- Types of the except clauses and whether they have a name (analyzer.py:1935-1949). -/
def Handlers.heads : Handlers σ Val Exc Ty → List (Ty × Bool)
  | .nil => []
  | .cons ty b _ r => (ty, b.isSome) :: r.heads

/-- The call of a method that declares exceptions, or the creation of an exception
(translators/call.py:1142-1157, translators/statement.py:1000-1032): the exception, or null, is stored in the
error variable `v`. -/
def callOp (f : σ → Option (σ × Option Exc)) (v : Option Nat) (m : M σ Val Exc) : Option (M σ Val Exc) :=
  match f m.user with
  | none => none
  | some (s, e) => some (({ m with user := s } : M σ Val Exc).setErr v e)

/-- Code for a statement at the position `fs` (`translate_stmt`, calls and raise
translators/statement.py:1027-1032, if 1066-1086, while 1688-1744, return 1835-1874, break and continue 1778-1833, try 967-998, with
908-965). -/
def code : List (Frame Ty) → Stmt σ Val Exc Ty → List (Instr σ Val Exc)
  | _, .act f => [.op fun m => (f m.user).map fun s => { m with user := s }]
  | fs, .call f => .op (callOp f (errorVar fs)) :: catchers isinst fs
  | fs, .seq s t => code fs s ++ code fs t
  | fs, .ite i c s t =>
    [.jump (fun m => !c m.user) id (.els i)] ++ code fs s ++ [.goto (.endif i), .label (.els i)] ++ code fs t ++
      [.label (.endif i)]
  | fs, .loop i c s t =>
    [.label (.head i), .jump (fun m => !c m.user) id (.loopElse i)] ++ code (.loop i :: fs) s ++
      [.label (.loopEnd i), .goto (.head i), .label (.loopElse i)] ++ code (.loopElse i :: fs) t ++
      [.label (.loopPost i), .op fun m => some m.resetResult]
  | fs, .ret none => returnJump fs
  | fs, .ret (some v) => [.op fun m => some { m with res := v m.user }] ++ returnJump fs
  | fs, .brk => loopJump 3 .loopPost fs
  | fs, .cont => loopJump 4 .loopEnd fs
  | fs, .tryS i s hs u _ f _ =>
    [.op fun m => some (m.setFin i 0)] ++ code (.body i f hs.heads :: fs) s ++
      (if u then [.goto (.elseL i)] else if f then [.goto (.finL i)] else []) ++ [.label (.post i)]
  | fs, .withS i en s _ =>
    [.op fun m => some { m with user := en m.user }, .op fun m => some (m.setFin i 0)] ++ code (.withB i :: fs) s ++
      [.goto (.finL i), .label (.post i)]

/-- The end of the code of an except clause or else suite (translators/method.py:871-887). -/
def handlerEnd (i : Nat) (f : Bool) : List (Instr σ Val Exc) :=
  if f then [.op fun m => some (m.setFin i 0), .goto (.finL i)] else [.goto (.post i)]

/-- The exception's name refers to the error variable of the block (translators/method.py:856-863).  It is an
alias; modelled as a copy, as the error variable does not change in the clause. -/
def bindOp (i : Nat) (b : Option (Option Exc → σ → σ)) (m : M σ Val Exc) : M σ Val Exc :=
  match b with
  | none => m
  | some g => { m with user := g (m.err (some i)) m.user }

/-- `translate_handler` (translators/method.py:842-887) for except clause k of block i. -/
def handlerCode (i : Nat) (f : Bool) (fs : List (Frame Ty)) (k : Nat) (b : Option (Option Exc → σ → σ))
    (s : Stmt σ Val Exc Ty) : List (Instr σ Val Exc) :=
  [.label (.handler i k), .op fun m => some (bindOp i b m)] ++
  code isinst (.other i f :: fs) s ++ handlerEnd i f

/-- The code of the except clauses (translators/method.py:536-537). -/
def handlersCode (i : Nat) (f : Bool) (fs : List (Frame Ty)) (k : Nat) :
    Handlers σ Val Exc Ty → List (Instr σ Val Exc)
  | .nil => []
  | .cons _ b s r => handlerCode isinst i f fs k b s ++ handlersCode i f fs (k + 1) r

/-- `translate_finally` of a try block (translators/method.py:663-840). -/
def finallyCode (i : Nat) (fs : List (Frame Ty)) (s : Stmt σ Val Exc Ty) : List (Instr σ Val Exc) :=
  [.label (.finL i)] ++ code isinst (.final i :: fs) s ++ dispatch isinst i fs

/-- `translate_finally` of a with block (translators/method.py:681-708): `__exit__` is told the error variable
if the finally variable is greater than 1 (`_assign_exit_vars`, translators/method.py:625-661). -/
def exitCode (i : Nat) (fs : List (Frame Ty)) (ex : Option Exc → σ → σ) : List (Instr σ Val Exc) :=
  [.label (.finL i),
   .op fun m => some { m with user := ex (if m.fin i > 1 then m.err (some i) else none) m.user }] ++
  dispatch isinst i fs

mutual

/-- `_translate_try_handlers` (translators/method.py:530-543) for the blocks in a statement, in the order in
which the analyzer finds them (analyzer.py:1889-1916, 1918-1958: a try block before the blocks in it, a with
block after them). -/
def blocks : List (Frame Ty) → Stmt σ Val Exc Ty → List (Instr σ Val Exc)
  | fs, .seq s t => blocks fs s ++ blocks fs t
  | fs, .ite _ _ s t => blocks fs s ++ blocks fs t
  | fs, .loop i _ s t => blocks (.loop i :: fs) s ++ blocks (.loopElse i :: fs) t
  | fs, .tryS i s hs u t f F =>
    handlersCode isinst i f fs 0 hs ++
    (if u then [.label (.elseL i)] ++ code isinst (.other i f :: fs) t ++ handlerEnd i f else []) ++
    (if f then finallyCode isinst i fs F else []) ++
    blocks (.body i f hs.heads :: fs) s ++ handlerBlocks i f fs hs ++
    (if u then blocks (.other i f :: fs) t else []) ++ (if f then blocks (.final i :: fs) F else [])
  | fs, .withS i _ s ex => blocks (.withB i :: fs) s ++ exitCode isinst i fs ex
  | _, _ => []

/-- The same for the blocks in except clauses (translators/method.py:530-543). -/
def handlerBlocks (i : Nat) (f : Bool) (fs : List (Frame Ty)) : Handlers σ Val Exc Ty → List (Instr σ Val Exc)
  | .nil => []
  | .cons _ _ s r => blocks (.other i f :: fs) s ++ handlerBlocks i f fs r

end

/-- The body of the Viper method (translators/method.py:603-616). -/
def program (s : Stmt σ Val Exc Ty) : List (Instr σ Val Exc) :=
  code isinst [] s ++ [.goto .endL] ++ blocks isinst [] s ++ [.label .endL]

end

/-- The state at the start of the body: result and error variable are null (translators/method.py:585-591,
600-603); finally variables and the error variables of blocks are arbitrary. -/
def start (a : σ) (errs : Nat → Option Exc) (fins : Nat → Nat) : M σ Val Exc :=
  ⟨a, none, fun v => v.elim none errs, fins⟩

/-- The code from a label on: meaning of Viper's labels (translators/method.py:669-674). -/
def find (l : Label) : List (Instr σ Val Exc) → Option (List (Instr σ Val Exc))
  | [] => none
  | .label l' :: r => if l' = l then some (.label l' :: r) else find l r
  | _ :: r => find l r

/-- A state of the machine executing the code of translators/method.py:603-616: the code still to be executed
and the variables, or a failed check. -/
inductive Config (σ Val Exc : Type) where
  | run (k : List (Instr σ Val Exc)) (m : M σ Val Exc)
  | failed

/-- One step of program `P` (meaning of the Viper statements that translators/method.py:603-616 puts
together). -/
def step (P : List (Instr σ Val Exc)) : Config σ Val Exc → Option (Config σ Val Exc)
  | .failed => none
  | .run [] _ => none
  | .run (.op f :: k) m =>
    match f m with
    | some m' => some (.run k m')
    | none => some .failed
  | .run (.jump c u l :: k) m => if c m then (find l P).map fun k' => .run k' (u m) else some (.run k m)
  | .run (.goto l :: _) m => (find l P).map fun k' => .run k' m
  | .run (.label _ :: k) m => some (.run k m)

/-- Several steps (of the code of translators/method.py:603-616). -/
inductive Steps (P : List (Instr σ Val Exc)) : Config σ Val Exc → Config σ Val Exc → Prop where
  | refl (c) : Steps P c c
  | next (a b c) : step P a = some b → Steps P b c → Steps P a c

end Nagini.Cfg
