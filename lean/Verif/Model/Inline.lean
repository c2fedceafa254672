/-!
Inlined calls: calls of functions marked with `@Inline`, calls `C.m(x, ..)` and `super().m(..)`
(translators/call.py:1042-1161), together with what `return`, `raise`, `try` and `except` do in inlined code.

Simplified: objects are numbers; exceptions are numbers; every `except` clause catches everything and binds no name; a
`try` has either an `except` clause or a `finally` suite, whose statements are simple; loops are not modelled; jumps to
labels are modelled by outcomes of statements (the labels themselves are the subject of C08 and C09); a fresh variable is
named by the sequence of calls that are being inlined, so that different calls have different variables.  All inlined
methods may raise exceptions.
-/
set_option linter.unusedVariables false
namespace Nagini.Inline

/-- Names of variables of a method: those of the program, the result, the exception, and the variables of `try` blocks.
Models `RESULT_NAME`, `ERROR_NAME` (lib/constants.py:296-298), `get_finally_var` and `get_error_var`
(lib/program_nodes.py:1549-1587). -/
inductive Name where
  | user (n : Nat)
  | res | err
  | fin (i : Nat)
  | errOf (i : Nat)
deriving DecidableEq

/-- Viper variables: the calls for which they have been created, and their name.  Models `create_variable`,
lib/program_nodes.py:1229-1241. -/
structure Var where
  path : List Nat
  name : Name
deriving DecidableEq

/-- Expressions, including fields of objects and `Old`.  Models the input of translators/expression.py:948-997 and
translators/contract.py:393-411. -/
inductive Expr where
  | lit (n : Int)
  | var (x : Nat)
  | add (a b : Expr)
  | field (a : Expr) (f : Nat)
  | old (a : Expr)
deriving DecidableEq

/-- Simple statements: assignments to variables and fields, and statements like `Assert` whose argument can be observed.
Models the input of translators/statement.py:1340-1440 and translators/contract.py:347-355. -/
inductive Simple where
  | assign (x : Nat) (e : Expr)
  | store (a : Expr) (f : Nat) (e : Expr)
  | check (e : Expr)
deriving DecidableEq

/-- How a method is called: `m(..)` or `C.m(..)`, `e.m(..)`, `super().m(..)`.  Models the cases in
translators/call.py:1298-1313 and translators/call.py:1362-1364. -/
inductive Recv where
  | none
  | obj (e : Expr)
  | super
deriving DecidableEq

/-- Statements.  `tryEx i b h r`: the suite `b`, and an `except` clause with the statements `h` and possibly a `return`.
Models the input of translators/statement.py:967-1032, translators/statement.py:1066-1087 and
translators/statement.py:1854-1874. -/
inductive Stmt where
  | skip
  | simple (c : Simple)
  | seq (a b : Stmt)
  | ite (e : Expr) (a b : Stmt)
  | ret (e : Expr)
  | raise (n : Nat)
  | tryEx (i : Nat) (b : Stmt) (h : List Simple) (r : Option Expr)
  | tryFin (i : Nat) (b : Stmt) (f : List Simple)
  | call (site : Nat) (x : Option Nat) (m : Nat) (recv : Recv) (args : List Expr)
deriving DecidableEq

/-- Methods: parameters and body.  Models `PythonMethod`, lib/program_nodes.py:1043-1085. -/
structure Meth where
  params : List Nat
  body : Stmt

/-- Programs.  Models the methods of a module, lib/program_nodes.py:131-160. -/
abbrev Prog := Nat → Meth

/-- Viper expressions.  Models the output of translators/expression.py:948-997 and translators/contract.py:393-411. -/
inductive TExpr where
  | lit (n : Int)
  | var (v : Var)
  | add (a b : TExpr)
  | field (a : TExpr) (f : Nat)
  | old (a : TExpr)
  | eqn (a : TExpr) (n : Int)
deriving DecidableEq

/-- Viper statements.  `goEnd`: jump to the end label; `goTry`: jump to the innermost `except` clause; `goFin`: jump to
the innermost `finally` suite; `scope b`: `b` and its end label; `tryEx b h`: `b`, and `h` at the label of the `except`
clause; `tryFin b a`: `b`, and `a` at the label of the `finally` suite.  Models the output of
translators/statement.py:967-997, translators/method.py:660-840 and translators/method.py:842-888. -/
inductive TStmt where
  | skip
  | assign (v : Var) (e : TExpr)
  | store (a : TExpr) (f : Nat) (e : TExpr)
  | check (e : TExpr)
  | seq (a b : TStmt)
  | ite (e : TExpr) (a b : TStmt)
  | goEnd | goTry | goFin
  | scope (b : TStmt)
  | tryEx (b h : TStmt)
  | tryFin (b a : TStmt)
deriving DecidableEq

/-- The aliases of variables in inlined code: all variables of the method except those parameters for which there is no
argument; the variable for exceptions is one of the caller.  Models `ctx.var_aliases` as set in
translators/call.py:1051-1074. -/
structure Al where
  path : List Nat
  unbound : List Nat
  err : Var
deriving DecidableEq

/-- The context of a statement: the method it belongs to, the aliases, and the enclosing `try` blocks from the inside to
the outside, with `true` for `finally`.  Models lib/context.py:30-60 and `get_surrounding_try_blocks`,
lib/util.py:159-173. -/
structure Ctx where
  meth : Nat
  al : Al
  tries : List (Bool × Nat)

/-- Does a variable without alias occur?  Such a variable is not declared in the method that is generated.  Models
translators/expression.py:969-972. -/
def declaredE (A : Al) : Expr → Bool
  | .lit _ => true
  | .var x => !(A.unbound.contains x)
  | .add a b => declaredE A a && declaredE A b
  | .field a _ => declaredE A a
  | .old a => declaredE A a

/-- The variables of simple statements are declared.  Models translators/expression.py:969-972. -/
def declaredS (A : Al) : Simple → Bool
  | .assign x e => !(A.unbound.contains x) && declaredE A e
  | .store a _ e => declaredE A a && declaredE A e
  | .check e => declaredE A e

/-- Translation of expressions; `Old` becomes the old expression of Viper.  Models translators/expression.py:948-997
and translators/contract.py:393-411. -/
def compE (A : Al) : Expr → TExpr
  | .lit n => .lit n
  | .var x => .var ⟨A.path, .user x⟩
  | .add a b => .add (compE A a) (compE A b)
  | .field a f => .field (compE A a) f
  | .old a => .old (compE A a)

/-- Translation of simple statements.  Models translators/statement.py:1340-1440. -/
def compS (A : Al) : Simple → TStmt
  | .assign x e => .assign ⟨A.path, .user x⟩ (compE A e)
  | .store a f e => .store (compE A a) f (compE A e)
  | .check e => .check (compE A e)

/-- A suite of simple statements.  Models translators/method.py:865-866. -/
def compSs (A : Al) : List Simple → TStmt
  | [] => .skip
  | c :: l => .seq (compS A c) (compSs A l)

/-- The innermost enclosing block with a `finally` suite.  Models translators/statement.py:1859-1860. -/
def firstFin (t : List (Bool × Nat)) : Option Nat := (t.find? (·.1)).map (·.2)

/-- The variable in which an exception is stored.  Models `get_error_var`, translators/common.py:846-865. -/
def errPlace (c : Ctx) : Var :=
  match c.tries with
  | [] => c.al.err
  | (_, i) :: _ => ⟨c.al.path, .errOf i⟩

/-- The jump for an exception.  Models translators/expression.py:813-850 and `_create_goto_finally`,
translators/expression.py:879-907. -/
def throw (c : Ctx) : TStmt :=
  match c.tries with
  | [] => .seq (.assign c.al.err (.var (errPlace c))) .goEnd
  | (false, _) :: _ => .goTry
  | (true, i) :: _ => .seq (.assign ⟨c.al.path, .fin i⟩ (.lit 2)) .goFin

/-- Checks for exceptions.  Models `create_exception_catchers`, translators/expression.py:800-877. -/
def catchers (c : Ctx) : TStmt := .ite (.var (errPlace c)) (throw c) .skip

/-- `return`: in a `try` with a `finally` suite, the variable of the block is used without looking for an alias.
Models translators/statement.py:1835-1874. -/
def compRet (A : Al) (tries : List (Bool × Nat)) (e : Expr) : TStmt :=
  .seq (.assign ⟨A.path, .res⟩ (compE A e))
    (match firstFin tries with
    | none => .goEnd
    | some i => .seq (.assign ⟨[], .fin i⟩ (.lit 1)) .goFin)

/-- Is that variable declared?  Models translators/statement.py:1861-1865. -/
def retOk (A : Al) (tries : List (Bool × Nat)) : Bool := A.path.isEmpty || (firstFin tries).isNone

/-- After a `finally` suite: returning.  Models translators/method.py:728-741 and translators/method.py:779-780. -/
def finRet (c : Ctx) (i : Nat) : TStmt :=
  match firstFin c.tries with
  | none => .goEnd
  | some j => .seq (.assign ⟨c.al.path, .fin j⟩ (.var ⟨c.al.path, .fin i⟩)) .goFin

/-- After a `finally` suite: raising.  Models translators/method.py:743-763 and translators/method.py:786-795. -/
def finThrow (c : Ctx) (i : Nat) : TStmt :=
  match c.tries with
  | [] => .seq (.assign c.al.err (.var ⟨c.al.path, .errOf i⟩)) .goEnd
  | (false, _) :: _ => .goTry
  | (true, j) :: _ => .seq (.assign ⟨c.al.path, .fin j⟩ (.var ⟨c.al.path, .fin i⟩)) .goFin

/-- After a `finally` suite.  Models translators/method.py:821-840. -/
def dispatch (c : Ctx) (i : Nat) : TStmt :=
  .ite (.eqn (.var ⟨c.al.path, .fin i⟩) 2) (finThrow c i)
    (.ite (.eqn (.var ⟨c.al.path, .fin i⟩) 1) (finRet c i) .skip)

/-- The code of an `except` clause, which is generated after the whole body, with the aliases stored for its block.
Models `translate_handler`, translators/method.py:842-888, as called in `add_handlers_for_inlines`,
translators/common.py:900-919. -/
def compHandler (A : Al) (tries : List (Bool × Nat)) (h : List Simple) (r : Option Expr) : TStmt :=
  .seq (compSs A h) (match r with
    | none => .skip
    | some e => compRet A tries e)

/-- The arguments that are assigned to parameters: the receiver only for `super()`.  Models
translators/call.py:1115-1124. -/
def callArgs (P : Prog) (c : Ctx) (recv : Recv) (args : List Expr) : List Expr :=
  match recv with
  | .none => args
  | .obj _ => args
  | .super => ((P c.meth).params.head?.map Expr.var).toList ++ args

/-- The context of the body of an inlined method.  Models translators/call.py:1051-1083 and
translators/call.py:1140-1150. -/
def calleeCtx (P : Prog) (c : Ctx) (site m : Nat) (args : List Expr) : Ctx :=
  ⟨m, ⟨c.al.path ++ [site], (P m).params.drop args.length, errPlace c⟩, []⟩

/-- Assignments to parameters.  Models translators/call.py:1125-1132. -/
def bind (A : Al) (p : List Nat) : List Nat → List Expr → TStmt
  | x :: ps, e :: es => .seq (.assign ⟨p, .user x⟩ (compE A e)) (bind A p ps es)
  | _, _ => .skip

/-- The assignment of the result.  Models translators/call.py:1158-1161. -/
def result (c : Ctx) (site : Nat) : Option Nat → TStmt
  | none => .skip
  | some x => .assign ⟨c.al.path, .user x⟩ (.var ⟨c.al.path ++ [site], .res⟩)

/-- Translation of statements, where `k` translates the bodies of called methods.  Models
translators/statement.py:967-1032, translators/statement.py:1066-1087, translators/statement.py:1854-1874 and
`_inline_call` with `inline_method`, translators/call.py:1042-1161. -/
def compWith (P : Prog) (T : Nat × Nat → Al) (k : Ctx → Stmt → TStmt) : Ctx → Stmt → TStmt
  | c, .skip => .skip
  | c, .simple s => compS c.al s
  | c, .seq a b => .seq (compWith P T k c a) (compWith P T k c b)
  | c, .ite e a b => .ite (compE c.al e) (compWith P T k c a) (compWith P T k c b)
  | c, .ret e => compRet c.al c.tries e
  | c, .raise n => .seq (.assign (errPlace c) (.lit (n + 1))) (catchers c)
  | c, .tryEx i b h r => .tryEx (compWith P T k ⟨c.meth, c.al, (false, i) :: c.tries⟩ b)
      (compHandler (T (c.meth, i)) c.tries h r)
  | c, .tryFin i b f => .seq (.assign ⟨c.al.path, .fin i⟩ (.lit 0))
      (.tryFin (compWith P T k ⟨c.meth, c.al, (true, i) :: c.tries⟩ b) (.seq (compSs c.al f) (dispatch c i)))
  | c, .call site x m recv args =>
      .seq (bind c.al (c.al.path ++ [site]) (P m).params (callArgs P c recv args))
        (.seq (.assign (errPlace c) (.lit 0))
          (.seq (.scope (k (calleeCtx P c site m (callArgs P c recv args)) (P m).body))
            (.seq (catchers c) (result c site x))))

/-- Translation of statements; the number bounds the depth of calls.  Models `_inline_call`,
translators/call.py:1102-1161. -/
def comp (P : Prog) (T : Nat × Nat → Al) : Nat → Ctx → Stmt → TStmt
  | 0 => compWith P T (fun _ _ => .skip)
  | d + 1 => compWith P T (comp P T d)

/-- The aliases that are stored for blocks with `except` clauses, in the order of translation.  Models
`try_block.handler_aliases = ..`, translators/statement.py:980. -/
def writesWith (P : Prog) (k : Ctx → Stmt → List ((Nat × Nat) × Al)) : Ctx → Stmt → List ((Nat × Nat) × Al)
  | c, .seq a b => writesWith P k c a ++ writesWith P k c b
  | c, .ite _ a b => writesWith P k c a ++ writesWith P k c b
  | c, .tryEx i b _ _ => writesWith P k ⟨c.meth, c.al, (false, i) :: c.tries⟩ b ++ [((c.meth, i), c.al)]
  | c, .tryFin i b _ => writesWith P k ⟨c.meth, c.al, (true, i) :: c.tries⟩ b
  | c, .call site x m recv args => k (calleeCtx P c site m (callArgs P c recv args)) (P m).body
  | _, _ => []

/-- The aliases that are stored, with a bound for the depth of calls.  Models translators/statement.py:980. -/
def writes (P : Prog) : Nat → Ctx → Stmt → List ((Nat × Nat) × Al)
  | 0 => writesWith P (fun _ _ => [])
  | d + 1 => writesWith P (writes P d)

/-- The aliases stored for a block when the `except` clauses are translated: the last ones.  Models
translators/method.py:852-853. -/
def table (w : List ((Nat × Nat) × Al)) (b : Nat × Nat) : Al :=
  ((w.reverse.find? (fun e => e.1 = b)).map (·.2)).getD ⟨[], [], ⟨[], .err⟩⟩

/-- Are the variables of an `except` clause declared?  Models translators/method.py:842-888. -/
def handlerOk (A : Al) (tries : List (Bool × Nat)) (h : List Simple) (r : Option Expr) : Bool :=
  h.all (declaredS A) && (match r with
    | none => true
    | some e => declaredE A e && retOk A tries)

/-- Is a statement accepted: are all variables declared, and is no method inlined into itself?  Models
translators/call.py:1110-1112, and Viper's check that variables are declared. -/
def acceptWith (P : Prog) (T : Nat × Nat → Al) (k : List Nat → Ctx → Stmt → Bool) (st : List Nat) : Ctx → Stmt → Bool
  | c, .skip => true
  | c, .simple s => declaredS c.al s
  | c, .seq a b => acceptWith P T k st c a && acceptWith P T k st c b
  | c, .ite e a b => declaredE c.al e && (acceptWith P T k st c a && acceptWith P T k st c b)
  | c, .ret e => declaredE c.al e && retOk c.al c.tries
  | c, .raise n => true
  | c, .tryEx i b h r => acceptWith P T k st ⟨c.meth, c.al, (false, i) :: c.tries⟩ b &&
      handlerOk (T (c.meth, i)) c.tries h r
  | c, .tryFin i b f => acceptWith P T k st ⟨c.meth, c.al, (true, i) :: c.tries⟩ b && f.all (declaredS c.al)
  | c, .call site x m recv args => !(st.contains m) && ((callArgs P c recv args).all (declaredE c.al) &&
      k (m :: st) (calleeCtx P c site m (callArgs P c recv args)) (P m).body)

/-- Is a statement accepted, with a bound for the depth of calls?  Models translators/call.py:1110-1112. -/
def accept (P : Prog) (T : Nat × Nat → Al) : Nat → List Nat → Ctx → Stmt → Bool
  | 0 => acceptWith P T (fun _ _ _ => false)
  | d + 1 => acceptWith P T (accept P T d)

/-- The context of a method that is translated itself.  Models translators/method.py:515-526. -/
def top (m : Nat) : Ctx := ⟨m, ⟨[], [], ⟨[], .err⟩⟩, []⟩

/-- The aliases that are used for `except` clauses in the translation of a method.  Models
translators/method.py:540-549. -/
def tableOf (P : Prog) (d m : Nat) : Nat × Nat → Al := table (writes P d (top m) (P m).body)

/-- Translation of a method.  Models translators/method.py:515-549. -/
def compile (P : Prog) (d m : Nat) : TStmt := comp P (tableOf P d m) d (top m) (P m).body

/-- Is a method accepted?  Models translators/method.py:515-549 and translators/call.py:1110-1112. -/
def accepts (P : Prog) (d m : Nat) : Bool := accept P (tableOf P d m) d [] (top m) (P m).body

end Nagini.Inline
