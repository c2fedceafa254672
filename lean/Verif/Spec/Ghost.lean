import Verif.Model.Ghost
/-!
What programs do, independently of the ghost checker: a big-step semantics in which impure library functions
act on a world `W`, and every function call has its own variables.  A program that gets stuck (undefined
variable, wrong number of arguments, an operation that fails) has no run, like a program that does not
terminate.
-/
namespace Nagini.Ghost

/-- Values. -/
inductive Val
  | int (n : Int)
  | none
  | tup (vs : List Val)

/-- The meaning of operators, fields, builtins and library functions. -/
structure Lib (W : Type) where
  op : Nat → List Val → Option Val
  builtin : Nat → List Val → Option Val
  attr : Nat → W → Val → Option Val
  prim : Nat → W → List Val → Option (W × Val)
  truthy : Val → Bool
  iter : Val → Option (List Val)

abbrev Env := Nat → Option Val

def Env.set (ρ : Env) (x : Nat) (v : Val) : Env := fun y => if y = x then some v else ρ y

/-- Assigns values to variables one after the other; `none` if the numbers differ. -/
def Env.sets (ρ : Env) : List Nat → List Val → Option Env
  | [], [] => some ρ
  | x :: xs, v :: vs => (ρ.set x v).sets xs vs
  | _, _ => none

def Env.empty : Env := fun _ => none

def assignT (ρ : Env) (v : Val) : Target → Option Env
  | .var x => some (ρ.set x v)
  | .tup xs =>
    match v with
    | .tup vs => ρ.sets xs vs
    | _ => none

def assignTs (ρ : Env) (v : Val) : List Target → Option Env
  | [] => some ρ
  | t :: ts =>
    match assignT ρ v t with
    | none => none
    | some ρ' => assignTs ρ' v ts

/-- How a statement ends. -/
inductive Out
  | norm | brk | cont | ret (v : Val)

/-- The result of a function whose body ends in this way. -/
def Out.result : Out → Option Val
  | .norm => some .none
  | .ret v => some v
  | _ => none

/-- What is to be run. -/
inductive Job (W : Type)
  | expr (ρ : Env) (w : W) (e : Expr)
  | args (ρ : Env) (w : W) (es : List Expr)
  | stmt (ρ : Env) (w : W) (s : Stmt)
  | block (ρ : Env) (w : W) (ss : List Stmt)
  | each (ρ : Env) (w : W) (x : Nat) (vs : List Val) (a b : List Stmt)

inductive Res (W : Type)
  | val (w : W) (v : Val)
  | vals (w : W) (vs : List Val)
  | done (ρ : Env) (w : W) (o : Out)

/-- Runs that terminate without getting stuck. -/
inductive Run {W : Type} (L : Lib W) (P : Prog) : Job W → Res W → Prop
  | const {ρ w n es} : Run L P (.expr ρ w (.node (.const n) es)) (.val w (.int n))
  | none {ρ w es} : Run L P (.expr ρ w (.node .none es)) (.val w .none)
  | var {ρ w x es v} : ρ x = some v → Run L P (.expr ρ w (.node (.var x) es)) (.val w v)
  | op {ρ w k es w' vs v} : Run L P (.args ρ w es) (.vals w' vs) → L.op k vs = some v →
      Run L P (.expr ρ w (.node (.op k) es)) (.val w' v)
  | tuple {ρ w es w' vs} : Run L P (.args ρ w es) (.vals w' vs) →
      Run L P (.expr ρ w (.node .tuple es)) (.val w' (.tup vs))
  | condT {ρ w c a b w1 v w2 v'} : Run L P (.expr ρ w c) (.val w1 v) → L.truthy v = true →
      Run L P (.expr ρ w1 a) (.val w2 v') → Run L P (.expr ρ w (.node .cond [c, a, b])) (.val w2 v')
  | condF {ρ w c a b w1 v w2 v'} : Run L P (.expr ρ w c) (.val w1 v) → L.truthy v = false →
      Run L P (.expr ρ w1 b) (.val w2 v') → Run L P (.expr ρ w (.node .cond [c, a, b])) (.val w2 v')
  | attr {ρ w k e w' v v'} : Run L P (.expr ρ w e) (.val w' v) → L.attr k w' v = some v' →
      Run L P (.expr ρ w (.node (.attr k) [e])) (.val w' v')
  | builtin {ρ w k es w' vs v} : Run L P (.args ρ w es) (.vals w' vs) → L.builtin k vs = some v →
      Run L P (.expr ρ w (.node (.builtin k) es)) (.val w' v)
  | prim {ρ w k es w' vs w'' v} : Run L P (.args ρ w es) (.vals w' vs) → L.prim k w' vs = some (w'', v) →
      Run L P (.expr ρ w (.node (.prim k) es)) (.val w'' v)
  | call {ρ w f es w' vs fn ρ0 ρ1 w'' o v} : Run L P (.args ρ w es) (.vals w' vs) → P f = some fn →
      Env.empty.sets fn.params vs = some ρ0 → Run L P (.block ρ0 w' fn.body) (.done ρ1 w'' o) →
      o.result = some v → Run L P (.expr ρ w (.node (.call f) es)) (.val w'' v)
  | nil {ρ w} : Run L P (.args ρ w []) (.vals w [])
  | cons {ρ w e es w1 v w2 vs} : Run L P (.expr ρ w e) (.val w1 v) → Run L P (.args ρ w1 es) (.vals w2 vs) →
      Run L P (.args ρ w (e :: es)) (.vals w2 (v :: vs))
  | assign {ρ w ts e w' v ρ'} : Run L P (.expr ρ w e) (.val w' v) → assignTs ρ v ts = some ρ' →
      Run L P (.stmt ρ w (.assign ts e)) (.done ρ' w' .norm)
  | aug {ρ w x k e w' v0 v1 v} : ρ x = some v0 → Run L P (.expr ρ w e) (.val w' v1) → L.op k [v0, v1] = some v →
      Run L P (.stmt ρ w (.aug x k e)) (.done (ρ.set x v) w' .norm)
  | exprS {ρ w e w' v} : Run L P (.expr ρ w e) (.val w' v) → Run L P (.stmt ρ w (.expr e)) (.done ρ w' .norm)
  | iteT {ρ w e a b w' v r} : Run L P (.expr ρ w e) (.val w' v) → L.truthy v = true →
      Run L P (.block ρ w' a) r → Run L P (.stmt ρ w (.ite e a b)) r
  | iteF {ρ w e a b w' v r} : Run L P (.expr ρ w e) (.val w' v) → L.truthy v = false →
      Run L P (.block ρ w' b) r → Run L P (.stmt ρ w (.ite e a b)) r
  | whileF {ρ w e a b w' v r} : Run L P (.expr ρ w e) (.val w' v) → L.truthy v = false →
      Run L P (.block ρ w' b) r → Run L P (.stmt ρ w (.whil e a b)) r
  | whileN {ρ w e a b w' v ρ1 w1 o r} : Run L P (.expr ρ w e) (.val w' v) → L.truthy v = true →
      Run L P (.block ρ w' a) (.done ρ1 w1 o) → o = .norm ∨ o = .cont →
      Run L P (.stmt ρ1 w1 (.whil e a b)) r → Run L P (.stmt ρ w (.whil e a b)) r
  | whileB {ρ w e a b w' v ρ1 w1} : Run L P (.expr ρ w e) (.val w' v) → L.truthy v = true →
      Run L P (.block ρ w' a) (.done ρ1 w1 .brk) → Run L P (.stmt ρ w (.whil e a b)) (.done ρ1 w1 .norm)
  | whileR {ρ w e a b w' v ρ1 w1 v'} : Run L P (.expr ρ w e) (.val w' v) → L.truthy v = true →
      Run L P (.block ρ w' a) (.done ρ1 w1 (.ret v')) → Run L P (.stmt ρ w (.whil e a b)) (.done ρ1 w1 (.ret v'))
  | forr {ρ w x e a b w' v vs r} : Run L P (.expr ρ w e) (.val w' v) → L.iter v = some vs →
      Run L P (.each ρ w' x vs a b) r → Run L P (.stmt ρ w (.forr x e a b)) r
  | eachE {ρ w x a b r} : Run L P (.block ρ w b) r → Run L P (.each ρ w x [] a b) r
  | eachN {ρ w x v vs a b ρ1 w1 o r} : Run L P (.block (ρ.set x v) w a) (.done ρ1 w1 o) → o = .norm ∨ o = .cont →
      Run L P (.each ρ1 w1 x vs a b) r → Run L P (.each ρ w x (v :: vs) a b) r
  | eachB {ρ w x v vs a b ρ1 w1} : Run L P (.block (ρ.set x v) w a) (.done ρ1 w1 .brk) →
      Run L P (.each ρ w x (v :: vs) a b) (.done ρ1 w1 .norm)
  | eachR {ρ w x v vs a b ρ1 w1 v'} : Run L P (.block (ρ.set x v) w a) (.done ρ1 w1 (.ret v')) →
      Run L P (.each ρ w x (v :: vs) a b) (.done ρ1 w1 (.ret v'))
  | retN {ρ w} : Run L P (.stmt ρ w (.ret none)) (.done ρ w (.ret .none))
  | ret {ρ w e w' v} : Run L P (.expr ρ w e) (.val w' v) → Run L P (.stmt ρ w (.ret (some e))) (.done ρ w' (.ret v))
  | brk {ρ w} : Run L P (.stmt ρ w .brk) (.done ρ w .brk)
  | cont {ρ w} : Run L P (.stmt ρ w .cont) (.done ρ w .cont)
  | pass {ρ w} : Run L P (.stmt ρ w .pass) (.done ρ w .norm)
  | nilB {ρ w} : Run L P (.block ρ w []) (.done ρ w .norm)
  | consN {ρ w s ss ρ1 w1 r} : Run L P (.stmt ρ w s) (.done ρ1 w1 .norm) → Run L P (.block ρ1 w1 ss) r →
      Run L P (.block ρ w (s :: ss)) r
  | consJ {ρ w s ss ρ1 w1 o} : Run L P (.stmt ρ w s) (.done ρ1 w1 o) → o ≠ .norm →
      Run L P (.block ρ w (s :: ss)) (.done ρ1 w1 o)

/-- The variables which are not ghost have the same values. -/
def Agree (Γ : Nat → Bool) (ρ ρ' : Env) : Prop := ∀ x, Γ x = false → ρ x = ρ' x

/-- What a function returns, compared with what the extracted function returns: a regular result is the same,
of a mixed result the regular part remains. -/
def RetRel : Ret → Val → Val → Prop
  | .reg, v, v' => v' = v
  | .ghost, _, _ => True
  | .mixed, v, v' => v = .none ∨ ∃ a b, v = .tup [a, b] ∧ v' = a

/-- How a statement of a function with result `r` ends, compared with the extracted statement. -/
def OutRel (r : Ret) : Out → Out → Prop
  | .ret v, .ret v' => RetRel r v v'
  | .norm, .norm => True
  | .brk, .brk => True
  | .cont, .cont => True
  | _, _ => False

/-- The arguments for regular parameters. -/
def keep {α : Type} : List Bool → List α → List α
  | p :: ps, v :: vs => if p then keep ps vs else v :: keep ps vs
  | _, _ => []

/-- Calling a regular function of the original program has the same effect on the world as calling the
extracted function with the regular arguments, and returns the same regular result. -/
def Erases {W : Type} (L : Lib W) (P Q : Prog) : Prop :=
  ∀ f fn, P f = some fn → fn.ghost = false → ∃ fn', Q f = some fn' ∧
    ∀ vs ρ0 w ρ1 w' o, Env.empty.sets fn.params vs = some ρ0 → Run L P (.block ρ0 w fn.body) (.done ρ1 w' o) →
      ∃ ρ0' ρ1' o', Env.empty.sets fn'.params (keep (fn.params.map fn.gvar) vs) = some ρ0' ∧
        Run L Q (.block ρ0' w fn'.body) (.done ρ1' w' o') ∧ OutRel fn.ret o o' ∧ Agree fn.gvar ρ1 ρ1'

/-! ### The guard of the partial theorem -/

mutual
/-- No impure function is called. -/
def noImpure (P : Prog) : Expr → Bool
  | .node h es =>
    (match h with
      | .prim _ => false
      | .call f =>
        match P f with
        | some fn => fn.ghost || fn.pure
        | none => false
      | _ => true) && noImpures P es

def noImpures (P : Prog) : List Expr → Bool
  | [] => true
  | e :: es => noImpure P e && noImpures P es
end

mutual
/-- No statement of the block calls an impure function. -/
def noImpureS (P : Prog) : Stmt → Bool
  | .assign _ e => noImpure P e
  | .aug _ _ e => noImpure P e
  | .expr e => noImpure P e
  | .ite e a b => noImpure P e && noImpureB P a && noImpureB P b
  | .whil e a b => noImpure P e && noImpureB P a && noImpureB P b
  | .forr _ e a b => noImpure P e && noImpureB P a && noImpureB P b
  | .ret (some e) => noImpure P e
  | _ => true

def noImpureB (P : Prog) : List Stmt → Bool
  | [] => true
  | s :: ss => noImpureS P s && noImpureB P ss
end

mutual
/-- A statement which assigns to ghost variables only, calls no impure function and does not jump. -/
def silent (P : Prog) (Γ : Nat → Bool) : Stmt → Bool
  | .assign ts e => (ts.flatMap Target.vars).all Γ && noImpure P e
  | .aug x _ e => Γ x && noImpure P e
  | .expr e => noImpure P e
  | .ite e a b => noImpure P e && silentB P Γ a && silentB P Γ b
  | .whil e a b => noImpure P e && silentB P Γ a && silentB P Γ b
  | .forr x e a b => Γ x && noImpure P e && silentB P Γ a && silentB P Γ b
  | .pass => true
  | _ => false

def silentB (P : Prog) (Γ : Nat → Bool) : List Stmt → Bool
  | [] => true
  | s :: ss => silent P Γ s && silentB P Γ ss
end

/-- Functions declared pure call no impure functions; Nagini checks that elsewhere. -/
def PureOk (P : Prog) : Prop := ∀ f fn, P f = some fn → fn.ghost = false → fn.pure = true → noImpureB P fn.body = true

mutual
/-- Everything in the expression is regular, and no function with ghost parameters is called, nor one with the
wrong number of arguments (mypy rejects that). -/
def regular (P : Prog) (Γ : Nat → Bool) : Expr → Bool
  | .node h es =>
    (match h with
      | .var x => !Γ x
      | .call f =>
        match P f with
        | some fn => !fn.ghost && fn.ret == .reg && fn.params.all (!fn.gvar ·) && es.length == fn.params.length
        | none => false
      | _ => true) && regulars P Γ es

def regulars (P : Prog) (Γ : Nat → Bool) : List Expr → Bool
  | [] => true
  | e :: es => regular P Γ e && regulars P Γ es
end

mutual
/-- The value is ghost: it comes from a ghost variable, a ghost function or a function with a ghost result. -/
def ghostly (P : Prog) (Γ : Nat → Bool) : Expr → Bool
  | .node h es =>
    match h with
    | .var x => Γ x || ghostlys P Γ es
    | .attr _ => false
    | .prim _ => false
    | .call f =>
      match P f with
      | some fn => fn.ghost || fn.ret != .reg || ghostlyArgs P Γ (fn.params.map fn.gvar) es
      | none => false
    | _ => ghostlys P Γ es

def ghostlys (P : Prog) (Γ : Nat → Bool) : List Expr → Bool
  | [] => false
  | e :: es => ghostly P Γ e || ghostlys P Γ es

def ghostlyArgs (P : Prog) (Γ : Nat → Bool) : List Bool → List Expr → Bool
  | p :: ps, e :: es => (!p && ghostly P Γ e) || ghostlyArgs P Γ ps es
  | _, _ => false
end

mutual
/-- Receivers of field accesses call no impure function. -/
def quiet (P : Prog) : Expr → Bool
  | .node h es =>
    (match h with
      | .attr _ => noImpures P es
      | _ => true) && quiets P es

def quiets (P : Prog) : List Expr → Bool
  | [] => true
  | e :: es => quiet P e && quiets P es
end

mutual
/-- Functions with ghost parameters are not called in arguments of other calls without ghost parameters, and
receivers of field accesses are regular. -/
def tidy (P : Prog) (Γ : Nat → Bool) : Expr → Bool
  | .node h es =>
    match h with
    | .attr _ => regulars P Γ es
    | .builtin _ => regulars P Γ es
    | .prim _ => regulars P Γ es
    | .call f =>
      match P f with
      | some fn => if (fn.params.take es.length).any fn.gvar then tidyArgs P Γ (fn.params.map fn.gvar) es else regulars P Γ es
      | none => false
    | _ => tidys P Γ es

def tidys (P : Prog) (Γ : Nat → Bool) : List Expr → Bool
  | [] => true
  | e :: es => tidy P Γ e && tidys P Γ es

def tidyArgs (P : Prog) (Γ : Nat → Bool) : List Bool → List Expr → Bool
  | p :: ps, e :: es => (if p then quiet P e else tidy P Γ e) && tidyArgs P Γ ps es
  | _, _ => true
end

mutual
/-- Receivers of field accesses and arguments of builtin functions call no impure function. -/
def hush (P : Prog) : Expr → Bool
  | .node h es =>
    match h with
    | .attr _ => noImpures P es
    | .builtin _ => noImpures P es
    | _ => hushs P es

def hushs (P : Prog) : List Expr → Bool
  | [] => true
  | e :: es => hush P e && hushs P es
end

/-- The call of an impure function. -/
def impureCall (P : Prog) : Expr → Bool
  | .node (.prim _) _ => true
  | .node (.call f) _ =>
    match P f with
    | some fn => !fn.ghost && !fn.pure
    | none => false
  | _ => false

/-- A ghost value is not the call of an impure function, other expressions are tidy. -/
def fine (P : Prog) (Γ : Nat → Bool) (e : Expr) : Bool :=
  quiet P e && if ghostly P Γ e then !impureCall P e && hush P e else tidy P Γ e

/-- What the called function returns, for calls of regular functions. -/
def retOf (P : Prog) : Expr → Ret
  | .node (.call f) _ =>
    match P f with
    | some fn => if fn.ghost then .reg else fn.ret
    | none => .reg
  | _ => .reg

/-- The value of an assignment to ghost targets, of a ghost result: the tidy call of an impure function or an
expression without such calls; if it is a call, then it is a call with a ghost argument or a tidy call. -/
def fineGhost (P : Prog) (Γ : Nat → Bool) (e : Expr) : Bool :=
  quiet P e &&
    if impureCall P e then tidy P Γ e
    else noImpure P e && (!e.head.isCall || (ghostly P Γ e && retOf P e == .reg) || tidy P Γ e)

/-- A part of a returned ghost tuple. -/
def finePart (P : Prog) (Γ : Nat → Bool) (e : Expr) : Bool :=
  quiet P e && noImpure P e && retOf P e == .reg && (ghostly P Γ e || tidy P Γ e)

/-- A target other than a tuple with less than two elements. -/
def Target.wide : Target → Bool
  | .var _ => true
  | .tup xs => 2 ≤ xs.length

mutual
/-- The statements which the theorem covers; `ctx` for statements in ghost code. -/
def clean (P : Prog) (r : Ret) (Γ : Nat → Bool) (ctx : Bool) : Stmt → Bool
  | .assign ts e =>
    if (ts.flatMap Target.vars).all Γ then !ts.isEmpty && quiet P e && (!e.head.isCall || fineGhost P Γ e)
    else quiet P e && tidy P Γ e &&
      match ts with
      | [.tup [_, _]] => true
      | [.var _] => true
      | _ => (ts.flatMap Target.vars).all (!Γ ·) && ts.all Target.wide && retOf P e == .reg
  | .aug x _ e => if Γ x then !e.head.isCall && quiet P e else quiet P e && tidy P Γ e
  | .expr e => fine P Γ e && (retOf P e == .reg || tidy P Γ e)
  | .ite e a b => fine P Γ e && cleanB P r Γ (ctx || ghostly P Γ e) a && cleanB P r Γ (ctx || ghostly P Γ e) b
  | .whil e a b => fine P Γ e && cleanB P r Γ (ctx || ghostly P Γ e) a && cleanB P r Γ (ctx || ghostly P Γ e) b
  | .forr x e a b =>
    fine P Γ e && (!(ctx || ghostly P Γ e) || Γ x) &&
      cleanB P r Γ (ctx || ghostly P Γ e) a && cleanB P r Γ (ctx || ghostly P Γ e) b
  | .ret (some e) =>
    match r with
    | .reg => quiet P e && tidy P Γ e
    | .ghost =>
      match e with
      | .node .tuple [e1, e2] => finePart P Γ e1 && finePart P Γ e2
      | e => fineGhost P Γ e
    | .mixed =>
      match e with
      | .node .tuple [e1, e2] => quiet P e1 && tidy P Γ e1 && quiet P e2 && noImpure P e2 &&
          (retOf P e2 == .reg)
      | e => quiet P e && tidy P Γ e
  | _ => true

def cleanB (P : Prog) (r : Ret) (Γ : Nat → Bool) (ctx : Bool) : List Stmt → Bool
  | [] => true
  | s :: ss => clean P r Γ ctx s && cleanB P r Γ ctx ss
end

mutual
/-- Receivers of field accesses in the statement call no impure function. -/
def quietS (P : Prog) : Stmt → Bool
  | .assign _ e => quiet P e
  | .aug _ _ e => quiet P e
  | .expr e => quiet P e
  | .ite e a b => quiet P e && quietB P a && quietB P b
  | .whil e a b => quiet P e && quietB P a && quietB P b
  | .forr _ e a b => quiet P e && quietB P a && quietB P b
  | .ret (some e) => quiet P e
  | _ => true

def quietB (P : Prog) : List Stmt → Bool
  | [] => true
  | s :: ss => quietS P s && quietB P ss
end

/-- All functions of the program are covered. -/
def Clean (P : Prog) : Prop := ∀ f fn, P f = some fn →
  if fn.ghost then quietB P fn.body = true else cleanB P fn.ret fn.gvar false fn.body = true

/-! ### Where the original program can fail although the extracted one does not -/

/-- The expression which the statement evaluates first. -/
def Stmt.first : Stmt → Option Expr
  | .assign _ e => some e
  | .aug _ _ e => some e
  | .expr e => some e
  | .ite e _ _ => some e
  | .whil e _ _ => some e
  | .forr _ e _ _ => some e
  | .ret e => e
  | _ => none

/-- Heads whose parts are all evaluated, from left to right. -/
def Head.strict : Head → Bool
  | .op _ => true
  | .tuple => true
  | .builtin _ => true
  | .prim _ => true
  | .call _ => true
  | _ => false

/-- The run reaches code without effects which gets stuck or does not terminate: an expression that calls no
impure function, a statement that in addition assigns to ghost variables only, or an assignment to ghost
variables whose value has the wrong shape.  Everything before it terminates. -/
inductive Fails {W : Type} (L : Lib W) (P : Prog) : (Nat → Bool) → Job W → Prop
  | expr {Γ ρ w e} : noImpure P e = true → (∀ r, ¬ Run L P (.expr ρ w e) r) → Fails L P Γ (.expr ρ w e)
  | stmt {Γ ρ w s} : silent P Γ s = true → (∀ r, ¬ Run L P (.stmt ρ w s) r) → Fails L P Γ (.stmt ρ w s)
  | unpack {Γ ρ w ts e w' v} : Run L P (.expr ρ w e) (.val w' v) → assignTs ρ v ts = none →
      ((ts.flatMap Target.vars).all Γ || (ts.flatMap Target.vars).any Γ) = true → Fails L P Γ (.stmt ρ w (.assign ts e))
  | parts {Γ ρ w h es} : h.strict = true → Fails L P Γ (.args ρ w es) → Fails L P Γ (.expr ρ w (.node h es))
  | condC {Γ ρ w c a b} : Fails L P Γ (.expr ρ w c) → Fails L P Γ (.expr ρ w (.node .cond [c, a, b]))
  | condT {Γ ρ w c a b w' v} : Run L P (.expr ρ w c) (.val w' v) → L.truthy v = true →
      Fails L P Γ (.expr ρ w' a) → Fails L P Γ (.expr ρ w (.node .cond [c, a, b]))
  | condF {Γ ρ w c a b w' v} : Run L P (.expr ρ w c) (.val w' v) → L.truthy v = false →
      Fails L P Γ (.expr ρ w' b) → Fails L P Γ (.expr ρ w (.node .cond [c, a, b]))
  | attr {Γ ρ w k e} : Fails L P Γ (.expr ρ w e) → Fails L P Γ (.expr ρ w (.node (.attr k) [e]))
  | body {Γ ρ w f es w' vs fn ρ0} : Run L P (.args ρ w es) (.vals w' vs) → P f = some fn →
      Env.empty.sets fn.params vs = some ρ0 → Fails L P fn.gvar (.block ρ0 w' fn.body) →
      Fails L P Γ (.expr ρ w (.node (.call f) es))
  | head {Γ ρ w e es} : Fails L P Γ (.expr ρ w e) → Fails L P Γ (.args ρ w (e :: es))
  | tail {Γ ρ w e es w' v} : Run L P (.expr ρ w e) (.val w' v) → Fails L P Γ (.args ρ w' es) →
      Fails L P Γ (.args ρ w (e :: es))
  | value {Γ ρ w s e} : s.first = some e → Fails L P Γ (.expr ρ w e) → Fails L P Γ (.stmt ρ w s)
  | iteT {Γ ρ w e a b w' v} : Run L P (.expr ρ w e) (.val w' v) → L.truthy v = true →
      Fails L P Γ (.block ρ w' a) → Fails L P Γ (.stmt ρ w (.ite e a b))
  | iteF {Γ ρ w e a b w' v} : Run L P (.expr ρ w e) (.val w' v) → L.truthy v = false →
      Fails L P Γ (.block ρ w' b) → Fails L P Γ (.stmt ρ w (.ite e a b))
  | whileF {Γ ρ w e a b w' v} : Run L P (.expr ρ w e) (.val w' v) → L.truthy v = false →
      Fails L P Γ (.block ρ w' b) → Fails L P Γ (.stmt ρ w (.whil e a b))
  | whileT {Γ ρ w e a b w' v} : Run L P (.expr ρ w e) (.val w' v) → L.truthy v = true →
      Fails L P Γ (.block ρ w' a) → Fails L P Γ (.stmt ρ w (.whil e a b))
  | whileN {Γ ρ w e a b w' v ρ1 w1 o} : Run L P (.expr ρ w e) (.val w' v) → L.truthy v = true →
      Run L P (.block ρ w' a) (.done ρ1 w1 o) → o = .norm ∨ o = .cont →
      Fails L P Γ (.stmt ρ1 w1 (.whil e a b)) → Fails L P Γ (.stmt ρ w (.whil e a b))
  | forr {Γ ρ w x e a b w' v vs} : Run L P (.expr ρ w e) (.val w' v) → L.iter v = some vs →
      Fails L P Γ (.each ρ w' x vs a b) → Fails L P Γ (.stmt ρ w (.forr x e a b))
  | eachE {Γ ρ w x a b} : Fails L P Γ (.block ρ w b) → Fails L P Γ (.each ρ w x [] a b)
  | eachT {Γ ρ w x v vs a b} : Fails L P Γ (.block (ρ.set x v) w a) → Fails L P Γ (.each ρ w x (v :: vs) a b)
  | eachN {Γ ρ w x v vs a b ρ1 w1 o} : Run L P (.block (ρ.set x v) w a) (.done ρ1 w1 o) → o = .norm ∨ o = .cont →
      Fails L P Γ (.each ρ1 w1 x vs a b) → Fails L P Γ (.each ρ w x (v :: vs) a b)
  | first {Γ ρ w s ss} : Fails L P Γ (.stmt ρ w s) → Fails L P Γ (.block ρ w (s :: ss))
  | rest {Γ ρ w s ss ρ1 w1} : Run L P (.stmt ρ w s) (.done ρ1 w1 .norm) → Fails L P Γ (.block ρ1 w1 ss) →
      Fails L P Γ (.block ρ w (s :: ss))

/-- If the extracted function terminates, then so does the original one, whatever it gets for its ghost
parameters, with the same effects and the same regular result, unless code without effects in it gets stuck or
does not terminate. -/
def Reflects {W : Type} (L : Lib W) (P Q : Prog) : Prop :=
  ∀ f fn, P f = some fn → fn.ghost = false → ∃ fn', Q f = some fn' ∧
    ∀ vs ρ0 ρ0' w ρ1' w' o', Env.empty.sets fn.params vs = some ρ0 →
      Env.empty.sets fn'.params (keep (fn.params.map fn.gvar) vs) = some ρ0' →
      Run L Q (.block ρ0' w fn'.body) (.done ρ1' w' o') →
      (∃ ρ1 o, Run L P (.block ρ0 w fn.body) (.done ρ1 w' o) ∧ OutRel fn.ret o o' ∧ Agree fn.gvar ρ1 ρ1') ∨
        Fails L P fn.gvar (.block ρ0 w fn.body)

end Nagini.Ghost
