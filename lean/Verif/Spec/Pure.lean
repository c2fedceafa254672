import Verif.Model.Pure

/-!
Execution of bodies of pure functions in Python.
-/
namespace Nagini.Pure

/-- What operators and conversions mean in Python; `none` is an exception.  `assertOk` and `held` say
which uses of `Assert` and `Unfold` are allowed (in Python itself, all), `test` decides conditions of
`if`, `truth` guards and assertions. -/
structure Py where
  op : Nat → List Val → List Val → Option Val
  test : Val → Option Bool
  truth : Val → Option Bool
  aug : AugOp → Val → Val → Option Val
  leaf : Nat → Val → Bool
  assertOk : Bool → Bool
  held : Val → Bool

/-- Variables, `none` if unbound. -/
abbrev Env := Nat → Option Val

/-- A changed variable. -/
def Env.set (σ : Env) (x : Nat) (v : Val) : Env := fun y => if y = x then some v else σ y

mutual
/-- Value of an expression. -/
def evalPy (P : Py) (U : List Val) (σ : Env) : Expr → Option Val
  | .lit v => some v
  | .var x => σ x
  | .op f args => (evalPys P U σ args).bind fun vs => P.op f vs U
/-- Values of arguments. -/
def evalPys (P : Py) (U : List Val) (σ : Env) : List Expr → Option (List Val)
  | [] => some []
  | e :: es => (evalPy P U σ e).bind fun v => (evalPys P U σ es).map (v :: ·)
end

/-- Matches a pattern; the result are the variables afterwards. -/
def matchPat (P : Py) (v : Val) : Pat → Env → Option Env
  | .leaf k, σ => if P.leaf k v then some σ else none
  | .wild, σ => some σ
  | .capture x, σ => some (σ.set x v)
  | .as p x, σ => (matchPat P v p σ).map (·.set x v)
  | .or p q, σ =>
    match matchPat P v p σ with
    | some σ' => some σ'
    | none => matchPat P v q σ

/-- How the execution of statements ends. -/
inductive Res
  | norm (σ : Env) (U : List Val)
  | ret (v : Val)
  | err

mutual
/-- Executes a statement. -/
def execStmt (P : Py) (U : List Val) (σ : Env) : Stmt → Res
  | .assign x e =>
    match evalPy P U σ e with
    | some v => .norm (σ.set x v) U
    | none => .err
  | .aug x o e =>
    match σ x, evalPy P U σ e with
    | some a, some b =>
      match P.aug o a b with
      | some v => .norm (σ.set x v) U
      | none => .err
    | _, _ => .err
  | .ite t th el =>
    match (evalPy P U σ t).bind P.test with
    | some true => execBlock P U σ th
    | some false => execBlock P U σ el
    | none => .err
  | .ret e =>
    match evalPy P U σ e with
    | some v => .ret v
    | none => .err
  | .assert e =>
    match (evalPy P U σ e).bind P.truth with
    | some b => if P.assertOk b then .norm σ U else .err
    | none => .err
  | .unfold p =>
    match evalPy P U σ p with
    | some v => if P.held v then .norm σ (v :: U) else .err
    | none => .err
  | .mtch e cs =>
    match evalPy P U σ e with
    | some v => execCases P U σ v cs
    | none => .err
  | .doc => .norm σ U
/-- Executes a list of statements. -/
def execBlock (P : Py) (U : List Val) (σ : Env) : Block → Res
  | .nil => .norm σ U
  | .cons s b =>
    match execStmt P U σ s with
    | .norm σ' U' => execBlock P U' σ' b
    | r => r
/-- Executes the first case that matches; names stay bound if the guard fails. -/
def execCases (P : Py) (U : List Val) (σ : Env) (v : Val) : Cases → Res
  | .nil => .norm σ U
  | .cons p g b cs =>
    match matchPat P v p σ with
    | none => execCases P U σ v cs
    | some σ' =>
      match g with
      | none => execBlock P U σ' b
      | some g =>
        match (evalPy P U σ' g).bind P.truth with
        | some true => execBlock P U σ' b
        | some false => execCases P U σ' v cs
        | none => .err
end

/-- The result of a call: `None` if the end of the body is reached. -/
def runPy (P : Py) (isLocal : Nat → Bool) (args : Nat → Val) (b : Block) : Option Val :=
  match execBlock P [] (fun x => if isLocal x then none else some (args x)) b with
  | .norm _ _ => some .none
  | .ret v => some v
  | .err => none

/-- The returned value; `none` if there is none. -/
def returned : Res → Option Val
  | .ret v => some v
  | _ => none

/-- What a verifier accepts: Python, except that conditions of `if` are booleans, `+=` etc. are applied
to numbers, assertions hold and predicates that are unfolded are held. -/
def strict (I : Interp) : Py where
  op := fun f vs U => (I.op f vs U).map Prod.fst
  test := unbox
  truth := I.truth
  aug := arith
  leaf := I.leaf
  assertOk := id
  held := I.held

/-- `P` agrees with the Viper functions wherever those are defined, and `if`, `+=` etc. treat
booleans and integers as usual. -/
structure Agrees (P : Py) (I : Interp) : Prop where
  op : ∀ f vs U v l, I.op f vs U = some (v, l) → P.op f vs U = some v
  test : ∀ b, P.test (.bool b) = some b
  truth : ∀ v b, I.truth v = some b → P.truth v = some b
  add : ∀ i j, P.aug .add (.int i) (.int j) = some (.int (i + j))
  sub : ∀ i j, P.aug .sub (.int i) (.int j) = some (.int (i - j))
  mul : ∀ i j, P.aug .mul (.int i) (.int j) = some (.int (i * j))
  bools : ∀ o a b c d, toInt a = some c → toInt b = some d → P.aug o a b = P.aug o (.int c) (.int d)
  leaf : ∀ k v, P.leaf k v = I.leaf k v
  assertOk : P.assertOk true = true
  held : ∀ v, I.held v = true → P.held v = true

/-! Conditions -/

mutual
/-- The variables read by an expression. -/
def reads : Expr → List Nat
  | .lit _ => []
  | .var x => [x]
  | .op _ args => readsL args
/-- The variables read by arguments. -/
def readsL : List Expr → List Nat
  | [] => []
  | e :: es => reads e ++ readsL es
end

/-- The names a pattern binds. -/
def binds : Pat → List Nat
  | .leaf _ => []
  | .wild => []
  | .capture x => [x]
  | .as p x => x :: binds p
  | .or p q => binds p ++ binds q

/-- Alternatives of the pattern bind no names. -/
def Pat.plain : Pat → Bool
  | .as p _ => p.plain
  | .or p q => (binds p).isEmpty && (binds q).isEmpty
  | _ => true

/-- None of the names is in the list. -/
def free (H : List Nat) (xs : List Nat) : Bool := xs.all fun x => !H.contains x

/-- None of the names is read by the guard. -/
def guardFree (H : List Nat) : Option Expr → Bool
  | none => true
  | some g => free H (reads g)

/-- The parameters assigned to so far (`A`), the names bound by a case whose guard failed and not
assigned to since (`H`). -/
structure Flow where
  A : List Nat
  H : List Nat

mutual
/-- Follows the conditions under which bodies are translated correctly: the first assignment to a
parameter is not conditional and not augmented; names bound by a case whose guard failed are not used
before they are bound again; alternatives of patterns bind no names.  `top` means outside of `if` and
`match`. -/
def okStmt (isLocal : Nat → Bool) (top : Bool) (F : Flow) : Stmt → Option Flow
  | .assign x e =>
    if free F.H (reads e) && (isLocal x || top || F.A.contains x) then
      some ⟨if top then x :: F.A else F.A, F.H.filter (· ≠ x)⟩
    else none
  | .aug x _ e =>
    if free F.H (x :: reads e) && (isLocal x || F.A.contains x) then some F else none
  | .ite t th el =>
    if free F.H (reads t) then
      (okBlock isLocal false F th).bind fun F1 => (okBlock isLocal false F el).map fun F2 =>
        ⟨F.A, F1.H ++ F2.H⟩
    else none
  | .ret e => if free F.H (reads e) then some F else none
  | .assert e => if free F.H (reads e) then some F else none
  | .unfold p => if free F.H (reads p) then some F else none
  | .mtch e cs => if free F.H (reads e) then okCases isLocal F cs else none
  | .doc => some F
/-- The conditions for lists of statements. -/
def okBlock (isLocal : Nat → Bool) (top : Bool) (F : Flow) : Block → Option Flow
  | .nil => some F
  | .cons s b => (okStmt isLocal top F s).bind fun F' => okBlock isLocal top F' b
/-- The conditions for cases. -/
def okCases (isLocal : Nat → Bool) (F : Flow) : Cases → Option Flow
  | .nil => some F
  | .cons p g b cs =>
    let Hb := F.H.filter fun x => !(binds p).contains x
    if p.plain && (binds p).all (fun x => isLocal x || F.A.contains x) &&
        guardFree Hb g then
      (okBlock isLocal false ⟨F.A, Hb⟩ b).bind fun F1 =>
        (okCases isLocal ⟨F.A, if g.isSome then F.H ++ binds p else F.H⟩ cs).map fun F2 =>
          ⟨F.A, F1.H ++ F2.H⟩
    else none
end

/-- The body consists of docstrings. -/
def Block.empty : Block → Bool
  | .nil => true
  | .cons .doc b => b.empty
  | .cons _ _ => false

/-- The conditions for a body. -/
def Ok (isLocal : Nat → Bool) (b : Block) : Prop := (okBlock isLocal true ⟨[], []⟩ b).isSome

end Nagini.Pure
