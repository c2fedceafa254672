import Verif.Model.Inline

/-! What Python does in a call, and what Viper does with the generated statements. -/
set_option linter.unusedVariables false
namespace Nagini.Inline

/-- Fields of objects, and the values that have been observed. -/
structure World where
  heap : Int → Nat → Int
  seen : List Int

/-- The local variables of a call; `none` if there is no value yet. -/
abbrev Frame := Nat → Option Int

/-- Values of expressions; `h₀` are the fields when the method was called. -/
def eval (fr : Frame) (h h₀ : Int → Nat → Int) : Expr → Option Int
  | .lit n => some n
  | .var x => fr x
  | .add a b =>
    match eval fr h h₀ a, eval fr h h₀ b with
    | some u, some v => some (u + v)
    | _, _ => none
  | .field a f => (eval fr h h₀ a).map (fun o => h o f)
  | .old a => eval fr h₀ h₀ a

/-- Assigning to a variable. -/
def Frame.set (fr : Frame) (x : Nat) (v : Int) : Frame := fun y => if y = x then some v else fr y

/-- Assigning to a field. -/
def setField (h : Int → Nat → Int) (o : Int) (f : Nat) (v : Int) : Int → Nat → Int :=
  fun p g => if p = o ∧ g = f then v else h p g

/-- Simple statements. -/
def execS (h₀ : Int → Nat → Int) (fr : Frame) (w : World) : Simple → Option (Frame × World)
  | .assign x e => (eval fr w.heap h₀ e).map (fun v => (fr.set x v, w))
  | .store a f e =>
    match eval fr w.heap h₀ a, eval fr w.heap h₀ e with
    | some o, some v => some (fr, ⟨setField w.heap o f v, w.seen⟩)
    | _, _ => none
  | .check e => (eval fr w.heap h₀ e).map (fun v => (fr, ⟨w.heap, w.seen ++ [v]⟩))

/-- Suites of simple statements. -/
def execSs (h₀ : Int → Nat → Int) : List Simple → Frame → World → Option (Frame × World)
  | [], fr, w => some (fr, w)
  | c :: l, fr, w =>
    match execS h₀ fr w c with
    | some (fr, w) => execSs h₀ l fr w
    | none => none

/-- How a statement ends. -/
inductive Out where
  | normal
  | ret (v : Int)
  | exc (n : Nat)
deriving DecidableEq

/-- The values of a list of expressions. -/
def evals (fr : Frame) (h h₀ : Int → Nat → Int) : List Expr → Option (List Int)
  | [] => some []
  | e :: es =>
    match eval fr h h₀ e, evals fr h h₀ es with
    | some v, some vs => some (v :: vs)
    | _, _ => none

/-- All arguments of a call in Python, including the receiver. -/
def allArgs (self : Option Nat) (recv : Recv) (args : List Expr) : List Expr :=
  match recv with
  | .none => args
  | .obj e => e :: args
  | .super => (self.map Expr.var).toList ++ args

/-- The variables at the beginning of a call. -/
def enter : List Nat → List Int → Frame → Frame
  | x :: ps, v :: vs, fr => enter ps vs (fr.set x v)
  | _, _, fr => fr

/-- What the caller does with the outcome of a call. -/
def leave (x : Option Nat) (fr : Frame) : Option (Out × World) → Option (Out × Frame × World)
  | none => none
  | some (.exc n, w) => some (.exc n, fr, w)
  | some (.ret v, w) =>
    match x with
    | none => some (.normal, fr, w)
    | some y => some (.normal, fr.set y v, w)
  | some (.normal, w) =>
    match x with
    | none => some (.normal, fr, w)
    | some _ => none

/-- Execution of statements, where `k` executes calls; `none` if a variable has no value. -/
def execWith (k : Nat → List Int → World → Option (Out × World)) (self : Option Nat) (h₀ : Int → Nat → Int) :
    Stmt → Frame → World → Option (Out × Frame × World)
  | .skip, fr, w => some (.normal, fr, w)
  | .simple s, fr, w =>
    match execS h₀ fr w s with
    | some (fr, w) => some (.normal, fr, w)
    | none => none
  | .seq a b, fr, w =>
    match execWith k self h₀ a fr w with
    | some (.normal, fr, w) => execWith k self h₀ b fr w
    | r => r
  | .ite e a b, fr, w =>
    match eval fr w.heap h₀ e with
    | some v => if v ≠ 0 then execWith k self h₀ a fr w else execWith k self h₀ b fr w
    | none => none
  | .ret e, fr, w =>
    match eval fr w.heap h₀ e with
    | some v => some (.ret v, fr, w)
    | none => none
  | .raise n, fr, w => some (.exc n, fr, w)
  | .tryEx _ b h r, fr, w =>
    match execWith k self h₀ b fr w with
    | some (.exc _, fr, w) =>
      match execSs h₀ h fr w with
      | some (fr, w) =>
        match r with
        | none => some (.normal, fr, w)
        | some e =>
          match eval fr w.heap h₀ e with
          | some v => some (.ret v, fr, w)
          | none => none
      | none => none
    | r => r
  | .tryFin _ b f, fr, w =>
    match execWith k self h₀ b fr w with
    | some (o, fr, w) =>
      match execSs h₀ f fr w with
      | some (fr, w) => some (o, fr, w)
      | none => none
    | none => none
  | .call _ x m recv args, fr, w =>
    match evals fr w.heap h₀ (allArgs self recv args) with
    | some vs => leave x fr (k m vs w)
    | none => none

/-- A call with at most the given depth of nested calls. -/
def callM (P : Prog) : Nat → Nat → List Int → World → Option (Out × World)
  | 0, _, _, _ => none
  | d + 1, m, vs, w =>
    match execWith (callM P d) (P m).params.head? w.heap (P m).body (enter (P m).params vs (fun _ => none)) w with
    | some (o, _, w) => some (o, w)
    | none => none

/-- Viper variables. -/
abbrev Store := Var → Int

/-- Assigning to a variable. -/
def Store.set (s : Store) (v : Var) (n : Int) : Store := fun u => if u = v then n else s u

/-- Values of Viper expressions; `h₀` are the fields at the beginning of the Viper method. -/
def teval (s : Store) (h h₀ : Int → Nat → Int) : TExpr → Int
  | .lit n => n
  | .var v => s v
  | .add a b => teval s h h₀ a + teval s h h₀ b
  | .field a f => h (teval s h h₀ a) f
  | .old a => teval s h₀ h₀ a
  | .eqn a n => if teval s h h₀ a = n then 1 else 0

/-- How a Viper statement ends: normally, or with a jump. -/
inductive TOut where
  | normal | toEnd | toTry | toFin
deriving DecidableEq

/-- Execution of Viper statements. -/
def trun (h₀ : Int → Nat → Int) : TStmt → Store → World → TOut × Store × World
  | .skip, s, w => (.normal, s, w)
  | .assign v e, s, w => (.normal, s.set v (teval s w.heap h₀ e), w)
  | .store a f e, s, w => (.normal, s, ⟨setField w.heap (teval s w.heap h₀ a) f (teval s w.heap h₀ e), w.seen⟩)
  | .check e, s, w => (.normal, s, ⟨w.heap, w.seen ++ [teval s w.heap h₀ e]⟩)
  | .seq a b, s, w =>
    match trun h₀ a s w with
    | (.normal, s, w) => trun h₀ b s w
    | r => r
  | .ite e a b, s, w => if teval s w.heap h₀ e ≠ 0 then trun h₀ a s w else trun h₀ b s w
  | .goEnd, s, w => (.toEnd, s, w)
  | .goTry, s, w => (.toTry, s, w)
  | .goFin, s, w => (.toFin, s, w)
  | .scope b, s, w =>
    match trun h₀ b s w with
    | (.toEnd, s, w) => (.normal, s, w)
    | r => r
  | .tryEx b h, s, w =>
    match trun h₀ b s w with
    | (.toTry, s, w) => trun h₀ h s w
    | r => r
  | .tryFin b a, s, w =>
    match trun h₀ b s w with
    | (.toEnd, s, w) => (.toEnd, s, w)
    | (_, s, w) => trun h₀ a s w

/-- The numbers of the `try` blocks of a statement. -/
def blocks : Stmt → List Nat
  | .seq a b | .ite _ a b => blocks a ++ blocks b
  | .tryEx i b _ _ | .tryFin i b _ => i :: blocks b
  | _ => []

/-- Nested blocks have different numbers, and no `try` with a `finally` suite is directly contained in another one (see
C08 for those); the first argument says whether the innermost enclosing block has a `finally` suite. -/
def Nested : Bool → Stmt → Prop
  | h, .seq a b | h, .ite _ a b => Nested h a ∧ Nested h b
  | _, .tryEx _ b _ _ => Nested false b
  | h, .tryFin i b _ => h = false ∧ i ∉ blocks b ∧ Nested true b
  | _, _ => True

/-- The methods that are called. -/
def calls : Stmt → List Nat
  | .seq a b | .ite _ a b => calls a ++ calls b
  | .tryEx _ b _ _ | .tryFin _ b _ => calls b
  | .call _ _ m _ _ => [m]
  | _ => []

/-- `Old` does not occur in an expression. -/
def noOldE : Expr → Prop
  | .lit _ | .var _ => True
  | .add a b => noOldE a ∧ noOldE b
  | .field a _ => noOldE a
  | .old _ => False

/-- `Old` does not occur in a simple statement. -/
def noOldS : Simple → Prop
  | .assign _ e | .check e => noOldE e
  | .store a _ e => noOldE a ∧ noOldE e

/-- `Old` does not occur in a statement. -/
def noOld : Stmt → Prop
  | .skip | .raise _ => True
  | .simple s => noOldS s
  | .seq a b => noOld a ∧ noOld b
  | .ite e a b => noOldE e ∧ noOld a ∧ noOld b
  | .ret e => noOldE e
  | .tryEx _ b h r => noOld b ∧ (∀ s ∈ h, noOldS s) ∧ ∀ e, r = some e → noOldE e
  | .tryFin _ b f => noOld b ∧ ∀ s ∈ f, noOldS s
  | .call _ _ _ recv args => (∀ e ∈ args, noOldE e) ∧ ∀ e, recv = .obj e → noOldE e

/-- No method is called on an object. -/
def noObj : Stmt → Prop
  | .seq a b | .ite _ a b => noObj a ∧ noObj b
  | .tryEx _ b _ _ | .tryFin _ b _ => noObj b
  | .call _ _ _ recv _ => ∀ e, recv ≠ .obj e
  | _ => True

/-- Calls have the right number of arguments (which is checked by mypy). -/
def Typed (P : Prog) (self : Option Nat) : Stmt → Prop
  | .seq a b | .ite _ a b => Typed P self a ∧ Typed P self b
  | .tryEx _ b _ _ | .tryFin _ b _ => Typed P self b
  | .call _ _ m recv args => (allArgs self recv args).length = (P m).params.length
  | _ => True

end Nagini.Inline
