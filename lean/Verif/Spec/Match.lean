import Verif.Model.Match

/-!
Match statements in Python.
-/
namespace Nagini.Match

/-- Python: attributes, `isinstance`, `==`, operators, truth values (`none` is a missing attribute or
an exception). -/
structure Py where
  get : Val → Nat → Option Val
  inst : Val → Nat → Bool
  eq : Val → Nat → Option Bool
  op : Nat → List Val → Option Val
  truth : Val → Option Bool

/-- Result of matching: an exception, no match, or the bound names in order. -/
inductive Res
  | err
  | no
  | yes (bs : List (Nat × Val))

/-- Both patterns have to match. -/
def Res.both : Res → Res → Res
  | .yes bs, .yes cs => .yes (bs ++ cs)
  | .err, _ => .err
  | .no, _ => .no
  | .yes _, .err => .err
  | .yes _, .no => .no

/-- A name for the value. -/
def named (x : Option Nat) (v : Val) : List (Nat × Val) := x.toList.map (·, v)

mutual
/-- Matches a value against a pattern. -/
def pmatch (P : Py) (v : Val) : Pat → Res
  | .any x => .yes (named x v)
  | .as p x => (Res.yes [(x, v)]).both (pmatch P v p)
  | .single .none => if v = .none then .yes [] else .no
  | .single (.bool b) => if v = .bool b then .yes [] else .no
  | .value c =>
    match P.eq v c with
    | some true => .yes []
    | some false => .no
    | none => .err
  | .cls c ks => if P.inst v c then pmatchKws P v ks else .no
  | .or p ps =>
    match pmatch P v p with
    | .no => pmatchOr P v ps
    | r => r
/-- Matches a value against alternatives. -/
def pmatchOr (P : Py) (v : Val) : Pats → Res
  | .nil => .no
  | .cons p ps =>
    match pmatch P v p with
    | .no => pmatchOr P v ps
    | r => r
/-- Matches attributes. -/
def pmatchKws (P : Py) (v : Val) : Kws → Res
  | .nil => .yes []
  | .cons a p ks =>
    match P.get v a with
    | some w =>
      match pmatch P w p with
      | .yes bs => (Res.yes bs).both (pmatchKws P v ks)
      | r => r
    | none => .no
end

/-- Variables. -/
abbrev Env := Nat → Option Val

/-- Binds names one after the other. -/
def Env.bind (σ : Env) : List (Nat × Val) → Env
  | [] => σ
  | (x, v) :: bs => Env.bind (fun y => if y = x then some v else σ y) bs

mutual
/-- Value of an expression. -/
def evalPy (P : Py) (σ : Env) : Expr → Option Val
  | .lit v => some v
  | .var x => σ x
  | .op f args => (evalPys P σ args).bind (P.op f)
/-- Values of arguments. -/
def evalPys (P : Py) (σ : Env) : List Expr → Option (List Val)
  | [] => some []
  | e :: es => (evalPy P σ e).bind fun v => (evalPys P σ es).map (v :: ·)
end

/-- How a match statement goes on: with an exception, at a body, or after the statement. -/
inductive PyOut
  | err
  | body (k : Nat) (σ : Env)
  | done (σ : Env)

/-- Selects a case; names stay bound if the guard fails. -/
def select (P : Py) (v : Val) : Nat → Env → List Case → PyOut
  | _, σ, [] => .done σ
  | k, σ, cs :: rest =>
    match pmatch P v cs.pat with
    | .err => .err
    | .no => select P v (k + 1) σ rest
    | .yes bs =>
      match cs.guard with
      | none => .body k (σ.bind bs)
      | some g =>
        match (evalPy P (σ.bind bs) g).bind P.truth with
        | some true => .body k (σ.bind bs)
        | some false => select P v (k + 1) (σ.bind bs) rest
        | none => .err

/-- The variables a Viper state stands for. -/
def view (vars : Nat → Val) (defd : Nat → Bool) : Env := fun x => if defd x then some (vars x) else none

/-- The verifier's view of the world is right: attributes that may be read are fields of the class the
value was tested for, and what the functions return is what Python computes. -/
structure Sees (P : Py) (Γ : Info) (W : World) (hasTy : Val → Nat → Prop) : Prop where
  inst : ∀ v c, P.inst v c = W.inst v c
  get : ∀ v c a f ty, W.inst v c = true → Γ.field c a = some (f, ty) → W.perm v f = true →
    P.get v a = some (W.heap v f) ∧ hasTy (W.heap v f) ty
  eq : ∀ ty v c b, hasTy v ty → W.eq ty v c = some b → P.eq v c = some b
  op : ∀ f vs v, W.op f vs = some v → P.op f vs = some v
  truth : ∀ v b, W.truth v = some b → P.truth v = some b

/-- All attributes have been assigned to. -/
def Assigned (P : Py) (Γ : Info) (W : World) : Prop :=
  ∀ v c a f ty, W.inst v c = true → Γ.field c a = some (f, ty) → P.get v a ≠ none

/-- All fields may be read, and all functions are defined where Python's are. -/
structure Complete (P : Py) (Γ : Info) (W : World) (hasTy : Val → Nat → Prop) : Prop where
  get : ∀ v c a f ty, W.inst v c = true → Γ.field c a = some (f, ty) → W.perm v f = true
  eq : ∀ ty v c, hasTy v ty → W.eq ty v c = none → P.eq v c = none
  op : ∀ f vs, W.op f vs = none → P.op f vs = none
  truth : ∀ v, W.truth v = none → P.truth v = none

mutual
/-- The names a pattern binds. -/
def binds : Pat → List Nat
  | .any x => x.toList
  | .as p x => x :: binds p
  | .single _ => []
  | .value _ => []
  | .cls _ ks => bindsKws ks
  | .or p ps => binds p ++ bindsPats ps
/-- The names alternatives bind. -/
def bindsPats : Pats → List Nat
  | .nil => []
  | .cons p ps => binds p ++ bindsPats ps
/-- The names bound in attributes. -/
def bindsKws : Kws → List Nat
  | .nil => []
  | .cons _ p ks => binds p ++ bindsKws ks
end

mutual
/-- Alternatives bind no names. -/
def Plain : Pat → Prop
  | .as p _ => Plain p
  | .cls _ ks => PlainKws ks
  | .or p ps => binds p = [] ∧ bindsPats ps = []
  | _ => True
/-- Alternatives in attributes bind no names. -/
def PlainKws : Kws → Prop
  | .nil => True
  | .cons _ p ks => Plain p ∧ PlainKws ks
end

/-- The names bound to the whole subject. -/
def whole : Pat → List Nat
  | .any x => x.toList
  | .as p x => x :: whole p
  | _ => []

mutual
/-- The variables read by an expression. -/
def reads : Expr → List Nat
  | .lit _ => []
  | .var x => [x]
  | .op _ args => readsL args
/-- The variables read by arguments. -/
def readsL : List Expr → List Nat
  | [] => []
  | e :: es => reads e ++ readsL es
end

/-- Conditions for cases, where `H` are names bound by cases whose guard failed: alternatives bind no
names, no name is bound twice, and guards read neither names in `H` nor names bound in attributes. -/
def Ok (H : List Nat) : List Case → Prop
  | [] => True
  | cs :: rest =>
    Plain cs.pat ∧ (binds cs.pat).Nodup ∧
    (∀ g, cs.guard = some g → ∀ x ∈ reads g, x ∈ whole cs.pat ∨ (x ∉ H ∧ x ∉ binds cs.pat)) ∧
    Ok (if cs.guard.isSome then H ++ binds cs.pat else H) rest

/-- The names about which nothing is known at the body of case `k` (or after the statement): those bound
by earlier cases with a guard. -/
def hidden (H : List Nat) : List Case → Option Nat → List Nat
  | [], _ => H
  | cs :: _, some 0 => H.filter fun x => !(binds cs.pat).contains x
  | cs :: rest, some (k + 1) => hidden (if cs.guard.isSome then H ++ binds cs.pat else H) rest (some k)
  | cs :: rest, none => hidden (if cs.guard.isSome then H ++ binds cs.pat else H) rest none

/-- The run of the Viper code and of Python end in the same way, with the same values of all variables
except for the names in `hid`. -/
def Same (hid : Option Nat → List Nat) : Out → PyOut → Prop
  | .err, .err => True
  | .body k s, .body k' σ => k = k' ∧ ∀ x, x ∉ hid (some k) → view s.vars s.defd x = σ x
  | .done s, .done σ => ∀ x, x ∉ hid none → view s.vars s.defd x = σ x
  | _, _ => False

end Nagini.Match
