import Verif.Model.IO
/-!
What IO operations mean to a user, and what the generated assertions mean in Viper.
-/
namespace Nagini.IO

/-- An interpretation: operators, the results that the operations produce for given arguments, the
types, and readings of values as conditions and as numbers. -/
structure Interp (V : Type) where
  lit : Int → V
  boo : Bool → V
  bin : Nat → V → V → V
  result : Nat → Nat → List V → V
  truth : V → Prop
  num : V → Int
  ty : Nat → V → Prop
  truth_boo : ∀ b, truth (boo b) ↔ b = true
  num_lit : ∀ k, num (lit k) = k

/-- Resources that bodies of operations can provide, with the resource `chunk o vs` for one
instance of an operation. -/
structure Res (H V : Type) where
  emp : H
  add : H → H → H
  big : (V → H) → H
  chunk : Nat → List V → H
  add_emp : ∀ h, add h emp = h

variable {V H : Type} (I : Interp V) (A : Res H V)

/-! ### Python -/

/-- The value of an expression. -/
def evE (ρ : Nat → V) : E → V
  | .name x => ρ x
  | .bool b => I.boo b
  | .const k => I.lit k
  | .bin f l r => I.bin f (evE ρ l) (evE ρ r)

/-- Environments with one more variable. -/
def upd (ρ : Nat → V) (x : Nat) (v : V) : Nat → V := fun y => if y = x then v else ρ y

/-- Environments with more variables. -/
def updL (ρ : Nat → V) : List Nat → List V → Nat → V
  | x :: xs, v :: vs => upd (updL ρ xs vs) x v
  | _, _ => ρ

/-- A body holds with a resource: every use of an operation provides an instance, and the names
in result position are the results that the operation produces. -/
def Sat (P : Prog) : (Nat → V) → H → B → Prop
  | ρ, h, .call o args rs => h = A.chunk o (args.map (evE I ρ)) ∧
      ∃ op, P o = some op ∧ op.results.length = rs.length ∧
        ∀ p ∈ op.results.zip rs, ρ p.2 = I.result o p.1 (args.map (evE I ρ))
  | ρ, h, .pure e => I.truth (evE I ρ e) ∧ h = A.emp
  | ρ, h, .and l r => ∃ h1 h2, h = A.add h1 h2 ∧ Sat P ρ h1 l ∧ Sat P ρ h2 r
  | ρ, h, .implies e b => (I.truth (evE I ρ e) → Sat P ρ h b) ∧ (¬ I.truth (evE I ρ e) → h = A.emp)
  | ρ, h, .ife e a b =>
      (I.truth (evE I ρ e) → Sat P ρ h a) ∧ (¬ I.truth (evE I ρ e) → Sat P ρ h b)
  | ρ, h, .all t x b => ∃ f : V → H, h = A.big f ∧
      ∀ v, (I.ty t v → Sat P (upd ρ x v) (f v) b) ∧ (¬ I.ty t v → f v = A.emp)
  | ρ, h, .ex xs b => ∃ vs : List V, vs.length = xs.length ∧ Sat P (updL ρ xs vs) h b

/-- The names of an operation when it is performed with arguments `vs`: parameters and results. -/
def opEnv (o : Nat) (op : Op) (vs : List V) : Nat → V :=
  updL (updL (fun _ => I.lit 0) op.results (op.results.map fun r => I.result o r vs))
    (op.params.map (·.1)) vs

/-- No resources: used to say that a body holds. -/
def unitRes : Res Unit V := ⟨(), fun _ _ => (), fun _ => (), fun _ _ => (), fun _ => rfl⟩

/-- The instances of operations that a body consists of. -/
def Reach (P : Prog) : (Nat → V) → B → Nat × List V → Prop
  | ρ, .call o args _, c => c = (o, args.map (evE I ρ))
  | _, .pure _, _ => False
  | ρ, .and l r, c => Reach P ρ l c ∨ Reach P ρ r c
  | ρ, .implies e b, c => I.truth (evE I ρ e) ∧ Reach P ρ b c
  | ρ, .ife e a b, c =>
      (I.truth (evE I ρ e) ∧ Reach P ρ a c) ∨ (¬ I.truth (evE I ρ e) ∧ Reach P ρ b c)
  | ρ, .all t x b, c => ∃ v, I.ty t v ∧ Reach P (upd ρ x v) b c
  | ρ, .ex xs b, c => ∃ vs : List V, vs.length = xs.length ∧
      Sat I unitRes P (updL ρ xs vs) () b ∧ Reach P (updL ρ xs vs) b c

/-- One step of the expansion of an operation: `p` is performed by performing, among others, `c`. -/
def Expands (P : Prog) (p c : Nat × List V) : Prop :=
  ∃ op b, P p.1 = some op ∧ op.body = some b ∧ p.2.length = op.params.length ∧
    Reach I P (opEnv I p.1 op p.2) b c

/-- `Terminates` is declared for the operation and holds for these arguments. -/
def Terminating (P : Prog) (p : Nat × List V) : Prop :=
  ∃ op e, P p.1 = some op ∧ op.terminates = some e ∧ I.truth (evE I (opEnv I p.1 op p.2) e)

/-- The arguments have the types of the parameters. -/
def Typed (P : Prog) (p : Nat × List V) : Prop :=
  ∀ op, P p.1 = some op → p.2.length = op.params.length ∧
    ∀ q ∈ op.params.zip p.2, I.ty q.1.2 q.2

/-! ### Viper -/

mutual
/-- The value of a Silver expression. -/
def evS (σ : Nat → V) : S → V
  | .var x => σ x
  | .bool b => I.boo b
  | .const k => I.lit k
  | .bin f l r => I.bin f (evS σ l) (evS σ r)
  | .get o r args => I.result o r (evSL σ args)
/-- The values of Silver expressions. -/
def evSL (σ : Nat → V) : List S → List V
  | [] => []
  | s :: ss => evS σ s :: evSL σ ss
end

/-- Truth of the conclusion of a check. -/
def Concl.Holds (σ : Nat → V) : Concl → Prop
  | .falsum => False
  | .holds c => I.truth (evS I σ c)
  | .pos m => I.num (evS I σ m) > 0
  | .gt m m' => I.num (evS I σ m) > I.num (evS I σ m')

/-- Truth of a check. -/
def Chk.Holds (σ : Nat → V) (c : Chk) : Prop :=
  (∀ g ∈ c.guard, (I.truth (evS I σ g.2) ↔ g.1 = true)) → c.concl.Holds I σ

/-- The method with the termination checks verifies. -/
def Verifies (op : Op) (cs : List Chk) : Prop :=
  ∀ σ : Nat → V, (∀ q ∈ typed op, I.ty q.2 (σ (op.sil q.1))) → ∀ c ∈ cs, c.Holds I σ

/-- A Silver assertion holds with a resource. -/
def SatS : (Nat → V) → H → SB → Prop
  | σ, h, .acc o args => h = A.chunk o (evSL I σ args)
  | σ, h, .pure s => I.truth (evS I σ s) ∧ h = A.emp
  | σ, h, .eq l r => evS I σ l = evS I σ r ∧ h = A.emp
  | σ, h, .and a b => ∃ h1 h2, h = A.add h1 h2 ∧ SatS σ h1 a ∧ SatS σ h2 b
  | σ, h, .implies s b => (I.truth (evS I σ s) → SatS σ h b) ∧ (¬ I.truth (evS I σ s) → h = A.emp)
  | σ, h, .ife s a b =>
      (I.truth (evS I σ s) → SatS σ h a) ∧ (¬ I.truth (evS I σ s) → SatS σ h b)
  | σ, h, .all t t' x b => ∃ f : V → H, h = A.big f ∧
      ∀ v, (I.ty t v ∧ I.ty t' v → SatS (upd σ x v) (f v) b) ∧ (¬ (I.ty t v ∧ I.ty t' v) → f v = A.emp)

mutual
/-- The variables of a Silver expression. -/
def S.fv : S → List Nat
  | .var x => [x]
  | .bool _ => []
  | .const _ => []
  | .bin _ l r => l.fv ++ r.fv
  | .get _ _ args => S.fvL args
/-- The variables of Silver expressions. -/
def S.fvL : List S → List Nat
  | [] => []
  | s :: ss => s.fv ++ S.fvL ss
end

/-! ### Well-formed bodies -/

/-- The names bound in a body. -/
def binders : B → List Nat
  | .call _ _ _ => []
  | .pure _ => []
  | .and l r => binders l ++ binders r
  | .implies _ b => binders b
  | .ife _ a b => binders a ++ binders b
  | .all _ x b => x :: binders b
  | .ex xs b => xs ++ binders b

/-- The results of a call: names that have a definition (`G`) or that this call defines (from
`U`). -/
def scRes (U : List Nat) (o : Nat) (args : List E) :
    List Nat → List Nat → List Nat → Option (List Nat × List Def)
  | r :: rs, x :: xs, G =>
    if x ∈ G then scRes U o args rs xs G
    else if x ∈ U then
      (scRes U o args rs xs (x :: G)).map fun q => (q.1, ⟨x, o, args, r⟩ :: q.2)
    else none
  | [], [], G => some (G, [])
  | _, _, _ => none

/-- Bodies that use names in the scope of their binders and after their definitions, and in which
every existential is defined by an operation that is not below a condition or an `IOForall` inside
the scope of the existential.  `G` are the defined names, `U` those that can be defined here; the
result consists of the defined names afterwards and of the definitions. -/
def scope (P : Prog) : B → List Nat → List Nat → Option (List Nat × List Def)
  | .call o args rs, G, U =>
    match P o with
    | none => none
    | some op =>
      if args.length = op.params.length ∧ ∀ e ∈ args, ∀ x ∈ e.names, x ∈ G then
        scRes U o args op.results rs G
      else none
  | .pure e, G, _ => if ∀ x ∈ e.names, x ∈ G then some (G, []) else none
  | .and l r, G, U =>
    match scope P l G U with
    | none => none
    | some (G, ds) =>
      match scope P r G U with
      | none => none
      | some (G', ds') => some (G', ds ++ ds')
  | .implies e b, G, _ =>
    if ∀ x ∈ e.names, x ∈ G then (scope P b G []).map fun q => (G, q.2) else none
  | .ife e a b, G, _ =>
    if ∀ x ∈ e.names, x ∈ G then
      match scope P a G [], scope P b G [] with
      | some qa, some qb => some (G, qa.2 ++ qb.2)
      | _, _ => none
    else none
  | .all _ x b, G, _ => (scope P b (x :: G) []).map fun q => (G, q.2)
  | .ex xs b, G, _ =>
    match scope P b G xs with
    | none => none
    | some (G', ds) => if ∀ x ∈ xs, x ∈ G' then some (G, ds) else none

/-- An operation with a well-formed body, in which no binder hides another name. -/
def WellScoped (P : Prog) (op : Op) (b : B) : Prop :=
  (op.params.map (·.1) ++ op.results ++ binders b).Nodup ∧
    ∃ q, scope P b (op.params.map (·.1) ++ op.results) [] = some q

/-- The names of parameters and bound variables of an operation. -/
def Op.names (op : Op) : List Nat :=
  op.params.map (·.1) ++ (match op.body with | none => [] | some b => binders b)

/-- The program is accepted: every operation passes the analysis, its termination check verifies,
different names have different Silver names, parameters are distinct (Python), calls have the
types of the parameters (mypy) and every type has a value. -/
structure Accepted (P : Prog) : Prop where
  verifies : ∀ o op, P o = some op → ∃ cs, checksOf P op = some cs ∧ Verifies I op cs
  fresh : ∀ o op, P o = some op → ∀ x ∈ op.names, ∀ y ∈ op.names, op.sil x = op.sil y → x = y
  params : ∀ o op, P o = some op → (op.params.map (·.1)).Nodup
  calls : ∀ p c, Typed I P p → Expands I P p c → Typed I P c
  inhabited : ∀ t, ∃ v, I.ty t v

/-- Silver names when operation `op` with body `b` is opened with `args`: those of different names of
the operation are different (`op.sil`), as are those of the opened variables (`al`), and both do
not occur in the arguments. -/
structure FreshNames (op : Op) (b : B) (al : Nat → Nat) (args : List S) : Prop where
  own : ∀ x ∈ op.names, ∀ y ∈ op.names, op.sil x = op.sil y → x = y
  opened : ∀ x ∈ op.results ++ exis b, ∀ y ∈ op.results ++ exis b, al x = al y → x = y
  inArgs : ∀ x ∈ op.results ++ exis b, al x ∉ S.fvL args
  quantified : ∀ x ∈ op.results ++ exis b, ∀ u ∈ unis b, al x ≠ op.sil u.1
  outside : ∀ u ∈ unis b, op.sil u.1 ∉ S.fvL args

end Nagini.IO
