import Verif.Model.Adt
/-!
The meaning of the generated functions and axioms in an arbitrary interpretation, and the Python meaning of the
expressions.
-/
namespace Nagini.Adt

/-- Interpretations: a universe with the elements of each Viper type, functions and predicates. -/
structure Interp where
  U : Type
  dom : Srt → U → Prop
  fn : Sym → List U → U
  pred : Sym → List U → Prop
  int : Int → U
  bool : Bool → U
  null : U

mutual
def Interp.tm (I : Interp) (ρ : V → I.U) : Tm → I.U
  | .var x => ρ x
  | .int n => I.int n
  | .bool b => I.bool b
  | .null => I.null
  | .app f ts => I.fn f (I.tms ρ ts)

def Interp.tms (I : Interp) (ρ : V → I.U) : List Tm → List I.U
  | [] => []
  | t :: ts => I.tm ρ t :: I.tms ρ ts
end

def upd {α : Type} (ρ : V → α) (x : V) (v : α) : V → α := fun y => if y = x then v else ρ y

def Interp.holds (I : Interp) (ρ : V → I.U) : Fm → Prop
  | .tt => True
  | .eq s t => I.tm ρ s = I.tm ρ t
  | .atom f ts => I.pred f (I.tms ρ ts)
  | .eqv φ ψ => (I.holds ρ φ ↔ I.holds ρ ψ)
  | .and φ ψ => I.holds ρ φ ∧ I.holds ρ ψ
  | .or φ ψ => I.holds ρ φ ∨ I.holds ρ ψ
  | .imp φ ψ => I.holds ρ φ → I.holds ρ ψ
  | .all x s φ => ∀ v, I.dom s v → I.holds (upd ρ x v) φ

/-- The arguments have the given types. -/
def Interp.sorted (I : Interp) : List Srt → List I.U → Prop
  | [], [] => True
  | s :: ss, v :: vs => I.dom s v ∧ I.sorted ss vs
  | _, _ => False

/-- What every Viper state gives besides the domains of the ADTs: integers, Booleans, references with types, and
the order on class types, which is the nominal one: `le c d` tells that `c` is `d` or a subclass of `d`; a type is
not below two classes of which neither is a subclass of the other.  Only `null` has the type with number `none`. -/
structure Standard (I : Interp) (le : Nat → Nat → Prop) (none : Nat) : Prop where
  int_dom : ∀ u, I.dom .int u ↔ ∃ n, u = I.int n
  int_inj : ∀ m n, I.int m = I.int n → m = n
  bool_dom : ∀ u, I.dom .bool u ↔ ∃ b, u = I.bool b
  bool_inj : ∀ a b, I.bool a = I.bool b → a = b
  null_ref : I.dom .ref I.null
  typeof_dom : ∀ r, I.dom .ref r → I.dom .ty (I.fn .typeof [r])
  pytype_dom : ∀ c, I.dom .ty (I.fn (.pytype c) [])
  pytype_inj : ∀ c d, I.fn (.pytype c) [] = I.fn (.pytype d) [] → c = d
  subtype : ∀ c d, I.pred .issubtype [I.fn (.pytype c) [], I.fn (.pytype d) []] ↔ le c d
  null_type : ∀ r, I.dom .ref r → (I.pred .issubtype [I.fn .typeof [r], I.fn (.pytype none) []] ↔ r = I.null)
  excl : ∀ t c d, I.dom .ty t → I.pred .issubtype [t, I.fn (.pytype c) []] →
    I.pred .issubtype [t, I.fn (.pytype d) []] → le c d ∨ le d c
  trans : ∀ t c d, I.dom .ty t → I.pred .issubtype [t, I.fn (.pytype c) []] → le c d →
    I.pred .issubtype [t, I.fn (.pytype d) []]

/-- The functions of an ADT return values of the declared types, and unique functions differ. -/
structure Typed (I : Interp) (A : Cls) : Prop where
  inhabited : ∃ v, I.dom (.adt A.id) v
  result : ∀ f ss s u, (f, ss, s, u) ∈ functions A → s ≠ .bool → ∀ vs, I.sorted ss vs → I.dom s (I.fn f vs)
  unique : (functions A).Pairwise fun a b => a.2.2.2 = true → b.2.2.2 = true → I.fn a.1 [] ≠ I.fn b.1 []
  box : ∀ v, I.dom (.adt A.id) v → I.dom .ref (I.fn (.box A.id) [v])
  unbox : ∀ r, I.dom .ref r → I.dom (.adt A.id) (I.fn (.unbox A.id) [r])

/-- The axioms hold and the boxing functions satisfy their contracts: the postcondition holds for arguments that
satisfy the precondition. -/
structure Sat (I : Interp) (A : Cls) : Prop where
  axioms : ∀ φ ∈ axioms A, ∀ ρ, I.holds ρ φ
  box : ∀ v, I.dom (.adt A.id) v → ∀ φ ∈ boxPost A, ∀ ρ,
    I.holds (upd (upd ρ .obj v) .result (I.fn (.box A.id) [v])) φ
  unbox : ∀ r, I.dom .ref r → ∀ ρ, I.holds (upd ρ .ref r) (unboxPre A) →
    I.holds (upd (upd ρ .ref r) .result (I.fn (.unbox A.id) [r])) (unboxPost A)

/-- The interpretation satisfies everything that is known about the ADTs of the program. -/
def Interp.Models (I : Interp) (As : List Cls) (le : Nat → Nat → Prop) (none : Nat) : Prop :=
  Standard I le none ∧ ∀ A ∈ As, Typed I A ∧ Sat I A

/-- The class hierarchy: every ADT has constructors; different classes have different numbers, constructors of
the same ADT have different names, as have fields of the same constructor; the subclasses of the ADT and its
constructors are the classes in the hierarchy below them; a class is called like the ADT only if it is the ADT.
`NoneType` has no subclasses, and its superclasses are superclasses of all classes; the superclasses of a class
form a chain. -/
structure Hier (As : List Cls) (le : Nat → Nat → Prop) (none : Nat) : Prop where
  cons : ∀ A ∈ As, A.cons ≠ []
  ids : ((As.flatMap Cls.all).map Cls.id).Nodup
  names : ∀ A ∈ As, (A.cons.map Cls.name).Nodup
  fields : ∀ A ∈ As, ∀ c ∈ A.cons, (c.fields.map (·.1)).Nodup
  same : ∀ A ∈ As, ∀ c ∈ A.cons, ∀ f ∈ c.fields, sameName A f.2 = isAdt A f.2
  none_out : none ∉ (As.flatMap Cls.all).map Cls.id
  none_min : ∀ d, le d none ↔ d = none
  none_top : ∀ d, le none d → d = none ∨ ∀ c, le c d
  trans : ∀ b c d, le b c → le c d → le b d
  chain : ∀ b c d, le b c → le b d → le c d ∨ le d c
  below : ∀ A ∈ As, ∀ c ∈ A.all, ∀ d, le d c.id ↔ d ∈ c.all.map Cls.id

/-! ### Python -/

/-- Python values of the types that occur here: objects have a class, described by the ADT and the constructor,
and a tuple of values. -/
inductive PVal
  | int (n : Int)
  | bool (b : Bool)
  | obj (A c : Cls) (vs : List PVal)

mutual
/-- Equality of Python values: named tuples are compared as tuples, so the class does not matter. -/
def pyEq : PVal → PVal → Prop
  | .int m, .int n => m = n
  | .bool a, .bool b => a = b
  | .int m, .bool b => m = if b then 1 else 0
  | .bool a, .int n => n = if a then 1 else 0
  | .obj _ _ vs, .obj _ _ vs' => pyEqs vs vs'
  | _, _ => False

def pyEqs : List PVal → List PVal → Prop
  | [], [] => True
  | v :: vs, v' :: vs' => pyEq v v' ∧ pyEqs vs vs'
  | _, _ => False
end

mutual
/-- The two values are objects of the same class wherever they are objects. -/
def sameCls : PVal → PVal → Prop
  | .obj _ c vs, .obj _ c' vs' => c.id = c'.id ∧ sameClss vs vs'
  | _, _ => True

def sameClss : List PVal → List PVal → Prop
  | v :: vs, v' :: vs' => sameCls v v' ∧ sameClss vs vs'
  | _, _ => True
end

mutual
/-- Evaluation of expressions; `env` gives the values of variables. -/
def eval (env : V → Option PVal) : Ex → Option PVal
  | .int n => some (.int n)
  | .bool b => some (.bool b)
  | .var x => env x
  | .new A c es => (evals env es).map (.obj A c)
  | .field _ _ e f => match eval env e with
    | some (.obj _ c vs) => ((c.fields.map (·.1)).zip vs).lookup f
    | _ => none

def evals (env : V → Option PVal) : List Ex → Option (List PVal)
  | [] => some []
  | e :: es => match eval env e, evals env es with
    | some v, some vs => some (v :: vs)
    | _, _ => none
end

mutual
/-- Values that belong to a type. -/
def HasTy (As : List Cls) (le : Nat → Nat → Prop) : FTy → PVal → Prop
  | .int, .int _ => True
  | .bool, .bool _ => True
  | .cls i _, .obj A c vs => A ∈ As ∧ c ∈ A.cons ∧ le c.id i ∧ HasTys As le c.fields vs
  | _, _ => False

def HasTys (As : List Cls) (le : Nat → Nat → Prop) : List (String × FTy) → List PVal → Prop
  | [], [] => True
  | f :: fs, v :: vs => HasTy As le f.2 v ∧ HasTys As le fs vs
  | _, _ => False
end

mutual
/-- The types of expressions.  The fields of a constructor can be accessed if the static type is the constructor
and if the constructor has no subclasses. -/
inductive ETy (As : List Cls) (le : Nat → Nat → Prop) (Γ : V → Option FTy) : Ex → FTy → Prop
  | int (n : Int) : ETy As le Γ (.int n) .int
  | bool (b : Bool) : ETy As le Γ (.bool b) .bool
  | var {x t} : Γ x = some t → ETy As le Γ (.var x) t
  | new {A c es n} : A ∈ As → c ∈ A.cons → ETys As le Γ c.fields es → ETy As le Γ (.new A c es) (.cls c.id n)
  | field {A c e f n t} : A ∈ As → c ∈ A.cons → c.all = [c] → ETy As le Γ e (.cls c.id n) →
      c.fields.lookup f = some t → ETy As le Γ (.field A c e f) t
  | sub {e i n j m} : ETy As le Γ e (.cls i n) → (∀ d, le d i → le d j) → ETy As le Γ e (.cls j m)

inductive ETys (As : List Cls) (le : Nat → Nat → Prop) (Γ : V → Option FTy) : List (String × FTy) → List Ex → Prop
  | nil : ETys As le Γ [] []
  | cons {f fs e es} : ETy As le Γ e f.2 → ETys As le Γ fs es → ETys As le Γ (f :: fs) (e :: es)
end

mutual
/-- The element of the interpretation that stands for a Python value. -/
def Interp.rep (I : Interp) : PVal → I.U
  | .int n => I.int n
  | .bool b => I.bool b
  | .obj A c vs => I.fn (.box A.id) [I.fn (.cons A.id c.name) (I.reps A c.fields vs)]

/-- Values of the ADT itself are stored as elements of its domain. -/
def Interp.reps (I : Interp) (A : Cls) : List (String × FTy) → List PVal → List I.U
  | (_, .cls i _) :: fs, v :: vs =>
    (if i = A.id then I.fn (.unbox A.id) [I.rep v] else I.rep v) :: I.reps A fs vs
  | _ :: fs, v :: vs => I.rep v :: I.reps A fs vs
  | _, _ => []
end

/-- The Viper variables represent the values of the Python variables, which have the declared types. -/
def Agree (I : Interp) (As : List Cls) (le : Nat → Nat → Prop) (Γ : V → Option FTy) (env : V → Option PVal)
    (ρ : V → I.U) : Prop :=
  ∀ x t, Γ x = some t → ∃ v, env x = some v ∧ HasTy As le t v ∧ ρ x = I.rep v

/-- A class-typed field whose type does not include all classes. -/
def Restricted (As : List Cls) (le : Nat → Nat → Prop) : Prop :=
  ∃ A ∈ As, ∃ c ∈ A.cons, ∃ f ∈ c.fields, ∃ i n, f.2 = .cls i n ∧ isAdt A f.2 = false ∧ ∃ d, ¬ le d i

/-! ### Well-formed Viper declarations -/

/-- The declared types of functions. -/
inductive Sig (As : List Cls) : Sym → List Srt → Srt → Prop
  | fn {A f ss s u} : A ∈ As → (f, ss, s, u) ∈ functions A → Sig As f ss s
  | box {A} : A ∈ As → Sig As (.box A.id) [.adt A.id] .ref
  | unbox {A} : A ∈ As → Sig As (.unbox A.id) [.ref] (.adt A.id)
  | typeof : Sig As .typeof [.ref] .ty
  | issubtype : Sig As .issubtype [.ty, .ty] .bool
  | pytype (c : Nat) : Sig As (.pytype c) [] .ty

mutual
/-- Terms with their types. -/
inductive TmOk (As : List Cls) (Γ : V → Option Srt) : Tm → Srt → Prop
  | var {x s} : Γ x = some s → TmOk As Γ (.var x) s
  | int (n : Int) : TmOk As Γ (.int n) .int
  | bool (b : Bool) : TmOk As Γ (.bool b) .bool
  | null : TmOk As Γ .null .ref
  | app {f ts ss s} : Sig As f ss s → TmsOk As Γ ts ss → TmOk As Γ (.app f ts) s

inductive TmsOk (As : List Cls) (Γ : V → Option Srt) : List Tm → List Srt → Prop
  | nil : TmsOk As Γ [] []
  | cons {t ts s ss} : TmOk As Γ t s → TmsOk As Γ ts ss → TmsOk As Γ (t :: ts) (s :: ss)
end

/-- Well-typed formulas. -/
def FmOk (As : List Cls) (Γ : V → Option Srt) : Fm → Prop
  | .tt => True
  | .eq s t => ∃ a, TmOk As Γ s a ∧ TmOk As Γ t a
  | .atom f ts => ∃ ss, Sig As f ss .bool ∧ TmsOk As Γ ts ss
  | .eqv φ ψ => FmOk As Γ φ ∧ FmOk As Γ ψ
  | .and φ ψ => FmOk As Γ φ ∧ FmOk As Γ ψ
  | .or φ ψ => FmOk As Γ φ ∧ FmOk As Γ ψ
  | .imp φ ψ => FmOk As Γ φ ∧ FmOk As Γ ψ
  | .all x s φ => FmOk As (upd Γ x (some s)) φ

/-- The axioms and the contracts of the boxing functions of the ADT are well typed. -/
structure DeclsOk (As : List Cls) (A : Cls) : Prop where
  axioms : ∀ φ ∈ axioms A, FmOk As (fun _ => none) φ
  box : ∀ φ ∈ boxPost A, FmOk As (upd (upd (fun _ => none) .obj (some (.adt A.id))) .result (some .ref)) φ
  unboxPre : FmOk As (upd (fun _ => none) .ref (some .ref)) (unboxPre A)
  unboxPost : FmOk As (upd (upd (fun _ => none) .ref (some .ref)) .result (some (.adt A.id))) (unboxPost A)

/-- Different functions of the ADT have different names. -/
def NamesDistinct (A : Cls) : Prop := ((functions A).map fun x => x.1.str A.name).Nodup

end Nagini.Adt
