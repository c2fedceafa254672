import Verif.Model.Comp

/-!
What comprehensions build in Python.  `E` is `is` or `==`, which sets and dicts compare with.
-/
namespace Nagini.Comp

/-- What iteration over the source yields. -/
def elems : Src → List Val
  | .list xs | .tuple xs | .pseq xs | .set xs | .pset xs | .pmultiset xs => xs
  | .bytes ns | .bytearray ns | .pbyteseq ns | .range ns => ns.map .int
  | .dict kvs => kvs.map fun kv => kv.1

/-- The `if` clauses, from left to right; `none` is an exception. -/
def passes : List Cond → Val → Option Bool
  | [], _ => some true
  | c :: cs, x =>
    match c x with
    | some true => passes cs x
    | some false => some false
    | none => none

/-- The values of an expression for the elements that pass. -/
def comp {β : Type} (f : Val → Option β) (ifs : List Cond) : List Val → Option (List β)
  | [] => some []
  | x :: xs =>
    match passes ifs x with
    | some true => (f x).bind fun y => (comp f ifs xs).map fun ys => y :: ys
    | some false => comp f ifs xs
    | none => none

/-- Adds a value to a set. -/
def addSet (E : Val → Val → Bool) (S : List Val) (y : Val) : List Val :=
  if S.any fun z => E z y then S else S ++ [y]

/-- Sets a key of a dict; an equal key stays. -/
def setKey (E : Val → Val → Bool) : List (Val × Val) → Val → Val → List (Val × Val)
  | [], a, v => [(a, v)]
  | (b, w) :: d, a, v => if E b a then (b, v) :: d else (b, w) :: setKey E d a v

/-- Set comprehension. -/
def setComp (E : Val → Val → Bool) (f : Fn) (ifs : List Cond) (xs : List Val) : Option (List Val) :=
  (comp f ifs xs).map fun ys => ys.foldl (addSet E) []

/-- Key and value of an element; the key is evaluated first. -/
def pair (k v : Fn) (x : Val) : Option (Val × Val) :=
  match k x with
  | none => none
  | some a => match v x with
    | none => none
    | some b => some (a, b)

/-- Dict comprehension. -/
def dictComp (E : Val → Val → Bool) (k v : Fn) (ifs : List Cond) (xs : List Val) : Option (List (Val × Val)) :=
  (comp (pair k v) ifs xs).map fun ps => ps.foldl (fun d p => setKey E d p.1 p.2) []

/-- A dict as a map of references. -/
def asMap (d : List (Val × Val)) (a : Val) : Option Val := (d.find? fun p => p.1 = a).map fun p => p.2

/-- Values of the expression for elements of the source are equal only if they are identical. -/
def Identity (E : Val → Val → Bool) (f : Fn) (xs : List Val) : Prop :=
  ∀ x ∈ xs, ∀ y ∈ xs, ∀ a b, f x = some a → f y = some b → (E a b = true ↔ a = b)

/-- The state after the comprehension has built its result. -/
def built (src : Src) (seq : List Val) (set : Val → Prop) (map : Val → Option Val) : World :=
  { src := src, typ := true, perm := true, seq := seq, set := set, map := map }

end Nagini.Comp
