import Mathlib.Data.List.Count

/-!
Model of how test results are compared with annotations (tests.py).

Annotation objects have identity: sets of them are lists without regard to order, and the order in
which a set is iterated is given by an arbitrary function.  A failing assertion or exception is `none`
or `false`.  The regular expression that parses annotations is left out.
-/
namespace Nagini.TestCheck

/-- Back-ends: a name or `ANY`.  Models tests.py:63-65, 244-253. -/
inductive Backend (B : Type)
  | any
  | named (b : B)
deriving DecidableEq

/-- An annotation, with the names of its labels.  Models tests.py:215-236, 286-310. -/
structure Ann (I B L : Type) where
  id : I
  line : Nat
  labels : List L
  backend : Backend B

/-- An annotation with resolved labels.  Models tests.py:275-283. -/
structure Resolved (I B : Type) where
  id : I
  line : Nat
  vias : List Nat
  backend : Backend B

/-- A reported error.  Models tests.py:90-113. -/
structure Err (I : Type) where
  id : I
  line : Nat
  vias : List Nat

/-- The annotations of a file, by kind, and its labels with their lines.
Models `_annotations`, tests.py:459-465. -/
structure File (I B L : Type) where
  expected : List (Ann I B L)
  unexpected : List (Ann I B L)
  missing : List (Ann I B L)
  labels : List (L × Nat)

variable {I B L R α : Type} [DecidableEq I] [DecidableEq B] [DecidableEq L] [DecidableEq R]

/-- Only annotations for the back-end or for any are kept.  Models tests.py:488-489. -/
def collect (b : Backend B) (l : List (Ann I B L)) : List (Ann I B L) :=
  l.filter fun a => a.backend = b ∨ a.backend = .any

/-- The dictionary of labels: later entries overwrite earlier ones.  Models tests.py:509-517. -/
def lookup (labels : List (L × Nat)) (n : L) : Option Nat :=
  (labels.reverse.find? fun p => p.1 = n).map (·.2)

/-- Models `resolve_labels` and `get_vias`, tests.py:275-283 (`none`: `KeyError`). -/
def resolve (labels : List (L × Nat)) (a : Ann I B L) : Option (Resolved I B) :=
  match a.labels.mapM (lookup labels) with
  | some v => some ⟨a.id, a.line, v, a.backend⟩
  | none => none

/-- Models `ErrorMatchingAnnotationMixIn.match`, tests.py:262-266; `norm` is the replacement in the
id. -/
def matchErr (norm : I → I) (a : Resolved I B) (e : Err I) : Bool :=
  a.id = norm e.id ∧ a.line = e.line ∧ a.vias = e.vias

/-- Models `MissingOutputAnnotation.match`, tests.py:373-389. -/
def matchMissing (m e : Resolved I B) : Bool :=
  m.line = e.line ∧ m.id = e.id ∧ m.vias = e.vias ∧
    (m.backend = e.backend ∨ m.backend = .any ∨ e.backend = .any)

/-- The list without its first element that satisfies `p`.  Models the inner loops with `remove` and
`break`, tests.py:498-501, 524-527. -/
def removeFirst (p : α → Bool) : List α → Option (List α)
  | [] => none
  | a :: l => if p a then some l else (removeFirst p l).map (a :: ·)

/-- The loop over expected annotations: the remaining missing annotations and the annotations kept.
`ord` gives the order of each iteration.  Models tests.py:497-503. -/
def silence (ord : Nat → List (Resolved I B) → List (Resolved I B)) :
    List (Resolved I B) → List (Resolved I B) → List (Resolved I B) × List (Resolved I B)
  | [], missing => (missing, [])
  | e :: es, missing =>
    match removeFirst (fun m => matchMissing m e) (ord es.length missing) with
    | some missing' => silence ord es missing'
    | none =>
      let r := silence ord es missing
      (r.1, e :: r.2)

/-- Models `_get_expected_output`, tests.py:491-507. -/
def expectedOutput (ord : Nat → List (Resolved I B) → List (Resolved I B))
    (expected missing unexpected : List (Resolved I B)) : Option (List (Resolved I B)) :=
  let r := silence ord expected missing
  if r.1.isEmpty then some (r.2 ++ unexpected) else none

/-- The loop over errors: the remaining annotations and the unexpected errors.
Models tests.py:523-529. -/
def consume (norm : I → I) (ord : Nat → List (Resolved I B) → List (Resolved I B)) :
    List (Err I) → List (Resolved I B) → List (Resolved I B) × List (Err I)
  | [], anns => (anns, [])
  | e :: es, anns =>
    match removeFirst (fun a => matchErr norm a e) (ord es.length anns) with
    | some anns' => consume norm ord es anns'
    | none =>
      let r := consume norm ord es anns
      (r.1, e :: r.2)

/-- Models `check_errors`, tests.py:519-536. -/
def checkErrors (norm : I → I) (ord : Nat → List (Resolved I B) → List (Resolved I B))
    (anns : List (Resolved I B)) (errs : List (Err I)) : Bool :=
  let r := consume norm ord errs anns
  r.2.isEmpty && r.1.isEmpty

/-- A whole test.  Models tests.py:488-536, 571-580. -/
def passes (norm : I → I) (ord ord' : Nat → List (Resolved I B) → List (Resolved I B)) (b : Backend B)
    (f : File I B L) (errs : List (Err I)) : Bool :=
  match (collect b f.expected).mapM (resolve f.labels), (collect b f.unexpected).mapM (resolve f.labels),
      (collect b f.missing).mapM (resolve f.labels) with
  | some e, some u, some m =>
    match expectedOutput ord e m u with
    | some anns => checkErrors norm ord' anns errs
    | none => false
  | _, _, _ => false

/-- `-(-n // 2)`.  Models tests.py:635. -/
def half (n : Nat) : Int := -(Int.fdiv (-(n : Int)) 2)

/-- The loop that keeps errors while their count is positive.  Models tests.py:637-640. -/
def keep (repr : α → R) : List α → (R → Int) → List α
  | [], _ => []
  | e :: es, counts =>
    if counts (repr e) > 0 then
      e :: keep repr es (fun r => if r = repr e then counts r - 1 else counts r)
    else keep repr es counts

/-- Models the removal of duplicates, tests.py:631-641. -/
def dedup (repr : α → R) (errs : List α) : List α :=
  keep repr errs fun r => half ((errs.map repr).count r)

end Nagini.TestCheck
