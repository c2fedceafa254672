import Verif.Model.TestCheck
import Mathlib.Data.Multiset.AddSub

/-!
What a test should accept: errors and annotations as multisets of (id, line, vias).
-/
namespace Nagini.TestCheck

variable {I B L : Type}

/-- The line of a label: that of its last definition. -/
def LabelLine (labels : List (L × Nat)) (n : L) (line : Nat) : Prop :=
  ∃ l1 l2, labels = l1 ++ (n, line) :: l2 ∧ ∀ p ∈ l2, p.1 ≠ n

/-- What an annotation says: an error id, a line and the lines of its labels. -/
def Says (labels : List (L × Nat)) (a : Ann I B L) (k : I × Nat × List Nat) : Prop :=
  k.1 = a.id ∧ k.2.1 = a.line ∧ List.Forall₂ (LabelLine labels) a.labels k.2.2

/-- Whether an annotation counts for a back-end. -/
def Applies (b : Backend B) (a : Ann I B L) : Prop := a.backend = b ∨ a.backend = .any

/-- `ks` lists what the annotations that apply say. -/
inductive AllSay (b : Backend B) (labels : List (L × Nat)) :
    List (Ann I B L) → List (I × Nat × List Nat) → Prop
  | nil : AllSay b labels [] []
  | skip {a l ks} : ¬ Applies b a → AllSay b labels l ks → AllSay b labels (a :: l) ks
  | say {a l k ks} : Applies b a → Says labels a k → AllSay b labels l ks → AllSay b labels (a :: l) (k :: ks)

/-- What an error is. -/
def errKey (norm : I → I) (e : Err I) : I × Nat × List Nat := (norm e.id, e.line, e.vias)

/-- Reported errors agree with the annotations: expected ones without missing ones, and unexpected
ones. -/
def Agree [DecidableEq I] (norm : I → I) (b : Backend B) (f : File I B L) (errs : List (Err I)) : Prop :=
  ∃ e u m, AllSay b f.labels f.expected e ∧ AllSay b f.labels f.unexpected u ∧
    AllSay b f.labels f.missing m ∧
    (m : Multiset (I × Nat × List Nat)) ≤ e ∧
    ((errs.map (errKey norm) : List (I × Nat × List Nat)) : Multiset (I × Nat × List Nat)) =
      (e : Multiset (I × Nat × List Nat)) - (m : Multiset (I × Nat × List Nat)) + (u : Multiset (I × Nat × List Nat))

end Nagini.TestCheck
