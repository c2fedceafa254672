import Verif.Spec.ImportNames

/-!
Model of the names that a module knows to be defined after imports: the domain of names, the statements that
are generated for imports, and the checks for (qualified) names.

Simplified: the statements of imported modules come before those of the importing one (C39); modules in IGNORED_IMPORTS are left
out; triggers are ignored; there are no names that start with an underscore (which `from m import *` leaves out, and
which mypy knows).
-/
namespace Nagini.ImportNames

variable {N : Type}

/-- The axioms of the domain `_Name`.  Models resources/name_domain.sil:26-60. -/
structure Axioms (D : Dom N) : Prop where
  decompose_single : ∀ i, D.value (D.single i) = i
  compose_single : ∀ n, D.isSingle n = true → n = D.single (D.value n)
  type_of_single : ∀ i, D.nameType (D.single i) = true
  decompose_combined : ∀ a b, D.prefixOf (D.combine a b) = a ∧ D.nameOf (D.combine a b) = b
  compose_combined : ∀ n, D.isCombined n = true → n = D.combine (D.prefixOf n) (D.nameOf n)
  type_of_composed : ∀ a b, D.nameType (D.combine a b) = false
  type_is_single : ∀ n, D.nameType n = true ↔ D.isSingle n = true
  type_is_combined : ∀ n, D.nameType n = false ↔ D.isCombined n = true

/-- `combined_name`: the parts of the imported name are combined with `n`, the last one first.  Models
translators/statement.py:313-320 and translators/common.py:352-372. -/
def combineAll (D : Dom N) (parts : Path) (n : N) : N :=
  parts.foldr (fun x acc => D.combine (D.single x) acc) n

/-- `extract_identifiers`: the encoding of a (qualified) name.  Models translators/common.py:388-398. -/
def enc (D : Dom N) : Path → N
  | [] => D.single 0
  | [x] => D.single x
  | x :: y :: p => D.combine (D.single x) (enc D (y :: p))

/-- What has to hold so that the generated statements and what follows them (`K`, given the final set of names) verify,
where `V` is the set of names that are defined in the module and `M m` the one of module `m`.

* `define`: translators/common.py:308-333;
* `imp`: translators/statement.py:303-334, where `S` is the variable `new_set`, about which nothing else is known;
* `from`: translators/statement.py:247-263;
* `all`: translators/statement.py:242-246;
* `use`: translators/common.py:400-418, 341-350. -/
def Verified (D : Dom N) (M : Nat → N → Prop) (K : (N → Prop) → Prop) : (N → Prop) → List Stmt → Prop
  | V, [] => K V
  | V, .define x :: ss => Verified D M K (fun n => V n ∨ n = D.single x) ss
  | V, .imp p m :: ss =>
      ∀ S : N → Prop, (∀ n, M m n ↔ S (combineAll D p n)) → Verified D M K (fun n => V n ∨ S n) ss
  | V, .from m x y :: ss => M m (D.single x) ∧ Verified D M K (fun n => V n ∨ n = D.single y) ss
  | V, .all m :: ss => Verified D M K (fun n => V n ∨ M m n) ss
  | V, .use x p :: ss => V (enc D (x :: p)) ∧ Verified D M K V ss

/-- The main method: the statements of the modules one after the other, where each module starts without defined names.
Models translators/method.py:907-945. -/
def VerifiedAll (D : Dom N) : (Nat → N → Prop) → Program → Prop
  | _, [] => True
  | M, (m, ss) :: ms => Verified D M (fun V => VerifiedAll D (update M m V) ms) (fun _ => False) ss

end Nagini.ImportNames
