import Verif.Spec.Exsures
import Verif.Model.Classes

/-!
Model of the translation of exceptional postconditions (translators/method.py), of their use in
method bodies and at calls, and of the check of overriding methods (translators/program.py) with
respect to exceptions.  The assertions themselves are arbitrary relations between the states before
and after the call, the result variable is part of the state.  The error variable `_err` is `none` if
it is null.
Not modelled: comparison of parameters and default values in overriding methods (program.py:379-397),
inlined methods, obligations in postconditions.
-/
set_option linter.unusedVariables false
namespace Nagini.Exsures

open Classes

variable {S E : Type} (H : Hier) (cls : E → Nat)

/-- A translated assertion: over the state before the call, `_err`, and the state after it.
Models the list `posts`, translators/method.py:138 and 175. -/
abbrev Post (S E : Type) := S → Option E → S → Prop

/-- One `Exsures` statement is added to the dictionary. Models analyzer.py:1240-1245. -/
def declare : List (Nat × List (Post S E)) → Nat × Post S E → List (Nat × List (Post S E))
  | [], x => [(x.1, [x.2])]
  | d :: ds, x => if d.1 = x.1 then (d.1, d.2 ++ [x.2]) :: ds else d :: declare ds x

/-- `declared_exceptions`.  Models analyzer.py:1240-1245 and lib/program_nodes.py:1081. -/
def declared (m : Method S E) : List (Nat × List (Post S E)) := m.exsures.foldl declare []

/-- `if method.declared_exceptions`.  Models translators/method.py:159. -/
def declares (m : Method S E) : Bool := !(declared m).isEmpty

/-- `var_type_check(ERROR_NAME, exception)`: false for null.  Models translators/method.py:186-189. -/
def hasType (d : Nat) (err : Option E) : Prop :=
  match err with
  | none => False
  | some e => issubtype H (cls e) d = true

/-- `_translate_posts`: `Ensures` is only promised if there is no error; the condition is omitted in
methods that do not declare exceptions.  Models translators/method.py:131-166. -/
def translatePosts (m : Method S E) : List (Post S E) :=
  m.ensures.map fun p =>
    if declares m then (fun s err s' => err = none → p s s') else (fun s _ s' => p s s')

/-- The disjunction of the type conditions.  Models translators/method.py:207-214. -/
def typeCond (err : Option E) : List Nat → Option Prop
  | [] => none
  | d :: ds => some (ds.foldl (fun c d' => c ∨ hasType H cls d' err) (hasType H cls d err))

/-- The assertion about the classes of exceptions. Models translators/method.py:215-218. -/
def typePost (m : Method S E) : List (Post S E) :=
  if declares m then
    [fun s err s' => err ≠ none → (typeCond H cls err ((declared m).map (·.1))).getD False]
  else []

/-- `_translate_exceptional_posts`.  Models translators/method.py:168-221. -/
def exceptionalPosts (m : Method S E) : List (Post S E) :=
  (declared m).flatMap (fun d => d.2.map fun p =>
    (fun s err s' => (err ≠ none ∧ hasType H cls d.1 err) → p s err s')) ++ typePost H cls m

/-- `_create_single_result_post`.  Models translators/method.py:392-407. -/
def resultPost (m : Method S E) : List (Post S E) :=
  [if declares m then (fun _ err s' => err = none → m.resultOk s') else (fun _ _ s' => m.resultOk s')]

/-- `extract_contract`, the postconditions.  Models translators/method.py:360-381. -/
def posts (m : Method S E) : List (Post S E) :=
  resultPost m ++ (translatePosts m ++ exceptionalPosts H cls m)

/-- All postconditions hold (assertions are conjoined).  Models translators/method.py:360-381. -/
def allPosts (m : Method S E) (s : S) (err : Option E) (s' : S) : Prop :=
  ∀ p ∈ posts H cls m, p s err s'

/-- The translated body verifies.  `exec` are the executions of the Python body.  `_err` is null
initially (translators/method.py:602-605); an exception that is not caught is assigned to `_err` if
the method declares exceptions, otherwise `false` is exhaled.
Models translators/method.py:558-624 and translators/expression.py:818-835. -/
def verified (m : Method S E) (exec : S → Option E → S → Prop) : Prop :=
  ∀ s o s', m.pre s → exec s o s' →
    match o with
    | none => allPosts H cls m s none s'
    | some e => if declares m then allPosts H cls m s (some e) s' else False

/-- What a caller has to consider: with declared exceptions the error variable is a target of the
call and a non-null value is raised; otherwise the call returns normally.
Models translators/call.py:704-736. -/
def callOutcome (m : Method S E) (s : S) (o : Option E) (s' : S) : Prop :=
  if declares m then allPosts H cls m s o s' else o = none ∧ allPosts H cls m s none s'

/-- The part of `_check_override_validity` about exceptions.
Models translators/program.py:423-431. -/
def overrideValid (sub sup : Method S E) : Bool :=
  (declared sub).all fun d => (declared sup).any fun d' => issubtype H d.1 d'.1

/-- The check method verifies: it has the contract of the overridden method and calls the overriding
one.  `_err` is a target of the call if the *overriding* method declares exceptions; otherwise it is
not assigned, so if it is a result, because the *overridden* method declares exceptions, it has an
arbitrary value.  Models translators/program.py:283-351 and 353-413. -/
def overrideCheck (recv : S → Nat) (c : Nat) (sub sup : Method S E) : Prop :=
  ∀ s, Anc H (recv s) c → sup.pre s → sub.pre s ∧
    if declares sub then ∀ err s', allPosts H cls sub s err s' → allPosts H cls sup s err s'
    else ∀ s', allPosts H cls sub s none s' → ∀ err, allPosts H cls sup s err s'

/-- The overriding method is accepted.  Models translators/program.py:283-351 and 415-431. -/
def overrideAccepted (recv : S → Nat) (c : Nat) (sub sup : Method S E) : Prop :=
  overrideValid H sub sup = true ∧ overrideCheck H cls recv c sub sup

end Nagini.Exsures
