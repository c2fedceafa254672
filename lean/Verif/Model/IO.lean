/-!
Model of IO operations: the check of their bodies (lib/io_checkers.py), the termination checks
generated for them (translators/io_operation/definition.py, termination_check.py) and the
translation of `Open` (translators/io_operation/opener.py, result_translator.py).
-/
set_option linter.unusedVariables false
namespace Nagini.IO

/-- Pure Python expressions in bodies and properties of IO operations: names, literals and binary
operators (calls of pure functions and longer operators are left out).  Models the arguments of
translators/io_operation/common.py:35-46 and termination_check.py:174-178. -/
inductive E
  | name (x : Nat)
  | bool (b : Bool)
  | const (k : Int)
  | bin (f : Nat) (l r : E)
deriving DecidableEq

/-- Silver expressions: variables, literals, operators, and applications of the getter of result
`r` of operation `o`.  Models translators/io_operation/common.py:65-74 (getters); the name
`get__o__r` of utils.py:27-30 is kept as the pair of the two names. -/
inductive S
  | var (x : Nat)
  | bool (b : Bool)
  | const (k : Int)
  | bin (f : Nat) (l r : S)
  | get (o r : Nat) (args : List S)

/-- Bodies of IO operations.  `call o args rs` is a use of operation `o` with `args` for its
parameters and the names `rs` for its results; `all t x b` is `IOForall(t, lambda x: b)`;
`ex xs b` is `IOExists..(..)(lambda xs: b)`, at the top or nested.  Models the cases of
analyzer_io.py:233-268, 313-341 and lib/io_checkers.py:63-88. -/
inductive B
  | call (o : Nat) (args : List E) (rs : List Nat)
  | pure (e : E)
  | and (l r : B)
  | implies (e : E) (b : B)
  | ife (e : E) (a b : B)
  | all (t x : Nat) (b : B)
  | ex (xs : List Nat) (b : B)

/-- An IO operation.  Parameters are pairs of a name and a type; `sil` gives the Silver names of
parameters and bound variables in the scope of the operation.  Models
lib/program_nodes.py:1276-1306, 1324-1343. -/
structure Op where
  preset : List (Nat × Nat)
  inputs : List (Nat × Nat)
  results : List Nat
  terminates : Option E
  measure : Option E
  body : Option B
  sil : Nat → Nat

/-- `get_parameters`.  Models lib/program_nodes.py:1455-1460. -/
def Op.params (op : Op) : List (Nat × Nat) := op.preset ++ op.inputs

/-- `get_terminates`: `False` if the property is not set.  Models lib/program_nodes.py:1378-1388. -/
def Op.getTerminates (op : Op) : E :=
  match op.terminates with
  | some e => e
  | none => .bool false

/-- `get_termination_measure`: 1 if the property is not set.  Models
lib/program_nodes.py:1400-1410. -/
def Op.getMeasure (op : Op) : E :=
  match op.measure with
  | some e => e
  | none => .const 1

/-- A program: the operations by name (`get_target`); calls of other names in operation position do
not occur in the model.  Models lib/io_checkers.py:69-71, translators/io_operation/termination_check.py:61-63. -/
abbrev Prog := Nat → Option Op

/-- The name of the builtin operation `gap_io`.  Models
translators/io_operation/termination_check.py:144. -/
def gapIO : Nat := 0

/-- The names in an expression.  Models the calls of `visit_Name`, lib/io_checkers.py:55-61. -/
def E.names : E → List Nat
  | .name x => [x]
  | .bool _ => []
  | .const _ => []
  | .bin _ l r => l.names ++ r.names

/-! ### Analysis -/

/-- Properties may only mention inputs.  Models analyzer_io.py:293-312, 343-352. -/
def propOk (op : Op) : Bool :=
  (op.getTerminates.names ++ op.getMeasure.names).all fun x => op.inputs.any (·.1 == x)

/-- `_io_universals`, in the order of the visitor.  Models analyzer_io.py:313-325. -/
def unis : B → List (Nat × Nat)
  | .call _ _ _ => []
  | .pure _ => []
  | .and l r => unis l ++ unis r
  | .implies _ b => unis b
  | .ife _ a b => unis a ++ unis b
  | .all t x b => (x, t) :: unis b
  | .ex _ b => unis b

/-- `_io_existentials`, in the order of the visitor.  Models analyzer_io.py:241-260, 326-335. -/
def exis : B → List Nat
  | .call _ _ _ => []
  | .pure _ => []
  | .and l r => exis l ++ exis r
  | .implies _ b => exis b
  | .ife _ a b => exis a ++ exis b
  | .all _ _ b => exis b
  | .ex xs b => xs ++ exis b

/-! ### The check of bodies -/

/-- The information stored by `set_defining_info`: the existential, the operation, the arguments
and the result.  Models lib/program_nodes.py:1782-1791. -/
structure Def where
  x : Nat
  o : Nat
  args : List E
  r : Nat
deriving DecidableEq

/-- The state of the checker: the undefined existentials and the definitions, in defining order.
Models lib/io_checkers.py:44-49. -/
structure CSt where
  undef : List Nat
  defs : List Def

/-- `visit_Name` for all names of an expression.  Models lib/io_checkers.py:55-61. -/
def cNames (s : CSt) (e : E) : Option CSt :=
  if e.names.any (s.undef.contains ·) then none else some s

/-- The loop over the results of a call.  Models lib/io_checkers.py:74-85. -/
def cResults (allowed : Nat → Bool) (o : Nat) (args : List E) :
    List Nat → List Nat → CSt → Option CSt
  | [], _, s => some s
  | _ :: _, [], _ => none
  | x :: xs, r :: rs, s =>
    if allowed x then
      if s.undef.contains x then
        cResults allowed o args xs rs
          ⟨s.undef.filter (· != x), s.defs ++ [⟨x, o, args, r⟩]⟩
      else cResults allowed o args xs rs s
    else none

/-- `visit_Name` for the arguments of a call, after its results have been defined.  Models
lib/io_checkers.py:86-88. -/
def cArgs (s : CSt) : List E → Option CSt
  | [] => some s
  | e :: es => (cNames s e).bind fun s => cArgs s es

/-- The visitor.  `visit_Call` defines the results of an operation before it visits the arguments.
Models lib/io_checkers.py:51-88 and `generic_visit` for the other nodes. -/
def check (P : Prog) (allowed : Nat → Bool) : B → CSt → Option CSt
  | .call o args rs, s =>
    match P o with
    | none => none
    | some op =>
      (cResults allowed o args rs op.results s).bind fun s => cArgs s args
  | .pure e, s => cNames s e
  | .and l r, s => (check P allowed l s).bind (check P allowed r)
  | .implies e b, s => (cNames s e).bind (check P allowed b)
  | .ife e a b, s =>
    (cNames s e).bind fun s => (check P allowed a s).bind (check P allowed b)
  | .all _ _ b, s => check P allowed b s
  | .ex _ b, s => check P allowed b s

/-- `IOOperationBodyChecker(..).check()`: the definitions in defining order.  Models
lib/io_checkers.py:35-53, lib/program_nodes.py:1330-1337. -/
def checkBody (P : Prog) (op : Op) (b : B) : Option (List Def) :=
  (check P (fun x => (exis b).contains x || op.results.contains x) b ⟨exis b, []⟩).map (·.defs)

/-! ### Translation of expressions -/

/-- `translate_expr` for a pure expression; `look` resolves names (aliases, then `get_variable`).
Models translators/expression.py:965-999 for names. -/
def trE (look : Nat → Option S) : E → Option S
  | .name x => look x
  | .bool b => some (.bool b)
  | .const k => some (.const k)
  | .bin f l r =>
    match trE look l, trE look r with
    | some l, some r => some (.bin f l r)
    | _, _ => none

/-- `translate_args`.  Models translators/io_operation/common.py:35-46. -/
def trArgs (look : Nat → Option S) : List E → Option (List S)
  | [] => some []
  | e :: es =>
    match trE look e, trArgs look es with
    | some s, some ss => some (s :: ss)
    | _, _ => none

/-! ### Termination checks -/

/-- `get_variable` of an operation: parameters, then bound variables of `IOForall`, then
existentials, which are replaced by their defining getters `refs`.  A name always finds the first
parameter or bound variable of that name.  Models lib/program_nodes.py:1468-1487, 1813-1822. -/
def getVariable (op : Op) (us : List (Nat × Nat)) (refs : Nat → Option S) (x : Nat) : Option S :=
  if op.params.any (·.1 == x) then some (.var (op.sil x))
  else if us.any (·.1 == x) then some (.var (op.sil x))
  else refs x

/-- The loop of `_translate_defining_getters`, over the existentials in defining order.  Models
translators/io_operation/definition.py:138-141. -/
def defGetters (op : Op) (us : List (Nat × Nat)) : List Def → (Nat → Option S) →
    Option (Nat → Option S)
  | [], refs => some refs
  | d :: ds, refs =>
    match trArgs (getVariable op us refs) d.args with
    | none => none
    | some args =>
      defGetters op us ds fun y => if y = d.x then some (.get d.o d.r args) else refs y

/-- `_translate_defining_getters`: fails if an existential has no definition.  Models
translators/io_operation/definition.py:127-143, lib/program_nodes.py:1767-1776 (the assertion); of
two existentials with the same name only one gets a definition (lib/io_checkers.py:44-45). -/
def translateGetters (op : Op) (b : B) (ds : List Def) : Option (Nat → Option S) :=
  if (exis b).Nodup ∧ ∀ x ∈ exis b, x ∈ ds.map (·.x) then
    defGetters op (unis b) ds fun _ => none
  else none

/-- What a check asserts.  Models translators/io_operation/termination_check.py:125-172. -/
inductive Concl
  | falsum
  | holds (c : S)
  | pos (m : S)
  | gt (m m' : S)

/-- A check `assert guards ==> conclusion`; a guard is a condition with its polarity.  Models
translators/io_operation/termination_check.py:101-123. -/
structure Chk where
  guard : List (Bool × S)
  concl : Concl

/-- The conditions of `current_guard`.  Models translators/io_operation/termination_check.py:103-106,
lib/guard_collectors.py:48-56. -/
def trGuard (look : Nat → Option S) : List (Bool × E) → Option (List (Bool × S))
  | [] => some []
  | (p, e) :: gs =>
    match trE look e, trGuard look gs with
    | some s, some ss => some ((p, s) :: ss)
    | _, _ => none

/-- The aliases for the properties of a sub-operation: its parameters stand for the translated
arguments, other names are those of the operation that is checked.  Models
translators/io_operation/common.py:76-92. -/
def inputAliases (look : Nat → Option S) : List (Nat × Nat) → List S → Nat → Option S
  | (p, _) :: ps, a :: as => fun x =>
    if x = p then some a else inputAliases look ps as x
  | _, _ => look

/-- `_create_termination_checks` for a sub-operation.  `tc` and `tm` are the condition and the
measure of the operation that is checked.  Models
translators/io_operation/termination_check.py:71-99, 142-172. -/
def childChecks (P : Prog) (look : Nat → Option S) (tc tm : S) (guard : List (Bool × E))
    (o : Nat) (args : List E) : Option (List Chk) :=
  match P o, trGuard look guard, trArgs look args with
  | some op, some g, some as =>
    let look' := inputAliases look op.params as
    match trE look' op.getTerminates, trE look' op.getMeasure with
    | some c, some m =>
      let g := (true, tc) :: g
      some ((if o = gapIO then [⟨g, .falsum⟩] else []) ++ [⟨g, .holds c⟩, ⟨g, .gt tm m⟩])
    | _, _ => none
  | _, _, _ => none

/-- The visitor.  The arguments of operations are not visited.  Models
translators/io_operation/termination_check.py:65-69, lib/guard_collectors.py:35-56. -/
def gen (P : Prog) (look : Nat → Option S) (tc tm : S) : B → List (Bool × E) → Option (List Chk)
  | .call o args _, g => childChecks P look tc tm g o args
  | .pure _, _ => some []
  | .and l r, g =>
    match gen P look tc tm l g, gen P look tc tm r g with
    | some a, some b => some (a ++ b)
    | _, _ => none
  | .implies e b, g => gen P look tc tm b (g ++ [(true, e)])
  | .ife e a b, g =>
    match gen P look tc tm a (g ++ [(true, e)]), gen P look tc tm b (g ++ [(false, e)]) with
    | some a, some b => some (a ++ b)
    | _, _ => none
  | .all _ _ b, g => gen P look tc tm b g
  | .ex _ b, g => gen P look tc tm b g

/-- The resolution of names in the termination check of an operation, and the checks of its body.
Models translators/io_operation/definition.py:82-86, 183-186. -/
def lookOf (P : Prog) (op : Op) : Option (Nat → Option S) :=
  match op.body with
  | none => some (getVariable op [] fun _ => none)
  | some b =>
    match checkBody P op b with
    | none => none
    | some ds =>
      match translateGetters op b ds with
      | none => none
      | some refs => some (getVariable op (unis b) refs)

/-- The termination check of an operation.  Models
translators/io_operation/definition.py:145-195, termination_check.py:54-59. -/
def checksOf (P : Prog) (op : Op) : Option (List Chk) :=
  if propOk op then
    match lookOf P op with
    | none => none
    | some look =>
      match trE look op.getTerminates, trE look op.getMeasure with
      | some tc, some tm =>
        let first : Chk := ⟨[(true, tc)], .pos tm⟩
        match op.body with
        | none => some [first]
        | some b =>
          match gen P look tc tm b [] with
          | none => none
          | some cs => some (first :: cs)
      | _, _ => none
  else none

/-- The variables with type assumptions in the method: the parameters (preconditions) and the bound
variables (inhaled).  A bound variable that has the name of a parameter or of an earlier bound
variable has its own Silver variable, which no name refers to; it is left out.  Models
translators/io_operation/definition.py:154-170, 189-207. -/
def typed (op : Op) : List (Nat × Nat) :=
  let us := match op.body with
    | none => []
    | some b => unis b
  us.foldl (fun acc u => if acc.any (·.1 == u.1) then acc else acc ++ [u]) op.params

/-! ### `Open` -/

/-- Silver assertions; `all t t' x b` is `forall x: Ref :: isinstance(x, t) ==> isinstance(x, t') ==> b`.
Models the assertions created in
translators/io_operation/use.py:70-83, contract.py:377-391, 921-1010, expression.py:1213-1241. -/
inductive SB
  | acc (o : Nat) (args : List S)
  | pure (s : S)
  | eq (l r : S)
  | and (l r : SB)
  | implies (s : S) (b : SB)
  | ife (s : S) (a b : SB)
  | all (t t' x : Nat) (b : SB)

/-- `_open_var_alias_definitions`: definitions of opened variables by name, in order.  Models
lib/io_context.py:29-30, 69-77. -/
abbrev Defs := List (Nat × S)

/-- The results of a call while an operation is opened: variables without a definition are defined
by the getter, for the others an equation is added.  `al` gives the Silver names of the opened
variables.  Models translators/io_operation/result_translator.py:138-163, 178-199. -/
def openResults (al : Nat → Nat) (o : Nat) (args : List S) :
    List Nat → List Nat → Defs → List SB × Defs
  | r :: rs, x :: xs, D =>
    let getter := S.get o r args
    if D.any (·.1 == x) then
      let (eqs, D) := openResults al o args rs xs D
      (.eq getter (.var (al x)) :: eqs, D)
    else openResults al o args rs xs (D ++ [(x, getter)])
  | _, _, D => ([], D)

/-- `translate_io_operation_call` while an operation is opened.  Models
translators/io_operation/use.py:52-83. -/
def openCall (P : Prog) (al : Nat → Nat) (look : Nat → Option S) (o : Nat) (args : List E)
    (rs : List Nat) (D : Defs) : Option (SB × Defs) :=
  match P o, trArgs look args with
  | some op, some as =>
    if op.results.length = rs.length then
      let (eqs, D) := openResults al o as op.results rs D
      some (eqs.foldl .and (.acc o as), D)
    else none
  | _, _ => none

/-- The type of the variable that `get_variable` finds for the variable of an `IOForall`: the first
parameter or bound variable of that name.  Models lib/program_nodes.py:1468-1482,
translators/contract.py:937-940, 1002. -/
def varType (op : Op) (us : List (Nat × Nat)) (x : Nat) : Nat :=
  ((op.params ++ us).lookup x).getD 0

/-- The translation of the body of an operation that is opened.  The variable of `IOForall` is
aliased to the variable of the operation, and the alias is removed afterwards.  Models
translators/io_operation/opener.py:174-187, contract.py:377-391, 921-1010,
expression.py:1213-1241, 1581-1640, call.py:1418-1426. -/
def openB (P : Prog) (op : Op) (us : List (Nat × Nat)) (al : Nat → Nat) : B → (Nat → Option S) → Defs → Option (SB × Defs)
  | .call o args rs, look, D => openCall P al look o args rs D
  | .pure e, look, D =>
    match trE look e with
    | some s => some (.pure s, D)
    | none => none
  | .and l r, look, D =>
    match openB P op us al l look D with
    | none => none
    | some (a, D) =>
      match openB P op us al r look D with
      | none => none
      | some (b, D) => some (.and a b, D)
  | .implies e b, look, D =>
    match trE look e with
    | none => none
    | some s =>
      match openB P op us al b look D with
      | none => none
      | some (b, D) => some (.implies s b, D)
  | .ife e a b, look, D =>
    match trE look e with
    | none => none
    | some s =>
      match openB P op us al a look D with
      | none => none
      | some (a, D) =>
        match openB P op us al b look D with
        | none => none
        | some (b, D) => some (.ife s a b, D)
  | .all t x b, look, D =>
    match openB P op us al b (fun y => if y = x then some (.var (op.sil x)) else look y) D with
    | none => none
    | some (sb, D) => some (.all (varType op us x) t (op.sil x) sb, D)
  | .ex _ b, look, D => openB P op us al b look D

mutual
/-- `replace` on expressions: all occurrences of the variable.  Models the calls in
translators/io_operation/opener.py:128, 132 (`Node.replace` of Silver). -/
def S.replace (x : Nat) (d : S) : S → S
  | .var y => if y = x then d else .var y
  | .bool b => .bool b
  | .const k => .const k
  | .bin f l r => .bin f (S.replace x d l) (S.replace x d r)
  | .get o r args => .get o r (S.replaceL x d args)
/-- `replace` on lists of expressions.  Models translators/io_operation/opener.py:128, 132. -/
def S.replaceL (x : Nat) (d : S) : List S → List S
  | [] => []
  | s :: ss => S.replace x d s :: S.replaceL x d ss
end

/-- `replace` on assertions: also below quantifiers, whatever they bind.  Models
translators/io_operation/opener.py:128 (`Node.replace` of Silver transforms every node). -/
def SB.replace (x : Nat) (d : S) : SB → SB
  | .acc o args => .acc o (S.replaceL x d args)
  | .pure s => .pure (S.replace x d s)
  | .eq l r => .eq (S.replace x d l) (S.replace x d r)
  | .and a b => .and (a.replace x d) (b.replace x d)
  | .implies s b => .implies (S.replace x d s) (b.replace x d)
  | .ife s a b => .ife (S.replace x d s) (a.replace x d) (b.replace x d)
  | .all t t' y b => .all t t' y (b.replace x d)

/-- The loop that replaces the opened variables by their definitions.  Models
translators/io_operation/opener.py:124-132. -/
def elim (al : Nat → Nat) : List Nat → Defs → SB → Option SB
  | [], _, b => some b
  | x :: xs, D, b =>
    match D.lookup x with
    | none => none
    | some d =>
      elim al xs (D.map fun p => if p.1 = x then p else (p.1, S.replace (al x) d p.2))
        (b.replace (al x) d)

/-- The aliases set up by `Open`: the results and existentials stand for opened variables, the
parameters for the translated arguments.  Models
translators/io_operation/opener.py:118-121, 136-172, 208-213. -/
def openLook (op : Op) (b : B) (al : Nat → Nat) (args : List S) (x : Nat) : Option S :=
  if x ∈ exis b ∨ x ∈ op.results then some (.var (al x))
  else inputAliases (fun _ => none) op.params args x

/-- The assertion inhaled by `Open(o(args))`, for translated arguments.  `order` is the list of
existentials, which definition.py:136 may already have sorted.  Models
translators/io_operation/opener.py:94-101, 116-134. -/
def openOp (P : Prog) (o : Nat) (op : Op) (al : Nat → Nat) (order : List Nat) (args : List S) :
    Option SB :=
  match op.body with
  | none => none
  | some b =>
    if args.length = op.params.length then
      let D0 := op.results.map fun r => (r, S.get o r args)
      match openB P op (unis b) al b (openLook op b al args) D0 with
      | none => none
      | some (sb, D) => elim al (op.results ++ order) D sb
    else none

end Nagini.IO
