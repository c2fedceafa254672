import Mathlib.Algebra.Order.Field.Rat
/-!
The contracts of threads: the values of `Old` expressions that are remembered when a thread is started, and the
assertion that is inhaled when a thread is joined.
-/
namespace Nagini.Threads

/-- Heap-dependent expressions in contracts: variables, `Result()`, integers, fields, sums and `Old`.  `arg i` is
the call `arg(i)` that replaces a parameter in the text of an `Old` expression; it cannot be written in contracts
(translators/contract.py:1234-1235).  References are numbers.  translators/contract.py:91-109, 393-411,
lib/util.py:389-403. -/
inductive Term
  | var (x : String)
  | res
  | lit (n : Int)
  | field (t : Term) (f : String)
  | plus (a b : Term)
  | old (t : Term)
  | arg (i : Nat)
  deriving DecidableEq

/-- Conditions; `all` is `Forall` over the integers, other domains are left out.
translators/contract.py:921-1010. -/
inductive Cond
  | eq (a b : Term)
  | lt (a b : Term)
  | neg (c : Cond)
  | conj (c d : Cond)
  | all (x : String) (c : Cond)

/-- Assertions in contracts.  `builtin f t p` is `Acc(list_pred(t), p)` and its relatives, where `f` is the field
behind the predicate.  Permission amounts are literals; `Rd`, wildcards, quantified permissions and obligations are
left out.  translators/contract.py:137-345. -/
inductive Asn
  | pure (c : Cond)
  | field (t : Term) (f : String) (p : ℚ)
  | builtin (f : String) (t : Term) (p : ℚ)
  | pred (n : String) (ts : List Term) (p : ℚ)
  | glob (g : String) (p : ℚ)
  | start (t : Term) (p : ℚ)
  | post (t : Term) (p : ℚ)
  | maySet (t : Term) (f : String)
  | mayCreate (t : Term) (f : String)
  | and (a b : Asn)
  | imp (c : Cond) (a : Asn)

/-- The target method of a thread: parameters, global variables of its module, whether exceptions are declared,
and postconditions.  lib/program_nodes.py:1043-1090. -/
structure Method where
  params : List String
  globals : List String
  exc : Bool
  posts : List Asn

/-- Viper expressions: `param i` is the local variable that holds `getArg(thread, i)`, `getOld k` is the value of
the `Old` expression with the text `k` that was remembered for the thread, and `callerRes` the variable for the
result of the method that contains the start.  translators/call.py:1706-1743, lib/context.py:105-115. -/
inductive VT
  | param (i : Nat)
  | bound (x : String)
  | glob (x : String)
  | result
  | callerRes
  | lit (n : Int)
  | field (t : VT) (f : String)
  | plus (a b : VT)
  | old (t : VT)
  | getOld (k : Term)

/-- Viper conditions.  `unknown n t` is the arbitrary value of translators/common.py:966-976, `joinable` the
function of translators/contract.py:188.  lib/viper_ast.py:346-379. -/
inductive VC
  | tt
  | eq (a b : VT)
  | lt (a b : VT)
  | neg (c : VC)
  | conj (c d : VC)
  | all (x : String) (c : VC)
  | unknown (n : Nat) (t : VT)
  | joinable (t : VT)

/-- Permission amounts; `held` is `perm(ThreadPost(thread))` for the thread that is joined.
translators/call.py:1652-1662. -/
inductive VP
  | lit (q : ℚ)
  | held
  | mul (p q : VP)

/-- Resources, named by expressions.  translators/contract.py:137-345, translators/common.py:278-291. -/
inductive VL
  | field (t : VT) (f : String)
  | glob (g : String)
  | pred (n : String) (ts : List VT)
  | start (t : VT)
  | post (t : VT)
  | maySet (t : VT) (f : String)

/-- Viper assertions, in the version for inhaling.  lib/viper_ast.py:212-300. -/
inductive VA
  | pure (c : VC)
  | acc (l : VL) (p : VP)
  | and (a b : VA)
  | imp (c : VC) (a : VA)
  | cond (c : VC) (a b : VA)

/-- The parts of the context that influence the translation of contracts: names of parameters (all have aliases)
and global variables, whether `perm_factor` is set, the texts in `old_expr_aliases`, and the variable for the
result.  lib/context.py:47-51, 105-115. -/
structure Ctx where
  params : List String
  globals : List String
  factor : Bool
  olds : List Term
  res : Option VT

/-- A name: variables bound by lambdas hide parameters, which hide global variables; other names are rejected.
Local variables of the target method are left out.  translators/expression.py:948-972,
lib/program_nodes.py:1209-1227, translators/contract.py:934-945. -/
def resolve (c : Ctx) (bs : List String) (x : String) : Option VT :=
  if x ∈ bs then some (.bound x)
  else match c.params.idxOf? x with
    | some i => some (.param i)
    | none => if x ∈ c.globals then some (.glob x) else none

/-- Models `OldExpressionTransformer`, lib/util.py:389-403. -/
def norm (ps : List String) : Term → Term
  | .var x => match ps.idxOf? x with
    | some i => .arg i
    | none => .var x
  | .res => .res
  | .lit n => .lit n
  | .field t f => .field (norm ps t) f
  | .plus a b => .plus (norm ps a) (norm ps b)
  | .old t => .old (norm ps t)
  | .arg i => .arg i

/-- Translation of expressions; `Old` as in `translate_old`, translators/contract.py:393-411.  The text of an
expression is represented by the expression, so different expressions have different texts. -/
def transT (c : Ctx) (bs : List String) : Term → Option VT
  | .var x => resolve c bs x
  | .res => c.res
  | .lit n => some (.lit n)
  | .field t f => (transT c bs t).map (.field · f)
  | .plus a b => (transT c bs a).bind fun a' => (transT c bs b).map (.plus a' ·)
  | .old t => if norm c.params t ∈ c.olds then some (.getOld (norm c.params t)) else (transT c bs t).map .old
  | .arg _ => none

/-- Translation of conditions, translators/contract.py:377-391, 921-1010. -/
def transC (c : Ctx) (bs : List String) : Cond → Option VC
  | .eq a b => (transT c bs a).bind fun a' => (transT c bs b).map (.eq a' ·)
  | .lt a b => (transT c bs a).bind fun a' => (transT c bs b).map (.lt a' ·)
  | .neg k => (transC c bs k).map .neg
  | .conj k l => (transC c bs k).bind fun k' => (transC c bs l).map (.conj k' ·)
  | .all x k => (transC c (x :: bs) k).map (.all x)

/-- Multiplication with `ctx.perm_factor`, translators/contract.py:167-168, 290-291, translators/common.py:892-895. -/
def scale (c : Ctx) (p : ℚ) : VP := if c.factor then .mul (.lit p) .held else .lit p

/-- Translation of a list of arguments, translators/contract.py:211-214. -/
def transTs (c : Ctx) : List Term → Option (List VT)
  | [] => some []
  | t :: ts => (transT c [] t).bind fun t' => (transTs c ts).map (t' :: ·)

/-- Translation of assertions: fields translators/contract.py:287-299, builtin predicates 137-170, predicates
200-246 and translators/common.py:884-899, global variables translators/contract.py:262-285, `MayStart` 172-179,
`ThreadPost` 181-190, `MaySet` 301-329, `MayCreate` 331-345.  Facts about types are left out. -/
def transA (c : Ctx) : Asn → Option VA
  | .pure k => (transC c [] k).map .pure
  | .field t f p => (transT c [] t).map fun t' => .acc (.field t' f) (scale c p)
  | .builtin f t p => (transT c [] t).map fun t' => .acc (.field t' f) (scale c p)
  | .pred n ts p => (transTs c ts).map fun ts' => .acc (.pred n ts') (scale c p)
  | .glob g p => some (.acc (.glob g) (.lit p))
  | .start t p => (transT c [] t).map fun t' => .acc (.start t') (.lit p)
  | .post t p => (transT c [] t).map fun t' => .and (.acc (.post t') (.lit p)) (.pure (.joinable t'))
  | .maySet t f => (transT c [] t).map fun t' =>
    .cond (.unknown 0 t') (.acc (.field t' f) (scale c 1)) (.acc (.maySet t' f) (.lit 1))
  | .mayCreate t f => (transT c [] t).map fun t' => .acc (.maySet t' f) (.lit 1)
  | .and a b => (transA c a).bind fun a' => (transA c b).map (.and a' ·)
  | .imp k a => (transC c [] k).bind fun k' => (transA c a).map (.imp k' ·)

/-- The conjunction of all postconditions, translators/call.py:1745-1752. -/
def transPosts (c : Ctx) : List Asn → VA → Option VA
  | [], acc => some acc
  | a :: as, acc => (transA c a).bind fun a' => transPosts c as (.and acc a')

/-- Models `OldExpressionCollector`, lib/util.py:376-386, for expressions. -/
def collectT : Term → List Term
  | .field t _ => collectT t
  | .plus a b => collectT a ++ collectT b
  | .old t => [t]
  | _ => []

/-- `OldExpressionCollector` for conditions, lib/util.py:376-386. -/
def collectC : Cond → List Term
  | .eq a b => collectT a ++ collectT b
  | .lt a b => collectT a ++ collectT b
  | .neg k => collectC k
  | .conj k l => collectC k ++ collectC l
  | .all _ k => collectC k

/-- `OldExpressionCollector` for assertions, lib/util.py:376-386. -/
def collectA : Asn → List Term
  | .pure k => collectC k
  | .field t _ _ => collectT t
  | .builtin _ t _ => collectT t
  | .pred _ ts _ => ts.flatMap collectT
  | .glob _ _ => []
  | .start t _ => collectT t
  | .post t _ => collectT t
  | .maySet t _ => collectT t
  | .mayCreate t _ => collectT t
  | .and a b => collectA a ++ collectA b
  | .imp k a => collectC k ++ collectA a

/-- The `Old` expressions of a method, translators/call.py:1726-1730, translators/obligation/fork.py:158-160. -/
def collect (m : Method) : List Term := m.posts.flatMap collectA

/-- The context in which contracts of the target are translated at a start: the parameters have aliases, no
expression has, and the result is that of the starting method, if it has one.
translators/obligation/fork.py:115-139, 164-176, lib/context.py:105-115. -/
def forkCtx (callerHasRes : Bool) (m : Method) : Ctx :=
  ⟨m.params, m.globals, false, [], if callerHasRes then some .callerRes else none⟩

/-- The context at a join.  Targets without a result are left out.  translators/call.py:1662, 1706-1743. -/
def joinCtx (m : Method) : Ctx := ⟨m.params, m.globals, true, (collect m).map (norm m.params), some .result⟩

/-- The equations between remembered values and expressions that are inhaled at a start.  Models
`_remember_old_expressions`, translators/obligation/fork.py:93-113. -/
def rememberAll (c : Ctx) : List Term → Option (List (Term × VT))
  | [] => some []
  | e :: es => (transT c [] e).bind fun e' => (rememberAll c es).map ((norm c.params e, e') :: ·)

/-- The equations for the `Old` expressions of the target, translators/obligation/fork.py:158-176. -/
def remember (callerHasRes : Bool) (m : Method) : Option (List (Term × VT)) :=
  rememberAll (forkCtx callerHasRes m) (collect m)

/-- The assertion that is inhaled at a join if some permission to `ThreadPost` is held.  Models
`_inhale_possible_thread_post`, translators/call.py:1692-1771: the normal postconditions, whether or not the
target declares exceptions. -/
def joinAssertion (m : Method) : Option VA := transPosts (joinCtx m) m.posts (.pure .tt)

end Nagini.Threads
