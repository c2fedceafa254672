import Verif.Spec.Unwind

/-!
Model of the jumps nagini emits for return, break, continue and raised
exceptions, and of the dispatch code emitted behind finally blocks.

The statement's position is given by its context (list of frames, innermost
first).  A `PythonTryBlock` protects only `node.body` (analyzer.py:1918-1921 and
1897-1898, `protected_region`), so only `tryBody` and `withBody` frames show up
in `get_surrounding_try_blocks` (lib/util.py:157-173), innermost first.  Labels
and finally variables are modelled by recursion over the remaining (outer)
context of the block whose finally code is running.
-/
namespace Nagini.Unwind

variable {Ty : Type}

/-- `contains_stmt(b.protected_region, stmt)`: the blocks that
lib/util.py:170 keeps. -/
def Frame.protects : Frame Ty → Bool
  | .tryBody .. => true
  | .withBody _ => true
  | _ => false

/-- The block's identity (labels `finally_name`, `post_name`, analyzer.py:1897-1911). -/
def Frame.id : Frame Ty → Nat
  | .loop i => i
  | .loopElse i => i
  | .tryBody i _ _ => i
  | .tryOther i _ => i
  | .tryFinal i => i
  | .withBody i => i

/-- `rank` of lib/util.py:162-167: minus the number of protecting blocks whose
protected region contains block `b`'s node.  `outer b` are the identifiers of the
blocks whose protected region contains `b`. -/
def rank (outer : Nat → List Nat) (blocks : List Nat) (b : Nat) : Int :=
  - ((blocks.filter fun b2 => (outer b).contains b2).length : Int)

/-- `sorted(blocks, key=rank)` of lib/util.py:170-173, `blocks` being the blocks
protecting the statement in the order in which the analyzer recorded them. -/
def sortedByRank (outer : Nat → List Nat) (blocks : List Nat) : List Nat :=
  blocks.mergeSort fun a b => decide (rank outer blocks a ≤ rank outer blocks b)

/-- `get_parent_of_type(node, (ast.While, ast.For))` (lib/util.py:278-284): the
nearest loop node on the parent chain.  It does not distinguish a loop's body
from its `else` suite. -/
def parentLoop : List (Frame Ty) → Option Nat
  | [] => none
  | .loop i :: _ => some i
  | .loopElse i :: _ => some i
  | _ :: fs => parentLoop fs

/-- Return dispatch behind a finally block (translators/method.py:727-741, 779-780 and 830):
the first surrounding block with `finally_block` (a with block has none), else
the method's end label. -/
def afterReturn : List (Frame Ty) → Trace
  | [] => ⟨[], .methodEnd⟩
  | .tryBody i true _ :: fs => (afterReturn fs).cons i
  | _ :: fs => afterReturn fs

/-- `translate_stmt_Return` (translators/statement.py:1854-1874): the first surrounding block
with `finally_block or with_item`, else the end label. -/
def jumpReturn : List (Frame Ty) → Trace
  | [] => ⟨[], .methodEnd⟩
  | .tryBody i true _ :: fs => (afterReturn fs).cons i
  | .withBody i :: fs => (afterReturn fs).cons i
  | _ :: fs => jumpReturn fs

/-- Break/continue dispatch behind the finally code of block `blk`
(translators/method.py:675, 717-719, 764-785 and 835-838).  Without a loop around the block
the codes 3 and 4 are not tested and control falls through to `goto_post`.
Otherwise the first block with `finally_block` whose parent loop is the same
loop, else the loop's label. -/
def afterLoopJump (stop : Nat → Target) (blk : Nat) : List (Frame Ty) → Trace
  | [] => ⟨[], .afterBlock blk⟩
  | .loop i :: _ => ⟨[], stop i⟩
  | .loopElse i :: _ => ⟨[], stop i⟩
  | .tryBody i true _ :: fs =>
    match parentLoop fs with
    | none => ⟨[], .afterBlock blk⟩
    | some _ => (afterLoopJump stop i fs).cons i
  | _ :: fs => afterLoopJump stop blk fs

/-- The first surrounding block with `finally_block or with_item` and the context
of that block (translators/statement.py:1786-1797, 1820-1831). -/
def firstFinally : List (Frame Ty) → Option (Nat × List (Frame Ty))
  | [] => none
  | .tryBody i true _ :: fs => some (i, fs)
  | .withBody i :: fs => some (i, fs)
  | _ :: fs => firstFinally fs

/-- `translate_stmt_Break` / `translate_stmt_Continue` (translators/statement.py:1778-1833):
jump to the first finally among *all* surrounding blocks, else to the label of
the parent loop; `none` if there is no loop (KeyError in `self.loops[loop]`). -/
def jumpLoop (stop : Nat → Target) (fs : List (Frame Ty)) : Option Trace :=
  match parentLoop fs with
  | none => none
  | some l =>
    match firstFinally fs with
    | some (i, rest) => some ((afterLoopJump stop i rest).cons i)
    | none => some ⟨[], stop l⟩

section exc
variable {Exc : Type} (isinst : Exc → Ty → Bool)

/-- The handler tests of `create_exception_catchers` (translators/expression.py:837-862): all
handlers of the surrounding blocks, inner to outer in source order, up to and
including the first block that has a `finally_block`. -/
def catcher (v : Exc) : List (Frame Ty) → Option (Nat × Nat)
  | [] => none
  | .tryBody i fin hs :: fs =>
    match firstMatch isinst v hs with
    | some k => some (i, k)
    | none => if fin then none else catcher v fs
  | _ :: fs => catcher v fs

/-- Result of the encoded propagation: clean-up blocks run, target, and the value
the target sees as the exception (handler variable, translators/method.py:842-887, or the
method's error result, translators/method.py:786-795). -/
structure ExcOut (Exc : Type) where
  trace : Trace
  bound : Exc

/-- Running the finally code of block `i` first (translators/method.py:663-711). -/
def ExcOut.cons {Exc : Type} (i : Nat) (o : ExcOut Exc) : ExcOut Exc := ⟨o.trace.cons i, o.bound⟩

/-- Exception dispatch behind the finally code of block `blk`
(translators/method.py:727-763, 786-802): tests handlers of the outer blocks with the error
variable of `blk` itself, goes on to the first block with `finally_block`, or
copies `blk`'s error variable to the method's error result.  `errs` are the error
variables of the blocks; no code copies one to another. -/
def afterRaise (errs : Nat → Exc) (blk : Nat) : List (Frame Ty) → ExcOut Exc
  | [] => ⟨⟨[], .caller⟩, errs blk⟩
  | .tryBody i fin hs :: fs =>
    match firstMatch isinst (errs blk) hs with
    | some k => ⟨⟨[], .handler i k⟩, errs i⟩
    | none => if fin then (afterRaise errs i fs).cons i else afterRaise errs blk fs
  | _ :: fs => afterRaise errs blk fs

/-- The first protecting block, whose error variable receives the exception
(`get_error_var`, translators/common.py:846-861). -/
def innermostTry : List (Frame Ty) → Option Nat
  | [] => none
  | .tryBody i _ _ :: _ => some i
  | .withBody i :: _ => some i
  | _ :: fs => innermostTry fs

/-- Error variables after the raise or call stored its exception (translators/common.py:846-861,
translators/statement.py:1027-1032). -/
def storeError (errs : Nat → Exc) (fs : List (Frame Ty)) (e : Exc) : Nat → Exc :=
  match innermostTry fs with
  | some i => fun j => if j = i then e else errs j
  | none => errs

/-- An exception `e` arriving at a statement with context `fs`
(`translate_stmt_Raise` translators/statement.py:1027-1032 and `create_exception_catchers`
translators/expression.py:800-877).  A handler reads the error variable of its own block
(`translate_handler`, translators/method.py:842-887). -/
def jumpRaise (errs : Nat → Exc) (fs : List (Frame Ty)) (e : Exc) : ExcOut Exc :=
  let errs' := storeError errs fs e
  match catcher isinst e fs with
  | some (i, k) => ⟨⟨[], .handler i k⟩, errs' i⟩
  | none =>
    match firstFinally fs with
    | some (i, rest) => (afterRaise isinst errs' i rest).cons i
    | none => ⟨⟨[], .caller⟩, e⟩

end exc

end Nagini.Unwind
