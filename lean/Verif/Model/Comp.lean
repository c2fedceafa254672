/-!
Model of list, set and dict comprehensions, translators/expression.py:166-495.

The element, key, value and filter expressions are functions of the element variable; `none` means that
the expression is not well-defined.  The source may be read; triggers and positions are left out.
-/
namespace Nagini.Comp

/-- Values.  Models references, with the boxes of
resources/bool.sil:298-320; other objects have identities. -/
inductive Val
  | none
  | bool (b : Bool)
  | int (n : Int)
  | obj (n : Nat)
deriving DecidableEq, Inhabited

/-- The value comprehensions range over, by its static type.  Models `iter` and `iter_type`,
translators/expression.py:212-213. -/
inductive Src
  | list (xs : List Val)
  | tuple (xs : List Val)
  | pseq (xs : List Val)
  | bytes (bs : List Int)
  | bytearray (bs : List Int)
  | pbyteseq (bs : List Int)
  | range (ns : List Int)
  | set (xs : List Val)
  | pset (xs : List Val)
  | pmultiset (xs : List Val)
  | dict (kvs : List (Val × Val))

/-- The sequence of the elements.  Models `__sil_seq__`, resources/list.sil:201-206, tuple.sil:147-155,
seq.sil:13, bytes.sil:38-43, bytearray.sil:155-161, byteseq.sil:78-82, range.sil:66-71, set_dict.sil:82-88,
172-177, pset.sil:23-28, 75-80, and `get_sequence`, translators/common.py:616-643 (for sets, some order). -/
def silSeq : Src → List Val
  | .list xs => xs
  | .tuple xs => xs
  | .pseq xs => xs
  | .bytes bs => bs.map .int
  | .bytearray bs => bs.map .int
  | .pbyteseq bs => bs.map .int
  | .range ns => ns.map .int
  | .set xs => xs
  | .pset xs => xs
  | .pmultiset xs => xs
  | .dict kvs => kvs.map Prod.fst

/-- Indexing of sequences, with negative indices.  Models `list___getitem__`, resources/list.sil:40-47,
tuple.sil:157-163, seq.sil:23-29, bytes.sil:93-100. -/
def seqGet (xs : List Val) (i : Int) : Option Val :=
  if 0 ≤ i then xs[i.toNat]?
  else if -(xs.length : Int) ≤ i then xs[(xs.length + i).toNat]?
  else none

/-- The type of `__getitem__`: a reference, an integer, or there is no such function.
Models resources/builtins.json:102, 217, 616, 690, 759, 849, 905, 1071 (`__getitem__` of the classes). -/
inductive GetTy
  | ref | int | missing
deriving DecidableEq

/-- The type of the element access.  Models resources/builtins.json:102, 217, 616, 690, 759,
849, 905, 1071. -/
def getTy : Src → GetTy
  | .list _ => .ref
  | .tuple _ => .ref
  | .pseq _ => .ref
  | .bytes _ => .ref
  | .bytearray _ => .int
  | .pbyteseq _ => .int
  | .range _ => .int
  | .set _ => .missing
  | .pset _ => .missing
  | .pmultiset _ => .missing
  | .dict _ => .ref

/-- `__getitem__` with an integer, where it returns a reference.  The index is boxed where the function
expects a reference.  Models `get_function_call(iter_type.cls, '__getitem__', …)`,
translators/expression.py:232-234, 284-286, 399-401, 446-448, and `dict___getitem__`,
resources/set_dict.sil:133-139. -/
def getItem : Src → Int → Option Val
  | .list xs, i => seqGet xs i
  | .tuple xs, i => seqGet xs i
  | .pseq xs, i => seqGet xs i
  | .bytes bs, i => seqGet (bs.map .int) i
  | .dict kvs, i => (kvs.find? fun kv => kv.1 = .int i).map Prod.snd
  | _, _ => none

/-- Integer variables.  Models `index_var` and `index_var2`, translators/expression.py:220, 444. -/
inductive IVar
  | i | j
deriving DecidableEq

/-- Reference variables.  Models `element_var` and `key_var`, translators/expression.py:173, 453. -/
inductive RVar
  | elem | key
deriving DecidableEq

/-- User expressions.  Models `body`, `key` and `val`, translators/expression.py:176, 356-357. -/
abbrev Fn := Val → Option Val

/-- Filters.  Models `filter_cond`, translators/expression.py:315-330. -/
abbrev Cond := Val → Option Bool

/-- Integer terms: 0, variables, the length of the source, `|result.list_acc|`, `list___len__(result)`.
Models translators/expression.py:210-231, 278-290. -/
inductive ITerm
  | zero
  | var (x : IVar)
  | srcLen
  | resLen
  | resLenFn

/-- Reference terms: variables, source elements, user expressions, `result.list_acc[t]`,
`result.dict_acc[r]`.  Models translators/expression.py:228-234, 480. -/
inductive RTerm
  | var (x : RVar)
  | item (t : ITerm)
  | user (f : Fn)
  | index (t : ITerm)
  | lookup (r : RTerm)

/-- Assertions.  Models the nodes built in translators/expression.py:194-495. -/
inductive F
  | ge (a b : ITerm)
  | lt (a b : ITerm)
  | le (a b : ITerm)
  | eqI (a b : ITerm)
  | eqR (a b : RTerm)
  | neR (a b : RTerm)
  | inSeq (r : RTerm)
  | inSet (r : RTerm)
  | inMap (r : RTerm)
  | cond (p : Cond)
  | typ
  | acc
  | and (a b : F)
  | imp (a b : F)
  | all (x : IVar) (a : F)
  | bind (x : RVar) (r : RTerm) (a : F)

/-- Statements: creation of an object with the field, and `inhale`.
Models translators/expression.py:244, 302, 385, 422. -/
inductive Stmt
  | new
  | inhale (a : F)

/-- Rejected programs: `unknown.function.called`, and a `let` whose expression has the wrong type.
Models translators/common.py:701-705 and the consistency check of the Viper AST. -/
inductive Err
  | unknownFunction | illTyped
deriving DecidableEq

/-- The element at an index bound to the element variable.  Models translators/expression.py:232-236. -/
def letElem (src : Src) (x : IVar) (a : F) : Except Err F :=
  match getTy src with
  | .ref => .ok (.bind .elem (.item (.var x)) a)
  | .int => .error .illTyped
  | .missing => .error .unknownFunction

/-- Index in bounds.  Models translators/expression.py:222-227. -/
def inBounds (x : IVar) : F := .and (.ge (.var x) .zero) (.lt (.var x) .srcLen)

/-- Conjunction of the `if` clauses.  Models `_translate_comp_filter`, translators/expression.py:315-330
(conjunctions are evaluated from the left). -/
def filterCond : List Cond → Option Cond
  | [] => none
  | c :: cs => some (cs.foldl (fun acc d v =>
      match acc v with
      | some true => d v
      | r => r) c)

/-- List comprehension without filter.  Models `_create_list_comp_inhale`,
translators/expression.py:194-249.  The equation of the elements is `value_i == (let … in body)`. -/
def listInhale (src : Src) (f : Fn) : Except Err (List Stmt) :=
  match letElem src .i (.eqR (.index (.var .i)) (.user f)) with
  | .error e => .error e
  | .ok value => .ok [.inhale (.and (.and .typ .acc)
      (.and (.eqI .resLenFn .srcLen) (.all .i (.imp (inBounds .i) value))))]

/-- List comprehension with filter.  Models `_create_filtered_list_comp_inhale`,
translators/expression.py:251-302. -/
def filteredInhale (src : Src) (f : Fn) (p : Cond) : Except Err (List Stmt) :=
  match letElem src .i (.imp (.cond p) (.inSeq (.user f))) with
  | .error e => .error e
  | .ok fact => .ok [.inhale (.and (.and .typ .acc)
      (.and (.le .resLen .srcLen) (.all .i (.imp (inBounds .i) fact))))]

/-- List comprehensions.  Models `translate_ListComp`, translators/expression.py:166-192. -/
def translateList (src : Src) (f : Fn) (ifs : List Cond) : Except Err (List Stmt) :=
  match filterCond ifs with
  | none => listInhale src f
  | some p => filteredInhale src f p

/-- Set comprehensions.  Models `translate_SetComp` and `_create_set_dict_comp_inhale`,
translators/expression.py:332-349, 372-424. -/
def translateSet (src : Src) (f : Fn) (ifs : List Cond) : Except Err (List Stmt) :=
  let fact : F := match filterCond ifs with
    | none => .inSet (.user f)
    | some p => .imp (.cond p) (.inSet (.user f))
  match letElem src .i fact with
  | .error e => .error e
  | .ok fact => .ok [.new, .inhale (.and .typ (.all .i (.imp (inBounds .i) fact)))]

/-- No later element has the same key.  Models translators/expression.py:443-476. -/
def noLaterDup (src : Src) (k : Fn) (p : Option Cond) : Except Err F :=
  let later : F := match p with
    | none => .lt (.var .i) (.var .j)
    | some p => .and (.lt (.var .i) (.var .j)) (.cond p)
  match letElem src .j (.imp later (.neR (.user k) (.var .key))) with
  | .error e => .error e
  | .ok a => .ok (.all .j (.imp (inBounds .j) a))

/-- The facts about a dict.  Models `_dict_comp_contents`, translators/expression.py:426-495. -/
def dictContents (src : Src) (k f : Fn) (p : Option Cond) : Except Err F :=
  match noLaterDup src k p with
  | .error e => .error e
  | .ok dup =>
    let per : F := .and (.inMap (.var .key)) (.imp dup (.eqR (.lookup (.var .key)) (.user f)))
    let per : F := match p with
      | none => per
      | some p => .imp (.cond p) per
    match letElem src .i (.bind .key (.user k) per) with
    | .error e => .error e
    | .ok a => .ok (.all .i (.imp (inBounds .i) a))

/-- Dict comprehensions.  Models `translate_DictComp` and `_create_set_dict_comp_inhale`,
translators/expression.py:351-370, 372-424. -/
def translateDict (src : Src) (k f : Fn) (ifs : List Cond) : Except Err (List Stmt) :=
  match dictContents src k f (filterCond ifs) with
  | .error e => .error e
  | .ok a => .ok [.new, .inhale (.and .typ a)]

/-! Meaning of the assertions -/

/-- The source and the result: its type, the permission for its field, and the field, which is
`list_acc`, `set_acc` or `dict_acc`.  Models the Viper state at translators/expression.py:244. -/
structure World where
  src : Src
  typ : Bool
  perm : Bool
  seq : List Val
  set : Val → Prop
  map : Val → Option Val

/-- Values of variables.  Models the bound variables of translators/expression.py:220, 173, 444, 453. -/
structure Env where
  int : IVar → Int
  ref : RVar → Val

/-- Values of integer terms.  Models the meaning of Viper expressions and `list___len__`,
resources/list.sil:32-38. -/
def evalI (W : World) (E : Env) : ITerm → Option Int
  | .zero => some 0
  | .var x => some (E.int x)
  | .srcLen => some (silSeq W.src).length
  | .resLen => if W.perm then some W.seq.length else none
  | .resLenFn => if W.typ && W.perm then some W.seq.length else none

/-- Values of reference terms.  Models the meaning of Viper expressions: indices have to be in bounds,
keys have to be present.  Used for the terms of translators/expression.py:228-234, 480. -/
def evalR (W : World) (E : Env) : RTerm → Option Val
  | .var x => some (E.ref x)
  | .item t => (evalI W E t).bind (getItem W.src)
  | .user f => f (E.ref .elem)
  | .index t => (evalI W E t).bind fun n => if W.perm then if 0 ≤ n then W.seq[n.toNat]? else none else none
  | .lookup r => (evalR W E r).bind fun v => if W.perm then W.map v else none

/-- Both terms have values and these are related.  Models comparisons in Viper, as built in
translators/expression.py:222-237. -/
def both {α β : Type} (R : α → β → Prop) : Option α → Option β → Prop
  | some a, some b => R a b
  | _, _ => False

/-- The assertion holds.  Models the meaning of the Viper assertions built in
translators/expression.py:194-495. -/
def holds (W : World) (E : Env) : F → Prop
  | .ge a b => both (fun m n : Int => m ≥ n) (evalI W E a) (evalI W E b)
  | .lt a b => both (fun m n : Int => m < n) (evalI W E a) (evalI W E b)
  | .le a b => both (fun m n : Int => m ≤ n) (evalI W E a) (evalI W E b)
  | .eqI a b => both (fun m n : Int => m = n) (evalI W E a) (evalI W E b)
  | .eqR a b => both (fun v w : Val => v = w) (evalR W E a) (evalR W E b)
  | .neR a b => both (fun v w : Val => v ≠ w) (evalR W E a) (evalR W E b)
  | .inSeq r => ∃ v, evalR W E r = some v ∧ v ∈ W.seq
  | .inSet r => ∃ v, evalR W E r = some v ∧ W.set v
  | .inMap r => ∃ v, evalR W E r = some v ∧ (W.map v).isSome
  | .cond p => p (E.ref .elem) = some true
  | .typ => W.typ = true
  | .acc => W.perm = true
  | .and a b => holds W E a ∧ holds W E b
  | .imp a b => holds W E a → holds W E b
  | .all x a => ∀ n, holds W { E with int := fun y => if y = x then n else E.int y } a
  | .bind x r a =>
    match evalR W E r with
    | some v => holds W { E with ref := fun y => if y = x then v else E.ref y } a
    | none => False

/-- The assertion is well-defined, which the verifier checks.  Models the meaning of Viper assertions:
the right operands of `&&` and `==>` are checked under the assumption of the left ones.  Used for
translators/expression.py:244, 302, 422. -/
def wd (W : World) (E : Env) : F → Prop
  | .ge a b => (evalI W E a).isSome ∧ (evalI W E b).isSome
  | .lt a b => (evalI W E a).isSome ∧ (evalI W E b).isSome
  | .le a b => (evalI W E a).isSome ∧ (evalI W E b).isSome
  | .eqI a b => (evalI W E a).isSome ∧ (evalI W E b).isSome
  | .eqR a b => (evalR W E a).isSome ∧ (evalR W E b).isSome
  | .neR a b => (evalR W E a).isSome ∧ (evalR W E b).isSome
  | .inSeq r => (evalR W E r).isSome ∧ W.perm = true
  | .inSet r => (evalR W E r).isSome ∧ W.perm = true
  | .inMap r => (evalR W E r).isSome ∧ W.perm = true
  | .cond p => (p (E.ref .elem)).isSome
  | .typ => True
  | .acc => True
  | .and a b => wd W E a ∧ (holds W E a → wd W E b)
  | .imp a b => wd W E a ∧ (holds W E a → wd W E b)
  | .all x a => ∀ n, wd W { E with int := fun y => if y = x then n else E.int y } a
  | .bind x r a =>
    match evalR W E r with
    | some v => wd W { E with ref := fun y => if y = x then v else E.ref y } a
    | none => False

/-- The variables before anything is bound.  Models the state at translators/expression.py:244. -/
def env₀ : Env := ⟨fun _ => 0, fun _ => .none⟩

/-- The verifier accepts the statements; `perm` says whether the field of the result may be accessed
already.  Models `new`, which gives the permission, and the well-definedness checks of `inhale`,
translators/expression.py:244, 302, 385, 422. -/
def accepted (src : Src) (perm : Bool) : List Stmt → Prop
  | [] => True
  | .new :: ss => accepted src true ss
  | .inhale a :: ss =>
    (∀ W : World, W.src = src → (perm = true → W.perm = true) → wd W env₀ a) ∧ accepted src perm ss

/-- What is known after the statements.  Models `inhale`, translators/expression.py:244, 302, 422. -/
def known (src : Src) (perm : Bool) (W : World) : List Stmt → Prop
  | [] => W.src = src ∧ (perm = true → W.perm = true)
  | .new :: ss => known src true W ss
  | .inhale a :: ss => holds W env₀ a ∧ known src perm W ss

end Nagini.Comp
