import Verif.Spec.Cex

/-!
# Conversion of counterexamples

Model of `src/nagini_translation/models/converter.py` (and of the parts of
`models/extractor.py` that build its inputs): the functions that read the
solver's model, which is text, and turn it into names, numbers and types that
are shown to the user.
-/

set_option linter.unusedVariables false

namespace Nagini.Cex

/-- Exceptions that the code raises.  `noFit` is `NoFittingValueException`
(models/converter.py:90-91); `exception` is a plain `Exception`, as raised by
models/converter.py:221. -/
inductive Err where
  | keyError
  | attributeError
  | typeError
  | valueError
  | indexError
  | noFit
  | exception
  | recursion
deriving DecidableEq, Repr

/-- Characters at which `str.split()` splits (used in models/converter.py:95).
Simplified: ASCII blanks only. -/
def isWs (c : Char) : Bool :=
  c.isWhitespace || c == '\x0b' || c == '\x0c'

/-- `str.split()`, with the word read so far (models/converter.py:95). -/
def splitGo : Str → Str → List Str
  | cur, [] => if cur.isEmpty then [] else [cur]
  | cur, c :: cs =>
    if isWs c then
      if cur.isEmpty then splitGo [] cs else cur :: splitGo [] cs
    else splitGo (cur ++ [c]) cs

/-- `' '.join(ws)` (models/converter.py:95). -/
def joinSp : List Str → Str
  | [] => []
  | [w] => w
  | w :: ws => w ++ ' ' :: joinSp ws

/-- `' '.join(a.split())` (models/converter.py:95). -/
def norm (a : Str) : Str := joinSp (splitGo [] a)

/-- Dictionaries with insertion order; used for function entries of the model
(models/extractor.py:50-59). -/
abbrev Dict (α β : Type) := List (α × β)

/-- `d.get(k)` (models/converter.py:99). -/
def dictGet {α β : Type} [DecidableEq α] (d : Dict α β) (k : α) : Option β :=
  match d with
  | [] => none
  | (k', v) :: d => if k' = k then some v else dictGet d k

/-- `d[k] = v` (models/extractor.py:57). -/
def dictSet {α β : Type} [DecidableEq α] (d : Dict α β) (k : α) (v : β) : Dict α β :=
  match d with
  | [] => [(k, v)]
  | (k', v') :: d => if k' = k then (k', v) :: d else (k', v') :: dictSet d k v

/-- Entries of the model as the converter sees them: a string, or a dictionary
from tuples of strings with a value for `'else'` (models/extractor.py:43-59). -/
inductive Entry where
  | const (s : Str)
  | func (opts : Dict (List Str) Str) (els : Str)

/-- The model (models/extractor.py:20-22). -/
abbrev Model := Dict Str Entry

/-- `extract_model_entry` (models/extractor.py:40-59): a function's options
are put into a dictionary one after the other. -/
def extractEntry : TEntry → Entry
  | .const v => .const v.show
  | .func tb d =>
    .func (tb.foldl (fun acc e => dictSet acc (e.1.map SExp.show) e.2.show) []) d.show

/-- The loop over the entries of the model (models/extractor.py:20-22). -/
def extractModel (M : TModel) : Model :=
  M.foldl (fun acc e => dictSet acc e.1 (extractEntry e.2)) []

/-- `get_func_value` (models/converter.py:94-102).  Strings have no method
`get`. -/
def getFuncValue (m : Model) (name : Str) (args : List Str) : Except Err Str :=
  match dictGet m name with
  | none => .error .keyError
  | some (.const s) => if args.isEmpty then .ok s else .error .attributeError
  | some (.func opts els) =>
    match dictGet opts (args.map norm) with
    | some v => .ok v
    | none => .ok els

/-- `get_func_values` (models/converter.py:105-109): the options whose key
begins with the arguments, with the rest of the key. -/
def getFuncValues (m : Model) (name : Str) (args : List Str) :
    Except Err (List (List Str × Str) × Str) :=
  match dictGet m name with
  | none => .error .keyError
  | some (.const s) => .error .attributeError
  | some (.func opts els) =>
    let as := args.map norm
    .ok ((opts.filter fun kv => kv.1.take as.length == as).map
      fun kv => (kv.1.drop as.length, kv.2), els)

/-- The loop of `get_parts` (models/converter.py:117-129): open parentheses,
the text since `lastindex`, and the rest of the text. -/
def partsGo : Int → Str → Str → List Str
  | _, cur, [] => [cur]
  | d, cur, c :: cs =>
    if c = '(' then partsGo (d + 1) (cur ++ [c]) cs
    else if c = ')' then partsGo (d - 1) (cur ++ [c]) cs
    else if c = ' ' && d = 0 then cur :: partsGo d [] cs
    else partsGo d (cur ++ [c]) cs

/-- `app_string[:app_string.index(' ')]` and the rest
(models/converter.py:114-116); `index` raises a `ValueError` if there is no
blank. -/
def splitFirst : Str → Except Err (Str × Str)
  | [] => .error .valueError
  | c :: cs =>
    if c = ' ' then .ok ([], cs)
    else match splitFirst cs with
      | .ok (a, b) => .ok (c :: a, b)
      | .error e => .error e

/-- `get_parts` (models/converter.py:112-129). -/
def getParts (val : Str) : Except Err (List Str) :=
  match splitFirst (val.tail.dropLast) with
  | .error e => .error e
  | .ok (first, rest) => .ok (first :: partsGo 0 [] rest)

/-- Python's `int` on text without a sign (used in models/converter.py:215, 780
and 782): decimal digits.  Simplified: no underscores between digits. -/
def pyNat (s : Str) : Option Int :=
  if s.isEmpty then none
  else if s.all Char.isDigit then some (Nat.ofDigitChars 10 s 0 : Nat)
  else none

/-- Blanks at the beginning and the end do not matter for Python's `int`
(used in models/converter.py:780). -/
def strip (s : Str) : Str :=
  ((s.dropWhile isWs).reverse.dropWhile isWs).reverse

/-- Python's `int` on text (used in models/converter.py:215, 780 and 782);
`none` is a `ValueError`. -/
def pyInt (s : Str) : Option Int :=
  match strip s with
  | '-' :: s => (pyNat s).map fun n => - n
  | '+' :: s => pyNat s
  | s => pyNat s

/-- `chr` (models/converter.py:216); a `ValueError` for numbers that are no
code points.  Simplified: Lean has no characters for surrogates, they are
treated like numbers that are no code points. -/
def pyChr (n : Int) : Option Char :=
  if n < 0 then none
  else if n.toNat.isValidChar then some (Char.ofNat n.toNat) else none

/-- `str` of an integer literal of Silicon (models/converter.py:160-161);
trusted: as Scala prints integers, with a leading minus sign. -/
def showInt : Int → Str
  | .ofNat n => Nat.toDigits 10 n
  | .negSucc n => '-' :: Nat.toDigits 10 (n + 1)

/-- The choice of the symbol for a function (models/converter.py:170 and 175-178). -/
def symbolFor (m : Model) (f : Str) : Str :=
  if (dictGet m (f ++ "%limited".toList)).isSome then f ++ "%limited".toList
  else if (dictGet m f).isSome then f
  else (f.map fun c => if c = '[' then '<' else c).map fun c => if c = ']' then '>' else c

/-- `str(model[key])` for a key (models/converter.py:163 and 168).  Simplified:
the text of a dictionary is represented by its class name. -/
def showEntry : Entry → Str
  | .const s => s
  | .func _ _ => "OrderedDict".toList

/-- `sub.startswith('($Snap.combine ')` (models/converter.py:190 and 194). -/
def isCombine (s : Str) : Bool := "($Snap.combine ".toList.isPrefixOf s

mutual
/-- `evaluate_term` (models/converter.py:157-221).  The snapshot of the
arguments of a predicate lookup (line 204, `toSnapTree`) is part of the
term. -/
def evalTerm (m : Model) : Term → Except Err Str
  | .unit => .ok "$Snap.unit".toList
  | .int n => .ok (showInt n)
  | .null =>
    match dictGet m "$Ref.null".toList with
    | some e => .ok (showEntry e)
    | none => .error .keyError
  | .var x =>
    match dictGet m x with
    | some e => .ok (showEntry e)
    | none => .error .noFit
  | .app f args =>
    if f ++ "%limited".toList = "str___create__%limited".toList then
      match evalThird m args with
      | .ok s => .ok ('"' :: s ++ ['"'])
      | .error e => .error e
    else
      match evalAll m args with
      | .ok as => getFuncValue m (symbolFor m f) as
      | .error e => .error e
  | .combine a b =>
    match evalTerm m a with
    | .error e => .error e
    | .ok x =>
      match evalTerm m b with
      | .error e => .error e
      | .ok y => .ok ("($Snap.combine ".toList ++ x ++ ' ' :: y ++ [')'])
  | .first t =>
    match evalTerm m t with
    | .error e => .error e
    | .ok sub =>
      if isCombine sub then
        match getParts sub with
        | .error e => .error e
        | .ok ps => match ps[1]? with
          | some p => .ok p
          | none => .error .indexError
      else .error .exception
  | .second t =>
    match evalTerm m t with
    | .error e => .error e
    | .ok sub =>
      if isCombine sub then
        match getParts sub with
        | .error e => .error e
        | .ok ps => match ps[2]? with
          | some p => .ok p
          | none => .error .indexError
      else .error .exception
  | .wrap fr to t =>
    match evalTerm m t with
    | .error e => .error e
    | .ok sub => getFuncValue m ("$SortWrappers.".toList ++ fr ++ "To".toList ++ to) [sub]
  | .predLookup p psf snap =>
    match evalTerm m psf with
    | .error e => .error e
    | .ok x =>
      match evalTerm m snap with
      | .error e => .error e
      | .ok y => getFuncValue m ("$PSF.lookup_".toList ++ p) [x, y]
  | .seqAppend a b =>
    match evalTerm m a with
    | .error e => .error e
    | .ok x =>
      match evalTerm m b with
      | .error e => .error e
      | .ok y => .ok (x ++ y)
  | .seqSingle t =>
    match evalTerm m t with
    | .error e => .error e
    | .ok x => match (pyInt x).bind pyChr with
      | some c => .ok [c]
      | none => .ok ['?']
  | .seqNil => .ok []
  | .other => .error .exception
/-- The loop over the arguments (models/converter.py:179-181). -/
def evalAll (m : Model) : List Term → Except Err (List Str)
  | [] => .ok []
  | t :: ts =>
    match evalTerm m t with
    | .error e => .error e
    | .ok x =>
      match evalAll m ts with
      | .error e => .error e
      | .ok xs => .ok (x :: xs)
/-- The third argument, the characters of a string
(models/converter.py:172-174). -/
def evalThird (m : Model) : List Term → Except Err Str
  | _ :: _ :: t :: _ => evalTerm m t
  | _ => .error .indexError
end

/-! ## Numbers and booleans -/

/-- Results of `parse_int` and `parse_bool`: a value, or a question mark
(models/converter.py:778-792). -/
inductive Shown where
  | int (n : Int)
  | bool (b : Bool)
  | unknown
deriving DecidableEq, Repr

/-- `parse_int` (models/converter.py:778-784): the first case is not guarded by
the `try`. -/
def parseInt (val : Str) : Except Err Shown :=
  if "(-".toList.isPrefixOf val && [')'].isSuffixOf val then
    match pyInt (val.drop 2).dropLast with
    | some n => .ok (.int (- n))
    | none => .error .valueError
  else
    match pyInt val with
    | some n => .ok (.int n)
    | none => .ok .unknown

/-- `parse_bool` (models/converter.py:786-792). -/
def parseBool (val : Str) : Shown :=
  if val = "true".toList then .bool true
  else if val = "false".toList then .bool false
  else .unknown

/-- Python's truth value of a result of `parse_bool`, a boolean or the text
`?` (used e.g. in models/converter.py:573 and 640). -/
def Shown.truthy : Shown → Bool
  | .bool b => b
  | .int n => n != 0
  | .unknown => true

/-! ## Types -/

/-- What the converter uses of a class: its name, its name in the Viper
program, the upper bounds of its type parameters and its direct subclasses
(lib/program_nodes.py:387-440).  Simplified: bounds are classes. -/
structure Cls where
  name : Str
  sil : Str
  tvars : List Nat
  subs : List Nat

/-- Types: classes, instantiated generic classes, and optional types
(lib/program_nodes.py:387, 781 and 975).  Union types are not modelled. -/
inductive PyT where
  | cls (c : Nat)
  | gen (c : Nat) (args : List PyT)
  | opt (t : PyT)

mutual
/-- Equality of types: classes are compared by identity, generic types by
`__eq__` (lib/program_nodes.py:904-912). -/
def PyT.decEq : (a b : PyT) → Decidable (a = b)
  | .cls c, .cls d =>
    if h : c = d then isTrue (by rw [h]) else isFalse (by intro e; cases e; exact h rfl)
  | .gen c as, .gen d bs =>
    if h : c = d then
      match PyT.decEqs as bs with
      | isTrue h' => isTrue (by rw [h, h'])
      | isFalse h' => isFalse (by intro e; cases e; exact h' rfl)
    else isFalse (by intro e; cases e; exact h rfl)
  | .opt a, .opt b =>
    match PyT.decEq a b with
    | isTrue h => isTrue (by rw [h])
    | isFalse h => isFalse (by intro e; cases e; exact h rfl)
  | .cls _, .gen _ _ => isFalse (by intro e; cases e)
  | .cls _, .opt _ => isFalse (by intro e; cases e)
  | .gen _ _, .cls _ => isFalse (by intro e; cases e)
  | .gen _ _, .opt _ => isFalse (by intro e; cases e)
  | .opt _, .cls _ => isFalse (by intro e; cases e)
  | .opt _, .gen _ _ => isFalse (by intro e; cases e)
/-- Equality of type arguments (lib/program_nodes.py:909-911). -/
def PyT.decEqs : (as bs : List PyT) → Decidable (as = bs)
  | [], [] => isTrue rfl
  | a :: as, b :: bs =>
    match PyT.decEq a b, PyT.decEqs as bs with
    | isTrue h, isTrue h' => isTrue (by rw [h, h'])
    | isFalse h, _ => isFalse (by intro e; cases e; exact h rfl)
    | _, isFalse h => isFalse (by intro e; cases e; exact h rfl)
  | [], _ :: _ => isFalse (by intro e; cases e)
  | _ :: _, [] => isFalse (by intro e; cases e)
end

/-- Types can be compared (lib/program_nodes.py:904-912). -/
instance : DecidableEq PyT := PyT.decEq

/-- `python_class` (lib/program_nodes.py:777-778, 808-809 and 956-957). -/
def PyT.pcls : PyT → Nat
  | .cls c => c
  | .gen c _ => c
  | .opt t => t.pcls

variable (C : Nat → Cls)

/-- The key of a class's type in the model (models/converter.py:737 and 741). -/
def tkey (c : Nat) : Str := (C c).sil ++ "<PyType>".toList

mutual
/-- `get_type_val` for a type (models/converter.py:736-741).  The first type
argument of an optional type is `None`, which has no `python_class`. -/
def typeVal (m : Model) : PyT → Except Err Str
  | .cls c =>
    match dictGet m (tkey C c) with
    | none => .error .keyError
    | some e => .ok (showEntry e)
  | .gen c args =>
    match typeVals m args with
    | .error e => .error e
    | .ok as => getFuncValue m (tkey C c) as
  | .opt _ => .error .attributeError
/-- The values of type arguments (models/converter.py:738). -/
def typeVals (m : Model) : List PyT → Except Err (List Str)
  | [] => .ok []
  | t :: ts =>
    match typeVal m t with
    | .error e => .error e
    | .ok x =>
      match typeVals m ts with
      | .error e => .error e
      | .ok xs => .ok (x :: xs)
end

/-- `get_type_val` for the name of a type (models/converter.py:733-734). -/
def typeValStr (m : Model) (t : Str) : Except Err Str :=
  match dictGet m (t ++ "<PyType>".toList) with
  | none => .error .keyError
  | some e => .ok (showEntry e)

/-- The end of `is_type` (models/converter.py:767-776): a `KeyError` means no.
The check for `None` never applies since `get_func_value` returns text. -/
def isTypeOf (m : Model) (valType : Str) (tv : Except Err Str) : Except Err Shown :=
  match tv with
  | .error .keyError => .ok (.bool false)
  | .error e => .error e
  | .ok typeVal =>
    if typeVal = valType then .ok (.bool true)
    else
      match getFuncValue m "issubtype<Bool>".toList [valType, typeVal] with
      | .error .keyError => .ok (.bool false)
      | .error e => .error e
      | .ok b => .ok (parseBool b)

/-- The loop over the instances of a generic class in `is_type`
(models/converter.py:757-762). -/
def anyInstance (m : Model) (valType : Str) : List (List Str × Str) → Except Err Bool
  | [] => .ok false
  | (_, option) :: os =>
    match getFuncValue m "issubtype<Bool>".toList [valType, option] with
    | .error e => .error e
    | .ok b => if (parseBool b).truthy then .ok true else anyInstance m valType os

/-- Whether the type is a class with type parameters
(models/converter.py:753). -/
def PyT.rawGeneric : PyT → Bool
  | .cls c => !(C c).tvars.isEmpty
  | _ => false

/-- `is_type` for a type (models/converter.py:747-776). -/
def isType (m : Model) (valType : Str) (t : PyT) : Except Err Shown :=
  if "__prim__".toList.isPrefixOf (C t.pcls).name then .ok (.bool false)
  else if (C t.pcls).name = "tuple".toList then .ok (.bool false)
  else if t.rawGeneric C then
    if (dictGet m (C t.pcls).sil).isNone then .ok (.bool false)
    else
      match getFuncValues m (tkey C t.pcls) [] with
      | .error e => .error e
      | .ok (options, els) =>
        match anyInstance m valType options with
        | .error e => .error e
        | .ok true => .ok (.bool true)
        | .ok false =>
          match getFuncValue m "issubtype<Bool>".toList [valType, els] with
          | .error e => .error e
          | .ok b => .ok (parseBool b)
  else isTypeOf m valType (typeVal C m t)

/-- `is_type` for the name of a type (models/converter.py:747-776). -/
def isTypeStr (m : Model) (valType : Str) (t : Str) : Except Err Shown :=
  isTypeOf m valType (typeValStr m t)

/-- `typeof` of a reference (models/converter.py:565 and 744). -/
def typeOf (m : Model) (val : Str) : Except Err Str :=
  getFuncValue m "typeof<PyType>".toList [val]

/-- `ref_has_type` for the name of a type (models/converter.py:743-745). -/
def refHasType (m : Model) (val : Str) (t : Str) : Except Err Shown :=
  match typeOf m val with
  | .error e => .error e
  | .ok vt => isTypeStr m vt t

/-- `convert_bool_value` (models/converter.py:711-717). -/
def convertBool (m : Model) (val : Str) : Except Err Shown :=
  match refHasType m val "bool".toList with
  | .error e => .error e
  | .ok b =>
    if b.truthy then
      match getFuncValue m "bool___unbox__%limited".toList ["$Snap.unit".toList, val] with
      | .error e => .error e
      | .ok s => .ok (parseBool s)
    else .error .noFit

/-- `convert_int_value` (models/converter.py:639-647). -/
def convertInt (m : Model) (val : Str) : Except Err Shown :=
  match refHasType m val "bool".toList with
  | .error e => .error e
  | .ok b =>
    if b.truthy then convertBool m val
    else
      match refHasType m val "int".toList with
      | .error e => .error e
      | .ok b =>
        if b.truthy then
          match getFuncValue m "int___unbox__%limited".toList ["$Snap.unit".toList, val] with
          | .error e => .error e
          | .ok s => parseInt s
        else .error .noFit

/-- The search of `get_basic_type` (models/converter.py:607-626) through the
subclasses, breadth first.  `fuel` bounds the number of classes visited, `none`
means that it does not suffice. -/
def basicGo (m : Model) (basicType : Str) (isGeneric : Bool) (bound : Nat) :
    Nat → List Nat → Except Err Nat
  | _, [] => .ok bound
  | 0, _ => .error .recursion
  | fuel + 1, c :: rest =>
    if !(C c).tvars.isEmpty && isGeneric then
      match dictGet m ((C c).sil ++ "_basic<PyType>".toList) with
      | none => basicGo m basicType isGeneric bound fuel rest
      | some (.const s) =>
        if s = basicType then .ok c
        else basicGo m basicType isGeneric bound fuel (rest ++ (C c).subs)
      | some (.func _ _) => basicGo m basicType isGeneric bound fuel (rest ++ (C c).subs)
    else if (C c).tvars.isEmpty && !isGeneric then
      match dictGet m (tkey C c) with
      | none => basicGo m basicType isGeneric bound fuel rest
      | some e =>
        if showEntry e = basicType then .ok c
        else basicGo m basicType isGeneric bound fuel (rest ++ (C c).subs)
    else basicGo m basicType isGeneric bound fuel (rest ++ (C c).subs)

/-- `get_basic_type` (models/converter.py:602-626). -/
def basicType (m : Model) (fuel : Nat) (val : Str) (bound : Nat) : Except Err Nat :=
  match dictGet m "get_basic<PyType>".toList with
  | none => .error .keyError
  | some (.const _) => .error .typeError
  | some (.func opts _) =>
    match dictGet opts [val] with
    | none => .ok bound
    | some b => basicGo C m b (decide (b ≠ val)) bound fuel [bound]

/-- The first direct subclass that the value's type belongs to
(models/converter.py:580-582). -/
def firstSub (m : Model) (valType : Str) : List Nat → Except Err (Option Nat)
  | [] => .ok none
  | s :: ss =>
    match isType C m valType (.cls s) with
    | .error e => .error e
    | .ok b => if b.truthy then .ok (some s) else firstSub m valType ss

/-- The value of a type argument in the model (models/converter.py:592-597). -/
def argFor (i : Nat) : List (List Str × Str) → Except Err (Option Str)
  | [] => .ok none
  | ([key], value) :: os => if Nat.toDigits 10 i = key then .ok (some value) else argFor i os
  | _ :: _ => .error .valueError

mutual
/-- `get_precise_type` (models/converter.py:568-600); `noneC` is the class
`NoneType`.  `fuel` bounds the recursion. -/
def preciseType (m : Model) (noneC : Nat) : Nat → Str → PyT → Except Err PyT
  | 0, _, _ => .error .recursion
  | fuel + 1, valType, t =>
    if (C t.pcls).name = "tuple".toList then .ok t
    else
      match isType C m valType (.cls t.pcls) with
      | .error e => .error e
      | .ok b =>
        if !b.truthy then
          match t with
          | .opt _ =>
            match isType C m valType (.cls noneC) with
            | .error e => .error e
            | .ok b => if b.truthy then .ok (.cls noneC) else .error .noFit
          | _ => .error .noFit
        else
          match basicType C m fuel valType t.pcls with
          | .error e => .error e
          | .ok basic =>
            match firstSub C m valType (C basic).subs with
            | .error e => .error e
            | .ok (some s) => preciseType m noneC fuel valType (.cls s)
            | .ok none =>
              match t with
              | .opt t' => preciseType m noneC fuel valType t'
              | .gen _ _ => .ok t
              | .cls _ =>
                if (C basic).tvars.isEmpty then .ok t
                else
                  match getFuncValues m ((C basic).sil ++ "_arg<PyType>".toList) [valType] with
                  | .error e => .error e
                  | .ok (explicit, _) =>
                    match preciseArgs m noneC fuel explicit 0 (C basic).tvars with
                    | .error e => .error e
                    | .ok args => .ok (.gen basic args)
/-- The type arguments (models/converter.py:590-597). -/
def preciseArgs (m : Model) (noneC : Nat) :
    Nat → List (List Str × Str) → Nat → List Nat → Except Err (List PyT)
  | _, _, _, [] => .ok []
  | 0, _, _, _ => .error .recursion
  | fuel + 1, explicit, i, bound :: bounds =>
    match argFor i explicit with
    | .error e => .error e
    | .ok none =>
      match preciseArgs m noneC fuel explicit (i + 1) bounds with
      | .error e => .error e
      | .ok as => .ok (.cls bound :: as)
    | .ok (some v) =>
      match basicType C m fuel v bound with
      | .error e => .error e
      | .ok b =>
        match preciseType m noneC fuel v (.cls b) with
        | .error e => .error e
        | .ok a =>
          match preciseArgs m noneC fuel explicit (i + 1) bounds with
          | .error e => .error e
          | .ok as => .ok (a :: as)
end

/-! ## Names of references -/

mutual
/-- `get_type_name` (models/converter.py:528-532).  The first type argument of
an optional type is `None`, which has no `python_class`. -/
def typeName : PyT → Except Err Str
  | .cls c => .ok (C c).name
  | .gen c args =>
    match typeNames args with
    | .error e => .error e
    | .ok s => .ok ((C c).name ++ '<' :: s ++ ['>'])
  | .opt _ => .error .attributeError
/-- The names of type arguments, separated by commas
(models/converter.py:530). -/
def typeNames : List PyT → Except Err Str
  | [] => .ok []
  | t :: ts =>
    match typeName t with
    | .error e => .error e
    | .ok x =>
      match typeNames ts with
      | .error e => .error e
      | .ok xs => .ok (if ts.isEmpty then x else x ++ ',' :: xs)
end

/-- `self.reference_values` (models/converter.py:235): the names and types of
references. -/
abbrev RefMap := Dict Str (Str × PyT)

/-- The loops that look for a name (models/converter.py:544-548 and 554-558):
names are numbered from 0, and a number is taken if name and type have been used
together.  Each round passes one entry of the dictionary, so `fuel`, which is
one more than its size, suffices. -/
def freshName (rv : RefMap) (base : Str) (t : PyT) : Nat → Nat → Str
  | 0, i => base ++ Nat.toDigits 10 i
  | fuel + 1, i =>
    if (rv.map Prod.snd).contains (base ++ Nat.toDigits 10 i, t) then
      freshName rv base t fuel (i + 1)
    else base ++ Nat.toDigits 10 i

/-- `ref_get_actual_type` (models/converter.py:562-566). -/
def actualType (m : Model) (noneC fuel : Nat) (rv : RefMap) (val : Str) (t : PyT) :
    Except Err PyT :=
  match dictGet rv val with
  | some (_, t') => .ok t'
  | none =>
    match typeOf m val with
    | .error e => .error e
    | .ok vt => preciseType C m noneC fuel vt t

/-- The second half of `get_reference_name`, with the base of the name and the
type to remember (models/converter.py:544-550 and 554-560). -/
def register (rv : RefMap) (val base : Str) (t : PyT) : Str × RefMap :=
  let n := freshName rv base t (rv.length + 1) 0
  (n, dictSet rv val (n, t))

/-- `get_reference_name` (models/converter.py:534-560).  `type.name` is the
name of the class (lib/program_nodes.py:790), or `Union` for optional types
(lib/program_nodes.py:926). -/
def refName (m : Model) (noneC fuel : Nat) (rv : RefMap) (val : Str) (t : PyT) :
    Except Err (Str × RefMap) :=
  match dictGet rv val with
  | some (n, _) => .ok (n, rv)
  | none =>
    match actualType C m noneC fuel rv val t with
    | .error .noFit => .ok (register rv val ['?'] t)
    | .error e => .error e
    | .ok a =>
      match a with
      | .opt _ => .error .attributeError
      | a =>
        if (C a.pcls).name = "NoneType".toList then
          .ok ("None".toList, dictSet rv val ("None".toList, a))
        else
          match typeName C a with
          | .error e => .error e
          | .ok base => .ok (register rv val base a)

/-- The references named while a counterexample is converted, one after the
other (models/converter.py:391-420). -/
def nameAll (m : Model) (noneC fuel : Nat) : RefMap → List (Str × PyT) →
    Except Err (List Str × RefMap)
  | rv, [] => .ok ([], rv)
  | rv, (v, t) :: rs =>
    match refName C m noneC fuel rv v t with
    | .error e => .error e
    | .ok (n, rv) =>
      match nameAll m noneC fuel rv rs with
      | .error e => .error e
      | .ok (ns, rv) => .ok (n :: ns, rv)

end Nagini.Cex
