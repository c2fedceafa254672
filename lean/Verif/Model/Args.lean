set_option linter.unusedVariables false

/-!
Model of the binding of call arguments to parameters (translators/call.py `translate_args`,
analyzer.py `visit_arguments`) and of the type check of thread arguments.

Expressions are elements of an arbitrary type `E`; only where an expression ends up and when it is
evaluated is modelled.  Not modelled: calls of builtin functions written in Silver
(translators/call.py:914-928), default factories of data classes (translators/call.py:964-969) and
types of arguments.
-/
namespace Nagini.Args

/-- The value bound to a parameter: an argument expression, the `i`-th component of a starred
argument, the entry of an unpacked dict, a fresh tuple or a fresh dict.  Models the elements of
`args` in translators/call.py:870-987; `entry` only occurs in Python's own binding. -/
inductive Val (E : Type)
  | expr (e : E)
  | item (e : E) (i : Nat)
  | entry (e : E) (key : String)
  | tuple (vs : List (Val E))
  | dict (kvs : List (String × Val E))

/-- A positional argument: plain, or starred with the length of its tuple type if that is known.
Models translators/call.py:875-906. -/
inductive Pos (E : Type)
  | plain (e : E)
  | star (e : E) (len : Option Nat)

/-- A keyword argument: `name=e`, or `**e`, for which `keys` are the keys the dict has at run time.
Models the elements of `keywords`, translators/call.py:948 (`kw.arg` is None for `**e`). -/
inductive Kw (E : Type)
  | named (name : String) (e : E)
  | unpack (e : E) (keys : List String)

/-- A function signature as Python's parser gives it: positional-only parameters, ordinary
parameters, default values (of the last of those two lists together), keyword-only parameters with
their default values, presence of `*args` and of `**kwargs`.  Models `ast.arguments` as read by
analyzer.py:1069-1096. -/
structure Sig (E : Type) where
  /-- `node.posonlyargs` -/
  posonly : List String
  /-- `node.args` -/
  pos : List String
  /-- `node.defaults` -/
  defaults : List E
  /-- `node.kwonlyargs` with `node.kw_defaults` -/
  kwonly : List (String × Option E)
  /-- `node.vararg` is given -/
  vararg : Bool
  /-- `node.kwarg` is given -/
  kwarg : Bool

variable {E : Type}

/-- The keys of `current_function.args`: ordinary and keyword-only parameters; positional-only
parameters are not visited.  Models analyzer.py:1071-1075 and 1149-1153. -/
def Sig.args (s : Sig E) : List String := s.pos ++ s.kwonly.map (·.1)

/-- The default value stored for each parameter of `args`: `args[index - len(defaults)].default =
defaults[index]`, a negative index that counts from the end of *all* parameters.  `kw_defaults` is
not read.  Models analyzer.py:1076-1080. -/
def Sig.argDefaults (s : Sig E) : List (Option E) :=
  List.replicate (s.args.length - s.defaults.length) none ++ s.defaults.map some

/-- Outcomes of `translate_args` that are not a translation: `UnsupportedException`, or a Python
exception inside of the translator.  Models translators/call.py:885-900, 971-972, 1017 and
translators/expression.py:734-735. -/
inductive Err
  | unsupported
  | crash
  deriving DecidableEq, Repr

/-- Unpacks the positional arguments: evaluated expressions in order, and values.
Models translators/call.py:875-906. -/
def unpackPos : List (Pos E) → Except Err (List E × List (Val E))
  | [] => .ok ([], [])
  | .plain e :: rest =>
    match unpackPos rest with
    | .ok (order, vs) => .ok (e :: order, .expr e :: vs)
    | .error x => .error x
  | .star e none :: _ => .error .unsupported
  | .star e (some n) :: rest =>
    match unpackPos rest with
    | .ok (order, vs) => .ok (e :: order, (List.range n).map (Val.item e) ++ vs)
    | .error x => .error x

/-- State of the loop over the keywords: evaluated expressions, `args` (`none` for `False`) and
`kw_args`.  Models the variables of translators/call.py:941-958. -/
structure KwSt (E : Type) where
  /-- `arg_stmts` -/
  order : List E
  /-- `args` -/
  args : List (Option (Val E))
  /-- `kw_args` -/
  extra : List (Option String × E)

/-- One iteration of the loop over the keywords.  `None in keys` is false, so `**e` is treated as an
unknown keyword.  Models translators/call.py:948-958 (a repeated keyword is a syntax error, so
`kw_args[kw.arg] = kw.value` always appends). -/
def kwStep (keys : List String) (kwarg : Bool) (s : KwSt E) : Kw E → KwSt E
  | .named n e =>
    if n ∈ keys then
      { s with order := s.order ++ [e], args := s.args.set (keys.idxOf n) (some (.expr e)) }
    else if kwarg then { s with extra := s.extra ++ [(some n, e)] } else s
  | .unpack e _ => if kwarg then { s with extra := s.extra ++ [(none, e)] } else s

/-- Fills parameters without argument with their default value; a missing default value fails the
assertion.  Models translators/call.py:960-973. -/
def fillDefaults : List (Option (Val E)) → List (Option E) → Except Err (List (Val E))
  | [], _ => .ok []
  | some v :: as, ds =>
    match fillDefaults as ds.tail with
    | .ok vs => .ok (v :: vs)
    | .error x => .error x
  | none :: as, ds =>
    match ds.head? with
    | some (some d) =>
      match fillDefaults as ds.tail with
      | .ok vs => .ok (.expr d :: vs)
      | .error x => .error x
    | _ => .error .crash

/-- The entries of the dict built for `**kwargs`; the key `None` of a `**e` argument has no length.
Models translators/call.py:1015-1039. -/
def wrapKw : List (Option String × E) → Except Err (List (String × Val E))
  | [] => .ok []
  | (none, _) :: _ => .error .crash
  | (some n, e) :: rest =>
    match wrapKw rest with
    | .ok kvs => .ok ((n, .expr e) :: kvs)
    | .error x => .error x

/-- `translate_args`: the expressions in the order in which their statements are emitted, and the
arguments of the translated call, without the receiver.  `recv` is `implicit_receiver`; a method
called with a receiver is assumed to have at least one ordinary parameter (else `nargs` is -1).
Models translators/call.py:860-987. -/
def translateArgs (s : Sig E) (recv : Bool) (ps : List (Pos E)) (ks : List (Kw E)) :
    Except Err (List E × List (Val E)) :=
  match unpackPos ps with
  | .error x => .error x
  | .ok (order, unpacked) =>
    let nargs := if recv then s.pos.length - 1 else s.pos.length
    let keys := if recv then s.args.tail else s.args
    let dflts := if recv then s.argDefaults.tail else s.argDefaults
    let args := (unpacked.take nargs).map some
    let varArgs := unpacked.drop nargs
    let args := args ++ List.replicate (keys.length - args.length) none
    let st := ks.foldl (kwStep keys s.kwarg) ⟨order, args, []⟩
    match fillDefaults st.args dflts with
    | .error x => .error x
    | .ok vs =>
      if s.vararg && decide (9 < varArgs.length) then .error .unsupported
      else
        let vs := if s.vararg then vs ++ [.tuple varArgs] else vs
        if s.kwarg then
          match wrapKw st.extra with
          | .ok kvs => .ok (st.order ++ st.extra.map (·.2), vs ++ [.dict kvs])
          | .error x => .error x
        else .ok (st.order, vs)

/-! ### Thread creation -/

/-- The assertion that the arguments of a thread have the types of the parameters; `checks` are the
truth values of the individual checks.  They are combined with `EqCmp`.
Models translators/call.py:1540-1551, 1562. -/
def threadArgCheck (checks : List Bool) : Bool := checks.foldl (fun acc c => acc == c) true

end Nagini.Args
