/-!
The encoding of algebraic data types: the domain functions and axioms that are generated for a class hierarchy
below `ADT`, the contracts of the boxing functions, and the translation of constructor calls, field accesses and
comparisons.  Viper terms and formulas are syntax here; their meaning is in Spec/Adt.lean.
-/
namespace Nagini.Adt

/-- The types of fields, after `try_unbox` (analyzer.py:618-620).  Generic types, unions, callables, sequences, sets
and multisets are left out. -/
inductive FTy
  | int | bool
  | cls (id : Nat) (name : String)
  | type
  deriving DecidableEq

/-- A class with its own fields and its direct subclasses; models the attributes of `PythonClass` in
lib/program_nodes.py:399-428 that the encoding uses.  Classes are identified by a number; names need not be
unique across modules. -/
inductive Cls
  | mk (id : Nat) (name : String) (fields : List (String × FTy)) (subs : List Cls)

/-- lib/program_nodes.py:399-428. -/
def Cls.id : Cls → Nat
  | .mk i _ _ _ => i

/-- lib/program_nodes.py:399-428. -/
def Cls.name : Cls → String
  | .mk _ n _ _ => n

/-- lib/program_nodes.py:399-428. -/
def Cls.fields : Cls → List (String × FTy)
  | .mk _ _ f _ => f

mutual
/-- Models `all_subclasses`, lib/program_nodes.py:474-482. -/
def Cls.all : Cls → List Cls
  | .mk i n f ss => .mk i n f ss :: alls ss

/-- The loop over the direct subclasses, lib/program_nodes.py:480-481. -/
def alls : List Cls → List Cls
  | [] => []
  | c :: cs => c.all ++ alls cs
end

/-- `adt.all_subclasses[1:]`, as in translators/program.py:744. -/
def Cls.cons (A : Cls) : List Cls := A.all.tail

/-- Viper types; `adt k` is the domain of the ADT with identifier `k` (translators/program.py:1131-1133), `ty` the domain
of types (translators/type.py:52-68). -/
inductive Srt
  | int | bool | ref | ty
  | adt (k : Nat)
  deriving DecidableEq

/-- Function symbols.  The functions of an ADT are identified by the identifier of the ADT and by the names of
constructors and fields, as the names generated in translators/program.py:737-791 are; `Sym.str` is the generated
name. -/
inductive Sym
  | cons (k : Nat) (c : String)
  | decons (k : Nat) (c f : String)
  | consType (k : Nat)
  | const (k : Nat) (c : String)
  | isCons (k : Nat) (c : String)
  | box (k : Nat)
  | unbox (k : Nat)
  | typeof
  | issubtype
  | pytype (c : Nat)
  deriving DecidableEq

/-- The bound variables of the axioms: `_arg0`, ... and `___arg0`, ... (translators/program.py:703, 719, 801-803), `obj`,
`___other`, `_adt`, `ref` and the result of a function. -/
inductive V
  | arg (i : Nat)
  | arg2 (i : Nat)
  | obj | other | adt | ref | result
  deriving DecidableEq

/-- Viper terms, as built by lib/viper_ast.py:212-221, 370, 376-379, 405, 478. -/
inductive Tm
  | var (x : V)
  | int (n : Int)
  | bool (b : Bool)
  | null
  | app (f : Sym) (ts : List Tm)

/-- Viper formulas; `eqv` is `EqCmp` of two formulas, `atom` the application of a Bool-valued function
(lib/viper_ast.py:212-221, 352, 373, 461-464, 472, 481). -/
inductive Fm
  | tt
  | eq (s t : Tm)
  | atom (f : Sym) (ts : List Tm)
  | eqv (φ ψ : Fm)
  | and (φ ψ : Fm)
  | or (φ ψ : Fm)
  | imp (φ ψ : Fm)
  | all (x : V) (s : Srt) (φ : Fm)

/-- `Forall` with several variables; triggers are ignored (lib/viper_ast.py:481). -/
def foralls (xs : List (V × Srt)) (φ : Fm) : Fm := xs.foldr (fun x ψ => .all x.1 x.2 ψ) φ

/-- Models `_conjoin`, translators/program.py:723-728; the list is never empty where it is used. -/
def conjoin : List Fm → Fm
  | [] => .tt
  | [φ] => φ
  | φ :: φs => .and φ (conjoin φs)

/-- Models `_disjoin`, translators/program.py:730-735; the list is never empty where it is used. -/
def disjoin : List Fm → Fm
  | [] => .tt
  | [φ] => φ
  | φ :: φs => .or φ (disjoin φs)

/-- Models `translate_type`, translators/type.py:52-68. -/
def translateType : FTy → Srt
  | .int => .int
  | .bool => .bool
  | .cls _ _ => .ref
  | .type => .ty

/-- Whether the type has the name of the ADT, translators/program.py:699, 715, 760. -/
def sameName (A : Cls) : FTy → Bool
  | .cls _ n => n == A.name
  | _ => false

/-- Whether the type is the ADT, translators/program.py:863, translators/call.py:190. -/
def isAdt (A : Cls) : FTy → Bool
  | .cls i _ => i == A.id
  | _ => false

/-- The Viper type of a field, translators/program.py:699-702, 715-718, 760-763. -/
def fieldSort (A : Cls) (t : FTy) : Srt := if sameName A t then .adt A.id else translateType t

/-- The variables for the arguments from the `i`-th on; the loop of translators/program.py:698-704. -/
def paramsFrom (A : Cls) : Nat → List (String × FTy) → List (V × Srt)
  | _, [] => []
  | i, (_, t) :: fs => (.arg i, fieldSort A t) :: paramsFrom A (i + 1) fs

/-- Models `_get_adt_cons_params_decl` and `_get_adt_cons_params_use`, translators/program.py:690-721. -/
def params (A c : Cls) : List (V × Srt) := paramsFrom A 0 c.fields

/-- The second copy of the variables, translators/program.py:801-803. -/
def prime : V → V
  | .arg i => .arg2 i
  | x => x

/-- `args`, translators/program.py:798. -/
def argTms (A c : Cls) : List Tm := (params A c).map (fun x => .var x.1)

/-- `args_2`, translators/program.py:801. -/
def argTms2 (A c : Cls) : List Tm := (params A c).map (fun x => .var (prime x.1))

/-- A constructor applied to terms, translators/program.py:805-807. -/
def consApp (A c : Cls) (ts : List Tm) : Tm := .app (.cons A.id c.name) ts

/-- Models `_create_adt_equality_axioms`, translators/program.py:794-821. -/
def equalityAxioms (A : Cls) : List Fm :=
  (A.cons.filter (fun c => !c.fields.isEmpty)).map fun c =>
    let ds := params A c
    foralls (ds ++ ds.map (fun x => (prime x.1, x.2)))
      (.eqv (.eq (consApp A c (argTms A c)) (consApp A c (argTms2 A c)))
        (conjoin ((argTms A c).zip (argTms2 A c) |>.map fun p => .eq p.1 p.2)))

/-- Models `_create_adt_axiom_deconstructors_over_constructors`, translators/program.py:824-852. -/
def deconsOverCons (A : Cls) : List Fm :=
  (A.cons.filter (fun c => !c.fields.isEmpty)).map fun c =>
    conjoin ((c.fields.zip (argTms A c)).map fun p =>
      foralls (params A c) (.eq (.app (.decons A.id c.name p.1.1) [consApp A c (argTms A c)]) p.2))

/-- Models `type_check`, translators/type.py:87-103 and translators/type_domain_factory.py:814-836, for the types
of fields. -/
def typeCheck (t : Tm) : FTy → Fm
  | .cls i _ => .atom .issubtype [.app .typeof [t], .app (.pytype i) []]
  | _ => .tt

/-- The fields whose type is checked, translators/program.py:862-864. -/
def checked (A : Cls) : FTy → Bool
  | .int => false
  | .bool => false
  | t => !isAdt A t

/-- Models `_create_adt_axiom_deconstructor_types`, translators/program.py:854-879. -/
def deconsTypes (A : Cls) : List Fm :=
  (A.cons.filter (fun c => c.fields.any fun f => checked A f.2)).map fun c =>
    conjoin ((c.fields.filter fun f => checked A f.2).map fun f =>
      .all .adt (.adt A.id) (typeCheck (.app (.decons A.id c.name f.1) [.var .adt]) f.2))

/-- Models `_create_adt_axiom_constructors_over_deconstructors`, translators/program.py:882-919. -/
def consOverDecons (A : Cls) : List Fm :=
  (A.cons.filter (fun c => !c.fields.isEmpty)).map fun c =>
    .all .obj (.adt A.id) (.imp (.atom (.isCons A.id c.name) [.var .obj])
      (.eq (.var .obj) (consApp A c (c.fields.map fun f => .app (.decons A.id c.name f.1) [.var .obj]))))

/-- Models `_create_adt_axiom_associate_cons_type_with_const`, translators/program.py:921-953. -/
def consTypeConst (A : Cls) : List Fm :=
  A.cons.map fun c =>
    foralls (params A c) (.eq (.app (.consType A.id) [consApp A c (argTms A c)]) (.app (.const A.id c.name) []))

/-- Models `_create_adt_axiom_constrain_cons_type_with_const`, translators/program.py:955-982. -/
def consTypeTotal (A : Cls) : List Fm :=
  [.all .obj (.adt A.id) (disjoin (A.cons.map fun c =>
    .eq (.app (.consType A.id) [.var .obj]) (.app (.const A.id c.name) [])))]

/-- Models `_create_adt_axiom_associate_cons_type_with_bool`, translators/program.py:984-1016. -/
def consTypeBool (A : Cls) : List Fm :=
  A.cons.map fun c =>
    .all .obj (.adt A.id) (.eqv (.eq (.app (.consType A.id) [.var .obj]) (.app (.const A.id c.name) []))
      (.atom (.isCons A.id c.name) [.var .obj]))

/-- Models `_create_adt_axiom_cons_are_subclasses`, translators/program.py:1018-1050. -/
def consSubclasses (A : Cls) : List Fm :=
  [.all .ref .ref (.imp (.atom .issubtype [.app .typeof [.var .ref], .app (.pytype A.id) []])
    (disjoin (A.cons.map fun c => .eq (.app .typeof [.var .ref]) (.app (.pytype c.id) []))))]

/-- The axioms of the domain of an ADT, translators/program.py:1152-1184. -/
def axioms (A : Cls) : List Fm :=
  equalityAxioms A ++ deconsOverCons A ++ deconsTypes A ++ consOverDecons A ++ consTypeConst A ++
    consTypeTotal A ++ consTypeBool A ++ consSubclasses A

/-- The functions of the domain with the types of their arguments and results, translators/program.py:737-791.
The flag tells that the function is unique, that is, different from the other unique functions of its type. -/
def functions (A : Cls) : List (Sym × List Srt × Srt × Bool) :=
  A.cons.map (fun c => (.cons A.id c.name, (params A c).map (·.2), .adt A.id, false)) ++
  A.cons.flatMap (fun c => c.fields.map fun f =>
    (.decons A.id c.name f.1, [.adt A.id], fieldSort A f.2, false)) ++
  (.consType A.id, [.adt A.id], .int, false) ::
  A.cons.map (fun c => (.const A.id c.name, [], .int, true)) ++
  A.cons.map (fun c => (.isCons A.id c.name, [.adt A.id], .bool, false))

/-- The postconditions of the boxing function for `obj` and `result`, translators/program.py:1052-1094. -/
def boxPost (A : Cls) : List Fm :=
  typeCheck (.var .result) (.cls A.id A.name) ::
  .eq (.app (.unbox A.id) [.var .result]) (.var .obj) ::
  A.cons.flatMap fun c =>
    [.eqv (.atom (.isCons A.id c.name) [.var .obj]) (.eq (.app .typeof [.var .result]) (.app (.pytype c.id) [])),
     .all .other (.adt A.id) (.eqv (.eq (.var .obj) (.var .other))
       (.eq (.var .result) (.app (.box A.id) [.var .other])))]

/-- The precondition of the unboxing function for `ref`, translators/program.py:1096-1100. -/
def unboxPre (A : Cls) : Fm := typeCheck (.var .ref) (.cls A.id A.name)

/-- The postcondition of the unboxing function, translators/program.py:1101-1108. -/
def unboxPost (A : Cls) : Fm := .eq (.app (.box A.id) [.var .result]) (.var .ref)

/-- The names of the functions of the domain, before they are made unique; `n` is the name of the ADT.  The same
string always becomes the same unique name (lib/util.py:406-424).  translators/program.py:747, 764-765, 776, 782-783,
788-789; the boxing functions and the type functions are named elsewhere. -/
def Sym.str (n : String) : Sym → String
  | .cons _ c => n ++ "_" ++ c
  | .decons _ c f => n ++ "_" ++ c ++ "_" ++ f
  | .consType _ => n ++ "_" ++ "cons_type"
  | .const _ c => n ++ "_" ++ c ++ "_type"
  | .isCons _ c => n ++ "_" ++ "is_" ++ c
  | _ => ""

/-! ### Expressions -/

/-- Python expressions: constants, constructor calls, accesses to a field of an expression whose static type is
the constructor `c` of `A` (translators/expression.py:1080-1114), and variables. -/
inductive Ex
  | int (n : Int)
  | bool (b : Bool)
  | var (x : V)
  | new (A c : Cls) (es : List Ex)
  | field (A c : Cls) (e : Ex) (f : String)

mutual
/-- Models the translation of these expressions: translate_adt_cons, translators/call.py:177-210, and
translate_adt_decons, translators/expression.py:1080-1114.  Constants are arguments of fields of their own type
here, so `to_type` (translators/call.py:199) does not change them. -/
def trans : Ex → Tm
  | .int n => .int n
  | .bool b => .bool b
  | .var x => .var x
  | .new A c es => .app (.box A.id) [consApp A c (transArgs A c.fields es)]
  | .field A c e f =>
    let d := .app (.decons A.id c.name f) [.app (.unbox A.id) [trans e]]
    match c.fields.lookup f with
    | some t => if isAdt A t then .app (.box A.id) [d] else d
    | none => d

/-- The arguments of a constructor call, translators/call.py:186-199. -/
def transArgs (A : Cls) : List (String × FTy) → List Ex → List Tm
  | (_, t) :: fs, e :: es =>
    (if isAdt A t then .app (.unbox A.id) [trans e] else trans e) :: transArgs A fs es
  | _, _ => []
end

/-- `e == e'` for operands whose static types are ADTs, translators/expression.py:1253-1289, 1500-1503: `to_ref`
does not change references. -/
def transEq (a b : Ex) : Fm := .eq (trans a) (trans b)

/-- `e is e'`, translators/expression.py:1487-1488. -/
def transIs (a b : Ex) : Fm := .eq (trans a) (trans b)

/-- `isinstance(e, C)` for a class `C`, translators/call.py:88-104. -/
def transIsinstance (e : Ex) (c : Cls) : Fm :=
  .atom .issubtype [.app .typeof [trans e], .app (.pytype c.id) []]

end Nagini.Adt
