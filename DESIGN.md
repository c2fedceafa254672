# Design: a formal model of nagini's translator and service layer

Source under study: `/repo` (marcoeilers/nagini, pinned; Python). Model and
proofs: `/verif/lean` (Lean 4.33.0, Mathlib imported module by module).

## Trusted base

* Lean's kernel, plus the axioms every theorem depends on.  We add none; the
  only axioms that may appear are the standard `propext`, `Quot.sound` and
  `Classical.choice`.
* The correspondence between the Lean definitions and the Python / Silver text
  they cite.  Each definition cites file and lines and names simplifications.
* The reference semantics of Python used as specification (evaluation order,
  floor division, slicing, import system, unwinding).  They are small,
  separate `Spec` definitions placed next to the properties that use them.
* Not modelled at all: Viper/Silicon/Carbon/Z3, the JVM bridge, mypy, the
  Python parser, file system and network.

## Method

* Python mutable objects become values; exceptions become `Option`/`Except`
  results or explicit error constructors; every partial operation of the code
  has an explicit error branch in the model.
* For translators the model contains (1) source syntax, (2) a reference
  big-step semantics for the source, (3) the translation function transcribed
  from the code, (4) a semantics of the target fragment, and the theorem is
  refinement: for all programs and states target result = source result.
* For data-structure code the model is a state machine and the theorem an
  invariant over all histories.
* For the concurrent service the model is a labelled transition system whose
  steps are the atomic regions of the code (between awaits / lock operations)
  and theorems range over all finite interleavings.
* Where the real code violates the stated property we prove the negation with
  a concrete witness (theorem name ending in `_fails`/`_counterexample`) and a
  `_partial` theorem with the exact guard under which the property holds.

## Plan per property

| id | modelled | how proved |
|----|----------|-----------|
| C01 | hoisting translation of expressions to (statements, pure expression) | refinement by induction on expressions; guard "later operands do not write what earlier operands read"; counterexample `x.f + m(x)` |
| C02 | `translate_BoolOp` incl. guarded statements and value chain | induction on operand list; counterexample |
| C03 | `translate_IfExp` | refinement; counterexample |
| C04 | `translate_Compare` | induction on chain; counterexample |
| C05 | `translate_stmt_Assign`/`assign_to` on locals | refinement under non-interference guard; counterexample swap |
| C06 | `_assign_to_tuple`, `_assign_to_starred` | equality with Python segments under guard; counterexample |
| C07 | `toposort_classes` + `chain_*` | sortedness + first-match lemma |
| C08 | `create_exception_catchers`, finally dispatch | induction on context stack; counterexample with `with` |
| C09 | Return/Break/Continue + `translate_finally` | induction on context stack; counterexamples |
| C10 | pure.py wrappers and let encoding | induction on statements |
| C11 | match translation | induction on patterns/cases |
| C12 | inhaled facts vs. Python's containers | induction on source lists |
| C13 | for-loop state machine + `Iterator___next__` contract | invariant over iterations |
| C14 | `translate_args` | equality with Python binding |
| C15, C16 | Silver definitions over `Int`/`BitVec` | arithmetic; counterexamples |
| C17, C18, C20, C21 | Silver sequence contracts over `List` | list lemmas; counterexamples |
| C19 | postconditions of `tuple___createN__` | case analysis, counterexample for N≥7 |
| C22, C23 | `string_to_int`, `int_to_string` | base-256 positional representation; counterexamples |
| C24, C25 | axioms as predicates over arbitrary interpretations | derivation of `False`; model construction for the union-free part |
| C26, C27 | class chains | induction on chains |
| C28, C29 | generic subtyping; operator selection | decision logic; counterexamples |
| C30 | node classes as an inductive type with `translate`/`always_true` | structural induction |
| C31 | guard collector | structural induction |
| C32, C33 | measure maps and checks | well-foundedness |
| C34 | lock/thread transition system | invariant over schedules |
| C35 | ghost checker as predicate, extraction as function | simulation; counterexamples |
| C36 | `get_fresh_name` | invariant over histories |
| C37 | alias stack machine | induction on well-nested scripts; counterexample |
| C38, C39, C40, C42 | graph traversals | measure for termination, reachability for exactness |
| C41 | body index computation | list lemmas |
| C43 | error rules tables and conversion | finite table check lifted to all errors |
| C44–C48 | service and LSP transition systems | invariants over all schedules; counterexample schedules |
| C49, C50 | annotation matching, duplicate filter | multiset lemmas |
| C51, C52 | Silver definitions of power, `bit_length`, `~`, `/` | arithmetic; counterexample |
| C53 | the choice of the module of a from-import | decision logic; counterexample |
| C54 | `ignore_waitlevel_constraints` as a state machine | invariant over event lists; counterexample |
| C55 | the assertion about thread arguments | induction on the list of checks; counterexample |
| C56 | `translate_operator` against Python's rule | decision logic over class chains; counterexamples |
| C57 | override checks as contract refinement | induction on class chains, exact characterisation |
| C61 | common supertype | induction on the recursion; counterexample |
| C58, C59, C60 | search for rules, texts of branch conditions, removal of duplicates | structural induction; counterexamples |

Nothing in the list is inexpressible; what is abstracted away is stated with
each definition and in the sections below.

## What is modelled

Paths are relative to `/repo/src/nagini_translation`.  Everything not listed is not
modelled.  Each definition repeats its own citation and simplifications.

| module | code | left out or simplified |
|---|---|---|
| Hoist (C01-C04) | `translators/expression.py` BinOp, UnaryOp, BoolOp, IfExp, Compare, field reads, calls returning a hoisted statement plus an expression | one heap of fields; calls are arbitrary state transformers; no exceptions |
| Unpack (C05, C06) | `translators/statement.py` `translate_stmt_Assign`, `assign_to`, `_assign_to_tuple`, `_assign_to_starred` | targets are locals; field and subscript targets left out |
| Unwind (C08, C09) | `translators/statement.py` try/with/return/break/continue/raise, `translators/common.py` catchers, `lib/util.py` `get_surrounding_try_blocks` | statements are positions in a context of frames; the code between jumps is abstract |
| Classes (C07, C26, C27) | `lib/program_nodes.py` `issubtype`, `get_common_superclass`, member lookup; `lib/util.py` toposort; `translators/common.py` `chain_*` | single inheritance; no generics |
| Args (C14, C55) | `translators/call.py` `translate_args`, thread creation; `analyzer.py` `visit_arguments` | builtins written in Silver, data class factories |
| Ops (C29, C56) | `lib/resolver.py` operator typing; `translators/expression.py` `translate_operator` | operand types are classes; `__pow_unrolled__` |
| Overrides (C57) | `lib/program_nodes.py` `PythonMethod.process`; `translators/program.py` override checks | names, defaults, declared exceptions, `__init__` with class methods, predicates, static fields |
| Service (C44, C46, C47) | `service.py` `verify`, `_verify_concurrent`, `_verify_serial`, `cancel`, `reconfigure`; the error manager's dictionaries; jobs of `viper_server.py` | translation, backends and conversion are arbitrary functions; exceptions while loading resources; `viper_text`; durations |
| History (C45) | `lib/config.py` `ObligationConfig`; the detection in `main.py` `translate`; `service.py` `_reset_obligations`; the server loop of `main.py` | whether a program needs obligations is an input; interpolation and the default section of `configparser` |
| Lsp (C48) | `lsp_server.py` `run_verification`, `_verify_blocking`, on top of Service | number of worker threads; order of delivery; failures of the service; documents are tokens |
| TestCheck (C49, C50) | tests.py: `_create_annotation` (back-end filter), `resolve_references`, `_get_expected_output`, `check_errors`, the three `match` methods, removal of duplicates in `_evaluate_result` | regular expression and tokens of annotations, wrapping of errors, skipping of files, `pytest.skip` after a comparison that succeeded |
| Errors (C43, C58, C59, C60) | `lib/errors/manager.py` (`_get_item`, rules, `_convert_error`), `lib/errors/wrappers.py` `Reason`, `Error`, all of `lib/errors/messages.py` and `lib/errors/rules.py`, `pprint`, `get_target_name`, `get_containing_member` of `lib/util.py`, `Failure.to_string`, `_failure_diagnostics` | `transformError` (errors are taken to be their own transformation), counterexamples, `ast.unparse` (any function), texts of positions |
| Generics (C28, C61) | `lib/program_nodes.py` `issubtype`, `superclass`, `__eq__` of classes and generic types; `lib/resolver.py` `common_supertype` | union types, generic classes used without arguments, bounds of type variables |
| Pure (C10) | `translators/pure.py`: wrappers of all statements, collection of names, translation from the last wrapper to the first; patterns of match statements without arguments; definedness checks | boxing, the translation of operators and calls (an arbitrary interpretation of Viper functions which Python agrees with), class patterns with arguments (rejected) |
| Match (C11) | `translators/statement.py` 1088-1345: conditions, guards, assignments and definedness marks of match statements; field permissions | the translation of operators and calls (arbitrary functions which Python agrees with), statements emitted by guards and constants (rejected by the code), type tests of captured variables, bodies (marks) |
| Comp (C12) | `translators/expression.py` 166-495: the assertions inhaled for list, filtered list, set and dict comprehensions, their well-definedness checks, the element access per type of the source | the element, key, value and filter expressions (arbitrary partial functions of the element), triggers, unhashable keys, tuple targets (crash), several `for` clauses (rejected) |
| For (C13) | `translators/statement.py` 471-697 and 759-891: the generated statements and the generated invariant of for loops; the contracts of `Iterator.__next__`, `__iter__` and `__del__` in `resources/iterator.sil`, `list.sil`, `set_dict.sil`, `bytearray.sil`, `range.sil` | the loop body, the targets and the `else` clause (arbitrary relations; the body cannot change the container, because the iterator keeps a share of its permission), user invariants, obligations, information flow, type information about other variables |
| Result (C62) | `translators/statement.py` 1756-1776 (`_set_result_none`) and its uses in 874, 890, 1699, 1835-1874 (`return`); `translators/method.py` 585-592, `translators/call.py` 1043-1135 (initial value of the result variable); what Viper knows about it at the head of a loop | the jumps (control flow is that of the source; see Unwind), all statements that cannot jump (arbitrary functions of the state), `return` without value (rejected by mypy in methods with a result), `with` |
| Ghost (C35) | `ghost/ghost_checker.py`: `visit_Return`, `visit_Assign`, `visit_AugAssign`, `visit_For`, `visit_While`, `visit_If`, `visit_Expr`, `visit_Break`, `visit_Continue`, `check_for_call`, `check_call`, `is_assignable`, `is_ghost`, `_is_expr_ghost`, with the flags they store in the AST; `ghost/extraction.py`: `extract` and the visitors of these statements and of calls | ghost classes and fields, receivers of method calls, keyword and starred arguments, default arguments, `Unfolding`, `Reveal`, IO operations, comprehensions, threads, `with`, `try`, `raise`, `assert`, `del`, list patterns and nested tuples as targets; that pure functions call no impure functions is assumed (`PureOk`, checked elsewhere) |
| Adt (C63, C64, C65) | `translators/program.py:690-1184` (domain functions, axioms and boxing functions of ADTs), `lib/program_nodes.py`: `all_subclasses`, `fresh`; `translators/call.py`: `translate_adt_cons`, `isinstance` of a class; `translators/expression.py`: `translate_adt_decons`, `==` and `is` of ADTs | fields of generic, union, sequence, set and callable types; conversion of arguments to the type of the field other than unboxing ADTs; ADTs as elements of other values; triggers. The type order on classes is assumed to be the nominal one (C25) |
| Threads (C66, C67) | `translators/call.py:1624-1771` (join), `translators/obligation/fork.py:93-176` (start: arguments and `Old` expressions), `translators/contract.py:137-345, 393-411, 921-1010` (permissions, `Old`, `Forall` over integers), `lib/util.py:376-403` | preconditions, wait levels (C34) and type facts; `Rd`, wildcards, quantified permissions, `Let`, `Exists`; predicates are opaque; the texts of different `Old` expressions are different (C22); the amount of `ThreadPost` is the one before the join; the thread's postconditions are evaluated in the heap in which it ended |
| IO (C68, C69) | `analyzer_io.py:187-352` (properties, existentials), `lib/io_checkers.py:35-88`, `lib/program_nodes.py:1276-1487, 1699-1822`, `translators/io_operation/definition.py:41-207`, `termination_check.py:54-172`, `opener.py:80-213`, `result_translator.py:138-208`, `use.py:52-122`, `lib/guard_collectors.py:35-56` | the body of `Open` only (the exhale before it is not modelled); uses of operations in method contracts (`ctoken`, leak checks); expressions are names, literals and binary operators; `IOForall` over types only; getters by pairs of names; Viper's heap is an arbitrary structure `Res` |
| Cfg (C70, C71) | `translators/method.py:425-432, 516-616, 625-887`, `translators/statement.py:908-1032, 1066-1086, 1688-1874`, `translators/expression.py:800-905`, `translators/common.py:846-868`, `lib/util.py:158-173, 278-284`, `lib/program_nodes.py:1526-1587`, `analyzer.py:1889-1958` | `if` and `while` flattened to labels and jumps; loops are run, not replaced by their invariant; simple statements, conditions and calls are functions of the store; `__enter__`, `__exit__` and context expressions raise nothing and `__exit__` swallows nothing; methods with return type and declared exceptions only; inlined methods (`add_handlers_for_inlines`) not modelled; nothing is said about Python executions that do not terminate and reach no failing check |
| Oblig (C72–C74) | `translators/obligation/inexhale.py`, `translators/obligation/method_node.py:133-146, 232-313`, `translators/obligation/loop_node.py:85-102, 122-242`, `translators/obligation/method_call_node.py:83-121`, `translators/obligation/node_constructor.py:67-95`, `translators/obligation/utils.py:37-54`, `translators/obligation/manager.py:65-90`, `translators/obligation/types/must_release.py`, `translators/obligation/types/must_terminate.py`, `nagini_contracts/lock.py:72-89` | statements that do not concern obligations are relations on states; verification is a weakest precondition over the permissions of obligations (`perm` in an exhale is the remaining permission; a jump out of a Viper loop gives back the permissions not passed to it; at most a full permission to a field); locks are abstract numbers and are not reentrant, lock invariants and wait levels omitted (see WaitLevel); one thread; no `MustInvoke`, no overriding (see Overrides, Termination), no `finally`, no iterators. Remarks: `break` jumps behind the statements that reset `MustTerminate`, so that too much of it is held there (more checks, not fewer); calls in a loop are compared with the measures of the method, not of the loop |
| Dispatch (C75) | `translators/program.py:102-116, 215-281, 283-351, 398-413, 1406-1483`, `translators/method.py:506-514, 558-600`, `translators/call.py:251-349, 1042-1112, 1291-1328, 1772-1839`, `lib/resolver.py:89-92`, `translators/common.py:927-943`, `lib/program_nodes.py:495-501, 551-585, 667-673, 1139-1152` | straight-line code and loops are verified by weakest preconditions over abstract heaps (permissions and framing not represented); the types of receivers and arguments are those mypy infers, and mypy rejects `o.__init__(..)`; no `ContractOnly`, `Inline`, exceptions, generics; static and class methods make no assumption about a receiver and are omitted |
| Defined (C76, C77) | `translators/common.py:266-307`, `translators/expression.py:968-979, 998-1011`, `translators/statement.py:1450-1464`, `translators/method.py:855-864`, `translators/program.py:621-638, 656-669`, `translators/pure.py:336-356`, `translators/call.py:1042-1100`, `lib/context.py:164-180` | `_isDefined` is an arbitrary set of identities (`string_value` as in C22); code is verified by weakest preconditions with loop invariants; no `return`, `break`, `continue`, `finally` (see C70), no module-level code (C39), no augmented assignment |
| Families (C78–C80) | `translators/predicate.py:66-190`, `translators/program.py:1474-1482, 1520-1522`, `translators/call.py:1345-1352`, `translators/contract.py:229-243`, `lib/program_nodes.py:631-640, 1139-1144` | assertions are sets of resources of a commutative monoid; the order of members is an arbitrary permutation (`toposort_flatten`); the members' type variables, abstract families (`ContractOnly`) and the methods that check framing are omitted |
| Cex (C81–C84) | `models/converter.py:94-233, 391-420, 528-645, 711-717, 743-795`, `models/extractor.py` | texts are lists of characters, the solver's model is a list of named constants and tables of s-expressions, printed by Silver with single spaces; Silicon prints integer literals as `-5` and the solver writes `(- 5)`; heap chunks, fields, sequences, sets, dictionaries, tuples and old states are omitted |
| Sif (C85–C87) | `sif/translators/statement.py`, `sif/translators/expression.py:20-35`, `translators/statement.py:780-891, 1702-1776`, `sif/lib/viper_ast_extended.py:41-110` | what the extended nodes mean (structured jumps; they are compiled away by Scala code outside the repository) is trusted; contracts, invariants, low checks, definedness and obligations are omitted, expressions are arbitrary functions of the state, iterators are lists of elements to come |
| Prelude (C88–C90) | the contracts in `resources/bool.sil:298-336, 464-488, 547-555`, `resources/str.sil:8-39`, `resources/bytes.sil:8-100`, `resources/range.sil:8-79`, `resources/seq.sil:8-69`, `resources/pset.sil:8-107`, `resources/byteseq.sil:9-89`, `resources/bytearray.sil:17-23` | contracts are predicates over arbitrary interpretations (triggers ignored); types are interpreted nominally, `Set` and `Multiset` are finite; floats, slices and joins are not modelled |
| Exsures (C91, C92) | `translators/method.py:131-221, 360-407, 558-624` (error variable and postconditions), `translators/expression.py:816-835`, `translators/call.py:704-736`, `translators/program.py:283-431` (error results of override checks), `analyzer.py:1240-1245` | assertions are arbitrary relations, the result is part of the state; parameter names, default values, inlined methods and obligations are not modelled |
| Amounts (C93) | `translators/permission.py:28-155` | literals are integers; abstract read permissions are not modelled; divisors are integer expressions with their Python value |
| Members (C94) | `resources/list.sil:19-23`, `resources/tuple.sil:176-178`, `resources/seq.sil:17-21`, `resources/range.sil:66-71, 82-86`, `resources/set_dict.sil:8-177`, `translators/expression.py:1539-1551` | permissions and element types are left out; hashes are assumed to agree with `==`; a Viper map is a finite domain and a function |
| Aggregates (C95) | `resources/bool.sil:500-518, 524-537, 542-576` | permissions are left out; the postcondition of `__seq_ref_to_seq_int` that contradicts booleans (C88) is restricted to exact integers |
| Quant (C96) | `translators/contract.py:658-696, 896-1089`, `translators/common.py:571-643`, `translators/expression.py:969-972`, `lib/context.py:164-192` | triggers, definedness and quantified permissions are left out; the sequence of a collection is taken to have its elements; mypy is trusted to give the elements the type of the parameter (an example shows that this is needed) |
| Aug (C97) | `translators/statement.py:444-466, 1392-1393, 1432, 1509-1516`, `translators/expression.py:1291-1334`, `resources/list.sil:107-127` | static types are the classes of the values; right-hand sides are arbitrary effects; no properties, static fields or negative indices; permissions are left out |
| Globals (C98) | `lib/program_nodes.py:1680-1686`, `translators/program.py:172-205`, `translators/statement.py:1433-1467`, `translators/expression.py:909-945`, `translators/method.py:933-1036`, `analyzer.py:1192-1198, 1370-1392` | one module, integer variables; loops are given by their unrolled runs; functions with `global` statements are left out (their stores count twice) |
| Statics (C99, C100) | `translators/program.py:120-170, 1350-1355`, `translators/expression.py:1014-1070, 1127-1190`, `lib/program_nodes.py:533-572, 1688-1696`, `analyzer.py:1549-1600`, `translators/statement.py:378-385` | single inheritance, integer attributes; no enumerations, union types or properties |
| Truth (C101, C102) | `translators/common.py:110-226, 679-772`, `lib/program_nodes.py:595-604, 718-732, 925-1001, 1969-1982`, `translators/program.py:415-437, 1425-1431`, the `__bool__` functions in `resources/*.sil` (default float encoding) | no enumerations, no pure collections; the order of the options of a union is any order with subclasses first |
| Enums (C103) | `translators/program.py:120-170, 1196-1285, 1350-1361`, `translators/call.py:212-224`, `translators/expression.py:1492-1497`, `translators/common.py:209-219`, `resources/bool.sil:297-327, 470-488` | values of members are given as numbers; arithmetic on members is left out |
| Inline (C104) | `translators/call.py:1042-1161`, `translators/common.py:846-865, 900-919`, `translators/expression.py:800-907`, `translators/method.py:515-549, 660-888`, `translators/statement.py:967-1032, 1835-1874` | objects and exceptions are numbers; every `except` clause catches everything; a `try` has an `except` clause or a `finally` suite, with simple statements; no loops; jumps are outcomes of statements; arguments are expressions without calls |
| Fields (C105, C106) | `lib/program_nodes.py:533-560, 643-653, 1856-1877`, `translators/expression.py:1014-1034`, `translators/statement.py:417-442, 1466-1495`, `translators/program.py:98-109`, `translators/contract.py:313-316, 342-345` | class attributes are left out (C99); code is not inlined; fields are given by class and name; the steps of executions are creation, assignment, `del`, and transfers of permissions between any number of owners; values are numbers |
| Unions (C107, C108) | `translators/call.py:663-771, 908-909, 1163-1225, 1262-1366`, `translators/common.py:807-844`, `lib/program_nodes.py:1955-1982` | the receiver is a local variable; no exceptions, predicates, inlined methods or locks; the order of the options is any order with subclasses first; lists of statements have an identity |
| Dataclasses (C109, C110) | `analyzer.py:686-734, 819-869, 1069-1080, 1396-1466, 1566-1599`, `lib/program_nodes.py:533-549`, `translators/call.py:342-347, 930-987` | no types, permissions, starred arguments or `super().__init__` calls; Python's `dataclasses` module is specified in `Spec/Dataclasses.lean` |
| Stores (C111) | `translators/statement.py:1046-1086, 1372-1457, 1497-1528, 1627-1661` on top of Hoist | no tuple targets (Unpack), union receivers (Unions), permissions, definedness flags or exceptions |
| ClassMethods (C112) | `translators/call.py:1785-1838`, `translators/program.py:1440-1447` for `__init__`, `has_classmethod` | arguments are part of the state; no exceptions, no argument counts |
| Decreases (C113) | `translators/method.py:95-129, 290-359` | expressions are given by their meanings; Viper's termination plugin and function axioms are specified in `Spec/Decreases.lean` (trusted) |
| IsInstance (C114) | `translators/call.py:88-122`, `translators/type.py:87-103`, `translators/type_domain_factory.py:781-812`, superclasses in `resources/builtins.json` | classes without type arguments; objects are given by their classes |
| Scopes (C115) | `lib/resolver.py:73-74, 175-185`, `lib/views.py`, `lib/program_nodes.py:275-288`, `translators/common.py:945-957`, `translators/call.py:1392-1424` | acyclic imports at the beginning of modules; names without underscore; contract functions count as built-in names; no attribute references |
| Withs (C116) | `translators/statement.py:908-966`, `translators/method.py:625-662, 681-708, 763-838` | a with statement outside of other try and with statements (see C08, C70); `__enter__` and `__exit__` raise nothing; the first argument of `__exit__` is left out |
| Prob (C117) | the checks of mode `prob`: `translators/statement.py:805-873, 1081-1134, 1663-1725`, `translators/expression.py:244-302, 1226-1242, 1611-1672`, `translators/call.py:1163-1225, 1317-1322` | what `assert Low(e)` means in the product of two executions (Scala code outside the repository) is specified in Spec/Prob.lean and trusted; expressions are functions of the state; bodies of methods take the place of contracts; no exceptions, jumps, invariants, chained comparisons |
| SifMode (C118) | `main.py:323-328, 454-455`, `translators/call.py:673-677, 1509, 1572, 1626` | a program is the list of its calls |
| FieldTypes (C119) | `lib/typeinfo.py:64-126, 176-199, 280-283, 411-422`, `mypy_patches/visitor.py:48-100, 133-139, 187-193, 270-273`, `analyzer.py:458-471, 1566-1599, 1610-1633, 1712-1732, 1795-1830`, `lib/program_nodes.py:533-549`, `lib/resolver.py:238-246`, `translators/contract.py:248-260, 287-299` | receivers are variables; no superclasses; at most one type parameter; the types that mypy reports are part of the program; the assertion on types in `add_field` is left out |
| Substs (C120) | `get_bound_type_vars`, `substitute`, `contains_type_var`, `superclass` in `lib/program_nodes.py:329-384, 429-432, 796-832, 932-992`, `lib/resolver.py:226-246` | `None` as a type argument; receivers whose type is a type variable or a union |
| ExprTypes (C121, C122) | `lib/resolver.py:203-406, 409-437, 439-513, 562-650`, `translators/call.py:542, 569-570` | `pairwise_supertype` is any function that gives supertypes (C61), result types of calls are trusted (mypy), no unions except Optional, no binary operations (C29), attributes (C119, C120) or lambdas; slice bounds are not negative |
| Defaults (C123) | `translators/program.py:439-454`, `translators/call.py:960-973`, `translators/expression.py:927-944`, `translators/statement.py:336-356, 1433-1456`, `lib/program_nodes.py:1681-1686` | straight-line modules over integers, positional calls at module level, no function bodies; final variables' functions have any interpretation (their postconditions are in Globals) |
| Coverage (C124, C125) | `translators/program.py:85-118, 548-561, 1332-1488, 1535-1572`, `translators/method.py:594-600, 990`, `analyzer.py:790-796, 858-861, 883-884, 1990-2003`, `lib/program_nodes.py:82-99, 201-222, 574-585, 675-706, 1139-1152` | predicates of classes, IO operations, enumerations and data types left out; Viper's chopper is trusted to keep the named members and what they depend on, the latter without method bodies; only methods override methods |
| GlobalNames (C126, C127) | `translators/common.py:309-372, 374-445, 461-507`, `translators/call.py:286-295, 718-727, 737-770`, `translators/expression.py:939-944`, `translators/statement.py:336-391, 1449-1450`, `lib/program_nodes.py:474-482, 574-585, 1010-1034` | one module, no annotations, defaults (C123) or class attribute initialisers; a body is the set of its look-ups, any of which may happen; the dependencies of a call are those the search finds when it ends (C40); mypy's `used-before-def` check is a hypothesis of the full claim |
| MethodVars (C128, C129, C130) | `analyzer.py:1149-1190`, `translators/method.py:55-67, 223-244, 270-277, 329-335, 392-405, 463-496`, `translators/type.py:87-103`, `translators/type_domain_factory.py:275-320, 656-731, 789-836, 892-907` | no tuples, unions, `Type[T]`, `*args` or `**kwargs` in the types of parameters; the type domain is any interpretation that satisfies reflexivity, transitivity, object and the axioms of type arguments |
| ThreadArgs (C131, C132, C133) | `translators/call.py:1434-1623`, `translators/obligation/fork.py:71-206` | preconditions without permissions; the values of arguments do not change by the evaluation of later ones; `joinable`, wait levels and old expressions are left out (the latter are in Threads); preconditions are any predicate of the arguments |
| AutoOblig (C134, C135) | `analyzer.py:1205-1297`, `main.py:114-181`, `466-495`, `service.py:212-224`, `345-352`, `423-430`, `lib/config.py:40-111`, `translators/call.py:1368-1432` | the type that the analyzer computes for a receiver is part of the program (the real one or a failure); values of the configuration are booleans; which checks succeed is a given of the program |
| Placement (C136, C137) | `analyzer.py:443-467`, `905-937`, `1200-1250`, `translators/call.py:1391-1397`, `translators/statement.py:1046-1078`, `1688-1743`, `translators/method.py:337-349`, `516-528`, `1004-1036`, `lib/util.py:112-254` | statements have at most two blocks (more can be nested); IO existentials and calls that end in the name of a contract function are excluded where stated; the arguments of `Thread`, `getOld` and of the inner call of `f(..)(..)` are left out; other reasons to reject a program are not modelled |
| Floats (C138, C139, C140) | `resources/float_real.sil:1-425`, `resources/float_ieee32.sil:1-165`, `translators/expression.py:510-538`, `translators/call.py:149-159` | `Perm` is read as the rational numbers, `to_int` as the floor function; subclasses of `float` and `int` are left out; SMT-LIB's arithmetic and conversions with rounding are arbitrary functions, its comparisons, negation and bit patterns are modelled; that Python's 64 bit floats are rounded differently is not part of the claims |
| Creates (C141, C142) | `translators/contract.py:698-740, 757-862, 1210-1217`, on top of the static types of ExprTypes | unions other than optional types and type variables are left out; that the contents of the created collection are the elements of the converted one is C90 (Prelude), Members and Aggregates |
| Poss (C143) | `translators/statement.py:836-873, 1081-1086, 1663-1725`, the absence of checks for calls in `translators/call.py`, `sif/translators/contract.py:50-60, 83-100` | loops with `TerminatesSif` (checked by Silver's product construction, not in the repository), exceptions and jumps are left out; the product construction itself is trusted as in Prob |
| Annots (C144) | `translators/program.py:439-460`, `translators/common.py:308-333, 374-398, 446-459`, `translators/statement.py:336-411, 1627-1661`, `lib/resolver.py:61-185`, `lib/program_nodes.py:718-732, 804-809, 915-992` | one module; no `Callable`, no `Tuple[a, ...]`; default values and initialisers are C123; calls and bodies are GlobalNames |
| ImportTargets (C145) | `translators/statement.py:200-227`, `analyzer.py:195-213, 242-248, 264-266` | modules without a name in mypy and ignored imports are left out; when a module's statements are executed is C38, C39 |
| ImportNames (C146) | `resources/name_domain.sil:26-60`, `translators/statement.py:242-263, 303-334`, `translators/common.py:308-372, 388-418`, `translators/method.py:907-945` | modules are executed before those that import them (C38, C39); which module an import finds is C145; no ignored imports, no names with a leading underscore; triggers are ignored |
| Packages (C147, C148, C149) | `analyzer.py:181-207, 226-238, 257-262`, `lib/program_nodes.py:159, 179-187`, `translators/statement.py:226-227, 296-305` | dotted names as lists; how Python resolves relative names and executes packages is the specification; module search is mypy's |
| Calls (C150) | `translators/call.py:773-813, 1249-1255, 1392-1432`, `lib/constants.py:17-42`, `nagini_contracts/contracts.py:28-38`, `nagini_contracts/io_contracts.py:31-37`, `nagini_contracts/obligations.py:17-22` | calls whose function is a name; no calls of `cls`; how other names are resolved is C53 |
| Receivers (C151) | `translators/call.py:169-175, 815-849, 908-987, 1054-1055, 1115-1132, 1262-1366`, `lib/program_nodes.py:1070-1095, 1206-1227` | positional arguments only, no default values (C14), no constructors, predicates, or receivers whose type is a union (C107, C108) or a class (`cls.f()`) |
| ClassDefs (C152) | `analyzer.py:129-141, 285-301, 499-530, 625-631, 1691-1707`, `lib/program_nodes.py:150-165, 275-288`, `lib/views.py:13-58, 79-131` | no cyclic imports (C38), uses of built-in classes, base classes, or classes in expressions (Scopes); contents of classes left out |
| LoopTypes (C153) | `translators/statement.py:702-720, 740-757`, `lib/util.py:83-108, 138-156`, `analyzer.py:939-947, 1192-1198` | no variables renamed by inlining, global variables, names of caught exceptions, annotations without value; the order of writes is the order of the text |
| Previous (C154) | `lib/util.py:255-275`, `translators/contract.py:479-497` | what the iterator contains is modelled in For; only enclosing `for` loops |
| IntOps (C15, C16, C51, C52) | `resources/bool.sil`, `resources/intbv.sil` | boxing |
| Seqs (C17-C21) | `resources/list.sil`, `tuple.sil`, `bytes.sil`, `bytearray.sil`, `range.sil`, `slice.sil` | permissions, type side conditions |
| Names (C22, C23, C36) | `lib/util.py` string/int conversion; `lib/program_nodes.py` `get_fresh_name` | - |
| TypeDomain (C24, C25) | `translators/type_domain_factory.py`, the domain of `resources/tuple.sil`, parent links of `resources/builtins.json` | triggers; enums, ADTs |
| Alias (C37) | `lib/context.py` aliases | `alt_types` |
| Imports (C38, C39, C53) | `lib/program_nodes.py`, `lib/views.py`, `translators/statement.py` imports | packages, combined names of `import m`, `__all__`, names with underscore |
| Deps (C40, C42) | `lib/program_nodes.py` `add_all_call_deps`; inlining in `translators/call.py` | expressions reduced to calls |
| Body (C41) | `lib/util.py` `get_body_indices` | - |
| Termination (C32, C33) | `translators/obligation` measures and checks | all checks enabled |
| WaitLevel (C34, C54) | `translators/obligation` wait levels; `ignore_waitlevel_constraints` | threads are abstract programs of lock operations |
| Guards (C31) | `lib/guard_collectors.py` | quantifiers |
| SilNodes (C30) | `lib/silver_nodes` | wildcard permissions |

## Disagreements between the code and the stated properties

Each is proved as a negation (`..._fails`, `..._violations`, `..._wrong`) or follows from an exact
characterisation, unless marked (read only).

* C01-C04: a heap read that precedes a calling sibling is evaluated after the call
  (`x.f + x.m()`); `-x.m()` drops the call; chained comparisons evaluate all operands.
* C05: `a, b = b, a` reads the overwritten variable; C06: targets after a star are read
  at their index from the front.
* C08, C09: inner `__exit__` skipped when an outer handler matches; raise and return in
  an except clause skip finally; break in a loop inside try/finally; break in a loop's else.
* C14: keyword-only defaults are aligned with the positional ones and `kw_defaults` is
  never read; positional-only parameters are not visited; `f(**d)` is dropped.
* C15, C16, C52: `7 // -2`; bit operations on negative numbers; shifts above 64;
  `4 / 2` has type int.
* C18: slices with start > stop of tuples, bytes and ranges have a contradictory contract.
  C19: `tuple___create7/8/9__` contradictory.  C20: `True in range(3)`.  C21:
  `list.reverse` leaves the list unchanged; `in`, `index`, `remove` compare references;
  `bytearray(-1)` contradictory.
* C22, C23: strings with NUL or code points of 256 and more collide or do not round-trip.
* C24: `union_basic_n` and `tuple_args_subtype_2` are contradictory with the other axioms.
  C25: int is a subtype of float.
* C27: a superclass's function is preferred to a nearer method.
* C29: typing uses the reflected method although the left one is called.  C56: the priority
  of reflected methods is wrong in both directions.
* C32: an inherited body may call itself with the same measure.
* C34: fork ignores the target's constraints; join in a loop uses the method's residue.
  C54: inlining switches off the remaining wait-level constraints.
* C37: `additional_aliases` inside `aliases_context` pops an outer alias.
* C38: cyclic `from m import *` recurses forever.  C39: importing the script file.
  C53: modules compared by prefix of the file name.
* C40: recursive instance methods make `add_all_call_deps` diverge.
* C41: `x.Ensures(...)` at the end of a body is dropped.
* C55: thread argument checks are combined with equality.
* C45: in the server loop of `main.py`, a program without obligations switches all obligation checks
  (including termination) off for all later programs.
* C46: a job is not found by `cancel` between its submission and its registration; if registrations
  happen in another order than submissions, the older job is stopped; after
  `reconfigure(use_viper_server=False)` running jobs cannot be stopped.
* C47: `_backend` is read twice without the lock, so Carbon can be started with the arguments for
  Silicon; `_sif` is read again when errors are converted.
* C48: a run started while an older run of the document is being translated, submitted or converted
  does not stop it; the older diagnostics then replace the newer ones.
* C43: a timeout has no reason; the service reads `error.reason.vias` and fails.  Errors without
  position fail in the service and in IDE mode.  Unknown ids raise `KeyError`.  Reasons introduced by
  rules at the position of an assertion (`high.branch`, ...) quote the node of the condition, which may
  have no position.  `predicate.not.wellformed` and `function.not.wellformed` fail outside of functions.
* C10: in pure functions, a parameter that is assigned to in a branch is `null` after the other branch;
  a name bound by a case whose guard fails keeps its old value; names in alternatives of patterns are
  not bound; a local variable counts as defined once a pure function with a local variable of the same
  name has been called (`_assuming` puts `_isDefined(name)` into the body of that function).  Conditions
  of `if` that are not booleans are rejected.  A body that consists of a docstring is translated to an
  abstract function, so its postcondition is assumed.
* C11: in match statements, a name bound by a case whose guard fails keeps its old value; names in
  alternatives are not bound at all; a guard that reads a name bound in an attribute pattern reads the
  old value of that variable, so the wrong case is selected; the pattern `C(f=_)` is translated to the
  type test alone, while Python does not select the case if `f` has not been assigned to.  Capture
  patterns that rebind a parameter are rejected.
* C12: a comprehension over a dict takes the elements from `dict___getitem__(d, i)`, so
  `[x for x in {0: 5, 1: 6}]` is known to be `[5, 6]`; the value of a dict comprehension is checked
  only where no later element has the same key, so `{0: 10 // x for x in [0, 1]}` is accepted; sets and
  dicts compare references, so `{x for x in [1, True]}` is known to contain two references and
  `{x: x for x in [1, True]}` to map 1 to 1.  Comprehensions over sets, ranges, `bytearray`s and
  `PByteSeq`s are rejected, and keys must be well-defined for elements that do not pass the filter.
* C13: the generated invariant of a for loop says that the loop variable is the current element; a body that
  assigns to the loop variable breaks it in the last iteration, so such programs are rejected.  `break`
  jumps behind `Iterator.__del__`, so a share of 1/20 of the permission for the list, set or dict is lost.
  Loops over `bytes` are rejected although their element type is determined, and `for a[0] in xs` crashes.
* C62: a loop in a `finally` block resets the result variable, so `try: return 5` with
  `finally: for x in xs: pass` returns None in the encoding; a `return 5` that is replaced by an exception in
  the `finally` block leaves 5 in the result variable, so if the exception is caught and the end of the
  body is reached, the encoding returns 5 where Python returns None (nagini switches off mypy's warning
  about missing `return`s).  When an exception leaves a loop that contains a `return`, and in inlined
  methods, nothing is known about the result at the end of the body.
* C35: the ghost checker accepts programs whose extracted version behaves differently.  With an impure
  function `f` and ghost variable `g`: `f()` and `if f(): ...` are erased with the effects of `f` if its result
  is ghost (`check_for_call` looks only below the node); `g = len(f())` and `g = f().field` are erased with
  `f`; `return f() + 1` in a function with a ghost result erases `f`; `return x, f()` with a mixed result is
  extracted to a tuple; `g += f()` keeps the removed `g`; `x = g.field` is kept with the removed `g`; `f(h(x, g))`
  keeps the ghost argument of `h` if `f` has no ghost parameter; `x, = h(1, g)` becomes `x = h(1)`; `x = g = 5` makes
  an assertion of the extraction fail; in `g = x = f()` a ghost result of `f` gets into the regular `x`; a
  loop in ghost code may assign a regular variable; a variable that is made ghost by a `for` loop over a ghost
  value may have been read as regular earlier in an enclosing loop.  Not modelled, but seen in the code:
  calls of threads in ghost code are not rejected, `[x, g] = f()` becomes `[x] = f()`, and lambdas and dictionary
  comprehensions with ghost keys crash the checker.
* C63: if a constructor of an ADT has a field whose type is a class other than the ADT and `object` (also another
  ADT), the axioms are contradictory.  The axiom on deconstructors over constructors holds for all references,
  so that the deconstructor returns any reference, for example null; another axiom says that the deconstructor always
  returns an instance of the class.  `tests/functional/verification/test_adt_3.py` has such a field.  Only
  the triggers keep the contradiction from being found.
* C64: `Leaf() == End()` is true in Python for two constructors without fields (named tuples are compared as
  tuples), and is verified to be false; `Leaf() is Leaf()` is verified to be true.  From `isinstance(x, Leaf)` it does not
  follow that `x == Leaf()`, because no axiom says that a constructor without fields has only one value.
* C65: a field called `type` (name `A_C_type`), a constructor called `cons` (`A_cons_type`), and constructors `C` and
  `C_f` where `C` has a field `f` lead to two functions with the same name.  The type of a field is compared with the ADT
  by name for its Viper type and by identity for the type check, so that a class with the name of the ADT from another
  module makes an axiom ill-typed.
* C66: a join multiplies permissions to fields and predicates by the held part of `ThreadPost`, but not permissions to global
  variables, `MayStart`, `ThreadPost`, `MaySet` and `MayCreate`.  Two threads that each hold half of `ThreadPost` and
  join get two full permissions.  Targets with declared exceptions are accepted; a join then adds the permissions of the
  normal postconditions even if the thread raised an exception and gave up nothing.
* C67: a join assumes the normal postconditions although the target may have raised a declared exception, so
  `Ensures(False)` with `Exsures(E, True)` makes everything after a join verify.  `Old(e)` is replaced by a value remembered at
  the start.  If `e` contains a variable bound by a lambda, the name is looked up outside the lambda at the start (a global variable
  or a parameter with the same name is taken, otherwise the program is rejected), and the value does not depend on the bound
  variable.  `Old(Old(e))` refers to the old state of the method that starts the thread, and `Result()` in `Old` to the result
  variable of that method.
* C68: a variable of an `IOForall` that has the name of a parameter refers, in the termination check, to the parameter:
  `IOForall(int, lambda n: Implies(n > 1, op(t, n - 1)))` in `op(t, n)` is only checked for the value of the parameter, although the
  body contains `op(t, k)` for every `k`.  An existential that is first mentioned below a condition is replaced everywhere by the
  getter of that operation, also where the condition does not hold; the check then compares the measure for a wrong value.
  Besides, `visit_Call` of the body checker defines the results of an operation before it visits its arguments,
  existentials without definition and results used as arguments end in an assertion error or `KeyError` instead of a message, and two nested
  `IOExists` with the same variable are rejected with an internal error.
* C69: for an existential defined below a condition, `Open` adds the equation `get_c(n) == get_a(n)` for the second definition
  although at most one of the two operations is performed: the results of two unrelated operations are assumed to be equal.
* C70: the generated method does not do what Python does in these cases, each with a theorem `C70_..._fails`:
  a `return` or an exception in an except clause (or else suite) skips the finally suite of the same statement;
  an exception raised in a `with` statement and caught by an outer except clause skips `__exit__`;
  `break` out of a `with` statement tells `__exit__` the previous value of the error variable (the test is `finally_var > 1`);
  `break` out of a loop inside a `try` with finally suite leaves the rest of the try body, too;
  `return` without value in a finally suite keeps the value that was to be returned;
  an exception that passes two finally suites is lost, as only the finally variable is copied to the outer block;
  the name in `except E as e` is the error variable of its own block, which is not set if the exception was raised in an inner block.
  (By reading only: `add_handlers_for_inlines` in `translators/common.py:895-918` generates clean-up code only for blocks with
  `finally_block`, so with statements in inlined methods jump to a label that does not exist.)
* C75: five gaps in the checks for classes make programs verify that fail at run time:
  a constructor inherited by a subclass is not verified for it (`method_name != '__init__'`,
  program.py:1464), so `class A: def __init__(self): Ensures(type(self) == A)`, `class B(A): pass` give
  `B()` the type `A`; neither is an inherited setter of a property, since setters are not in
  `all_methods`; `super(T, self)` is verified as `super()` whatever class `T` is; `cls()` in a class
  method of a class without constructor is verified without a precondition although a subclass may define
  a constructor with one; a method overriding one further up than in the direct superclass is not
  compared with it (C57).
* C76: reading an unassigned local verifies in four situations.  Evaluating a pure function teaches the
  caller `_isDefined` for the *Python* names of the function's locals (pure.py:336-346), while methods use
  their Silver names; a method of a class gets the unsuffixed names, so its unassigned `x` counts as
  defined after a call of a pure function with a local `x`.  In inlined calls (`super()`, static calls,
  `@Inline`) locals are aliases that `is_local_variable` does not recognise, so nothing is checked.
  `except E as e` aliases `e` only during the handler; afterwards the outer `e` counts as defined although
  Python has deleted it.  Identities clash for names with code points above 255 (C22).
* C78: families are collected along `overrides`, which looks at the direct superclass only, while accesses
  use the topmost class with the predicate.  If `A` and `C` define `P` and the class `B` between them does
  not, the definition in `C` becomes a family of its own that no access names, so `c.P()` silently lacks it.
  A class that inherits `P` without redefining it is not a member of the family, so its objects need the
  predicate for unknown subclasses and `Fold` fails for them although their class is known.
* C81: names in use are compared together with the type, so two references of unknown type that are declared
  with different types are both called `?0`, and so are objects of two classes of the same name in different
  modules (`A0`).
* C82: arguments are compared as texts, and a negative literal is `-5` as a term but `(- 5)` in the model, so a
  function applied to a negative literal gets the default value.  Terms of any other kind (sums, comparisons)
  raise a plain `Exception`; `manager.py:140` does not catch it, so the verification error itself is lost.
* C83: if the model leaves `issubtype` open for a type, `parse_bool` answers `'?'`, which Python takes for true:
  an integer is then shown as a boolean.
* C84: for the same reason an object is shown with a subclass that the model does not mention.
  `get_precise_type` returns the declared class `t` instead of the class `basic` it has found, so an object
  whose basic type the model knows is shown with its declared class.  `is_type` looks up a generic class under
  `sil_name` without `<PyType>`, so references of generic classes are always shown as `?`.
* C85: in the information flow modes the variable of `except E as e` is an alias of the one error variable of the
  method.  A call in the handler that may raise (and does not) sets it to null, a nested `try` to another
  exception.  A loop in a `finally` block resets the result variable (as in C62) and, in a method with declared
  exceptions, the error variable, so a pending exception is lost.  A `return` that is cancelled by an exception
  in `finally` leaves its value in the result variable.
* C86: labels and gotos are dropped and `continue` becomes `SIFContinueStmt`, but `translate_stmt_For` still puts
  the call of `__next__` after the label at the end of the loop body.  So `continue` skips it: the loop looks at
  the same element again, and `for x in xs: continue` is a loop that never ends, after which anything can be
  proved.  Only the termination check of `obligation/loop_node.py:237` is marked `continue_unaware`.
* C88: three contracts are contradictory for arguments a program can pass.  `PByteSeq_update` (`byteseq.sil:60`)
  *ensures* that the new value is a byte instead of requiring it, so after `s.update(0, 1000)` everything
  verifies.  `bytearray___initFromInt__` promises a length of `n` also for negative `n`; `bytearray(-1)` raises
  `ValueError` in Python.  `__seq_ref_to_seq_int` (`bool.sil:553`), which is behind `sum`, `bytearray(list)` and
  `ToByteSeq`, claims that all elements are of type `int` exactly, which is false for a `bool` in a `List[int]`.
  Further contracts are contradictory for arguments the translation does not produce: `str___create__`,
  `str___add__`, `bytes___create__`, `PByteSeq___from_bytes__` and the creation of collections with elements of
  another type.
* C89: `"a" == 5` is not decided (`str___eq__` ignores the type of its second argument), `5 == "a"` is.
* C92: an overriding method without `Exsures` is rejected if the overridden method has one, although raising
  nothing is always allowed.  The check method has the error variable as a result because the overridden method
  declares exceptions (`program.py:374`), but it is a target of the call only if the overriding method does
  (`program.py:376`); the unassigned result violates "method only raises exceptions of type ...".
* C93: a variable as (part of) the left operand, `Acc(x.f, n / 10)` or `n * (1 / 10)`, is translated without a
  target type, so the permission is computed from a reference (`permission.py:141-150`).  A field or a call alone, or
  as an operand of `+` and `-`, stays an integer (`self.n`, `f() + 1 / 2`, also `2 * 3`).  The resulting Viper program
  is ill-typed, which is only noticed with `--check-consistency`.
* C94: membership is identity of references, so `1 in [True]`, `True in range(2)` and membership of an object that is
  equal to an element by its `__eq__` are `False` for the verifier and `True` in Python; a set of two equal objects has
  length 2 and a dictionary distinguishes the keys `1` and `True`.  The theorems show that membership, sets and
  dictionaries agree with Python exactly if equal values are identical.
* C95: `max` and `min` of a list only promise that the boxed result is an element (`bool.sil:506, 514`).  So
  `max([1, 2]) == 2` cannot be proved, `max([0, True]) == 0` is proved although Python returns `True`, and after
  `max([True])` everything is proved.
* C96: `Forall4` and `Forall5` are handled by `translate_contractfunc_call` (`contract.py:1202`) but missing from
  `CONTRACT_FUNCS` (`nagini_contracts/contracts.py:33`), so calls to them are treated as ordinary calls
  (`call.py:1398`) and never reach it; the theorems are about what the translation would give.
* C97: lists have no in-place operators (`builtins.json:37-133`), so `b += [2]` becomes `b = b + [2]`: after
  `b = a; b += [2]` the verifier proves that `a` is unchanged, but in Python `a` is the same list and has grown.  The
  target is read after the statements of the right-hand side, so `x.f += x.m()` uses the value of `x.f` after the call.
  (`x **= 2` for an integer crashes: `translate_operator` reads `node.right`, which an `AugAssign` does not have.)
* C98: a variable counts as final if the text of the module has one store to it, and assignments to final variables are
  translated to `inhale x() == e`.  The target of a module-level `for` loop has one store, which is executed for every
  element: after `for x in [1, 2]: pass` the main method has assumed `x() == 1` and `x() == 2`, and everything is
  verified (`C98_for_fails`; the same for an assignment in a `while` loop, `C98_while_fails`).  The equation of a final
  variable is also a postcondition of its function, marked `decreases _`; with `if False: x = x + 1` it has no solution
  (`C98_cycle_fails`), and then all methods of the program are verified.
* C99: `add_field` does not consult superclasses (its comment says it does), so `self.X = v` in a subclass of a class with
  a class attribute `X` creates an ordinary field; a read of `a.X` with `a: A` still is `A_X(typeof(a))`.  So the verifier
  proves `a.X == b.X` for two objects of the subclass with different attributes (`C99_hidden_fails`).  The postconditions
  name the class of the definition instead of the class at hand, so the value of an inherited class attribute is unknown
  (`C99_inherited_fails`); overridden attributes are only found in the direct superclass (`C99_skipped_fails`); and
  `f().X` does not call `f` (`translate_Attribute` returns `[]`, `C99_receiver_fails`).
* C100: `create_static_field_function` also gives fields that are not final a postcondition `result == value`, where
  `result` is the location of the field.  With `class A: x = 0; y = 0` where both are written to later, the main method
  inhales full permission for the same location twice (`C100_fails`).
* C101: `object___bool__` says that objects are true unless they are floats, lists, sets, dicts or bytearrays.  Tuples have
  no `__bool__` of their own, so `if t:` with `t: Tuple[int, ...]` treats the empty tuple as true (`C101_fails`).  The
  same holds for `""` and `b""` of static type `object`, for `""` of type `Optional[Union[int, str]]` (an `OptionalType`
  is not split into its options, `type(receiver) is UnionType` is false), for classes that define `__len__` but not
  `__bool__`, and for objects with a user-defined `__bool__` used as an `object` (`C101_more_fails`).  The comment in
  program.py:1428 that the versions in `object` are minimal is wrong for `__bool__`.
* C103: `create_static_field_function` calls `cls.name + '__box__'`, but the box function is named by `enum.sil_name`.  With
  `class Color(IntEnum): RED = 1` in two modules the second class has the Silver name `Color_0`, and the function of its
  member ensures both that its result has the type `Color_0` and that it is `Color__box__(1)`, which has the type `Color`:
  everything after a use of the second `Color.RED` is verified (`C103_fails`, `C103_renamed_fails`).  For a parameter
  `c: Color`, `C__int__(c)` is related neither to `int___unbox__(c)` nor to the identity of `c`, so with `c == Color.RED`
  neither `c is Color.RED` nor `x == 1` after `x: int = c` can be verified (`C103_identity_fails`).
* C104: `try_block.handler_aliases` is stored in the block, not per inlined call, and `except` clauses are translated after
  the whole body.  If a function with a `try` is inlined twice, the `except` clause of the first call assigns to the
  variables of the second: with `@Inline def f(): x = 0; try: raise E() except E: x = 1; return x`, after
  `a = f(); b = f()` it can be verified that `a == 0` (`C104_except_fails`, `C104_fails`).  `Old` in an inlined function
  refers to the beginning of the method it is inlined into (`C104_old_fails`).  For an `@Inline` method that is called on
  an object, `_inline_call` does not add the receiver to the arguments, so `self` becomes the first argument: `a.get(b)`
  with `def get(self, other): return self.x` returns `b.x` (`C104_receiver_fails`); if the last parameter is used, the
  generated program is rejected, and so is every inlined `return` in a `try` with a `finally` suite (`C104_rejected`).
* C105: private names are kept apart by class, not mangled.  `__x` of a class `A` and of its subclass `_A` are two fields
  but one attribute `_A__x` (`C105_private_fails`), and so are `self.__x` and `self._A__x` in a class `A`
  (`C105_spelled_fails`).  Properties are only compared with the direct superclass: if `x` is an attribute of `A`, and
  `C` (a subclass of a subclass) has a property `x`, accesses to an `A` are translated to the field
  (`C105_property_fails`).  Private properties can be used outside of their class (`C105_private_property_fails`).
* C106: as a consequence, after `self.__x = 1; self._A__x = 2` it can be verified that `self.__x == 1`
  (`C106_spelled_fails`, `C106_fails`).  `del o.__x` is accepted outside of the class, where Python raises an
  AttributeError (`C106_del_fails`): `translate_stmt_Delete` does not use `_lookup_field`.  `MayCreate(self, 'x')` and
  `MaySet(self, 'x')` for an inherited attribute that is also used in the subclass refer to a permission that nobody
  ever has (`C106_may_create_inherited`, `C106_may_create_fails`), since `actual_field` is not used.
* C107: the list `arg_stmts` is shared by the calls generated for all options of a union, and calls of static methods
  extend it in place (`stmts = arg_stmts`, `translators/call.py:672`).  For `x.f()` with `x: Union[A, B]` and static methods
  `f`, both methods are called in both cases, and the result is that of the last one (`C107_static_fails`); a static method
  is also called for the options after it (`C107_mixed_fails`).  For static pure functions the result is that of the last
  one if the arguments need statements (`C107_pure_static_fails`).
* C108: for unions, `translate_args` knows no target, so keyword arguments are dropped and neither default values nor
  `*args` are handled.  Most such calls are rejected (`C108_rejected`), but a call of `def f(self, *args: object)` with a
  tuple passes the elements of the tuple (`C108_vararg_fails`); whenever a method has `*args`, the binding is wrong
  (`C108_vararg_wrong`).
* C109: the generated `__init__` of a data class has one parameter per entry of `current_class.fields`, in the order in
  which the analyzer met the names (`analyzer.py:703`).  Inherited fields are missing or come last, and surplus arguments
  are dropped: for `class B(A)` with field `y`, inherited field `x` and a method that reads `self.x`, `B(10, 20)` is
  verified with `y` 10 and `x` 20 (`C109_inherited_fails`; `C109_inherited_wrong` shows that this is systematic).  Names
  without annotation, `ClassVar`s and properties become parameters (`C109_plain_fails`, `C109_class_var_fails`,
  `C109_property_fails`; for a property the assumption contradicts its definition).  An access to a field in front of the
  class changes the order (`C109_order_fails`).
* C110: `class B(A)` without decorator inherits the generated `__init__` of the data class `A`, but `B()` does not run
  `__post_init__` (`C110_fails`, `C110_lost`).
* C111: the expression for the right-hand side is inserted into the store of every target and so evaluated there.
  `m().g = a.f` reads `a.f` after the call (`C111_target_call`), `a.f = b.f = a.f + 1` and `x = y = x + 1` add twice
  (`C111_reevaluated`, `C111_reevaluated_variable`); `a.f[m()] = 7` reads the list after the call of the index and
  changes another one (`C111_receiver_read_late`).
* C112: an `__init__` method is checked only against one of the *direct* superclass.  If a class with a class method has
  no `__init__`, or an intermediate class has none, a subclass may have any `__init__`, and `B.make()` with
  `return cls()` in the class method violates its precondition (`C112_fails_without_init`, `C112_fails_skipped`).
  `cls(...)` never considers `__post_init__` (`C112_fails_post_init`).  `C112_iff_partial` shows that these are all
  cases.
* C113: termination of a pure function is checked only if it has a `Decreases` clause, and only where the condition of
  the clause holds.  `def f(a): return f(a) + 1` verifies, and no value satisfies what is assumed about it
  (`C113_fails`, `C113_fails_condition`).
* C114: `isinstance(1, float)` is true for the verifier, because `int` extends `float` in `builtins.json`
  (`C114_float_fails`); `isinstance(o, cls)` for the parameter of a class method compares the types for equality, so
  instances of proper subclasses take the other branch (`C114_var_fails`); `isinstance(o, type)` is always true
  (`C114_type_fails`).  `C114_iff_partial` shows that these are all cases.
* C115: the static methods, static fields and type variables of the current class are searched before the parameters and
  local variables of a function and before global names, although Python does not search classes: with a global function
  `helper` and a static method `helper`, the call `helper()` in a method is a call of the static method
  (`C115_static_method_fails`), and a parameter `X` of a method in a class with a static field `X` stands for the static
  field (`C115_parameter_fails`).  Calls of contract functions and of built-in functions such as `len` are recognised by
  name only, so that a function `len` of the program is ignored (`C115_special_fails`).  If a name is imported twice, the
  translator uses the first import (`C115_order_fails`).  After `from a import f`, the names that module `a` imports are
  visible as well, and come before names of later imports (`C115_leak_fails`).  `C115_iff_partial` shows that there are
  no other cases for names that come from one import only.
* C116: the result of `__exit__` is ignored, so that an exception that Python swallows goes on for the verifier and the
  code after the with statement is unreachable for it (`C116_swallow_fails`); after `break` and `continue` the test
  `code > 1` makes `__exit__` receive an exception (`C116_break_fails`).  `C116_iff_partial` shows that these are all
  cases.
* C117: `translate_stmt_While` puts the assertion that the condition is low before the loop only, while
  `translate_stmt_For` also puts it at the end of the body, so that `while s != 0: s -= 1` is accepted for secret
  `s > 0` (`C117_while_fails`; the mode `poss` shares that code).  There are no checks in `match` statements
  (`C117_match_fails`), filtered comprehensions (`C117_filter_fails`), pure functions (`C117_pure_fails`) and methods
  called by operators (`C117_operator_fails`).  For unions the check is inside of the branches, where the executions with
  different classes never meet (`C117_union_fails`).
* C118: `--sif` sets the option to the string `'true'`, the translator tests `ctx.sif is True`, so that from the command
  line concurrent programs are never rejected (`C118_command_line_fails`).  The tests pass the value `True`.
* C119: the type of a field is the one that mypy reports for the first access in the text (except operands of `is` and
  `del` targets), also if it is narrowed there: with `return self.next.size() + 1 if self.next is not None else 1` in a
  method before `__init__`, the field `next : Optional[Node]` has the type `Node`, and `Acc(self.next)` fails for the last
  node (`C119_narrowed_fails`).  Types recorded for one file are replaced by those of files read later
  (`C119_files_fails`).  A use of `c.f` with `c : C[int]` before the class makes the field an `int` for all instances
  (`C119_generic_fails`); a first use through `Union[A, B]` gives both fields the union (`C119_union_fails`).  Since
  `Acc` checks the type as well, the consequence is that correct programs are rejected.
* C120: arguments of base classes in which a variable is nested are not instantiated (`C120_nested_fails`, as in C28);
  `substitute` turns `Tuple[T, ...]` into a tuple of length one, because the new type has `exact_length = True`
  (`C120_tuple_fails`); for an optional receiver of a generic type, e.g. `self.c.f` with `self.c : Optional[C[int]]`,
  `get_bound_type_vars` asks a `GenericType` for `type_vars`, which it does not have (`C120_optional_fails`).
* C121: the static type of a slice of a list, bytearray, `bytes` or range is the type of an element
  (`C121_slice_fails`, `C121_slice_never_fails`), that of `d.get(k)` leaves out `None` (`C121_get_fails`), that of a
  comparison is `bool` even if `__lt__` returns something else (`C121_compare_fails`), and iterating over something of
  type `Optional[Dict[K, V]]` gives `V` instead of `K` (`C121_optional_fails`).
* C122: the encoding of `enumerate(e)` *assumes* that the elements have the static iteration type of `e`.  For
  `enumerate(xss[1:])` with `xss : List[List[int]]` the elements, which are lists, are assumed to be integers
  (`C122_slice_fails`, `C122_slice_never_fails`); for a field of type `Optional[Dict[int, str]]` (a test for `None`
  narrows only variables) the keys are assumed to be strings (`C122_optional_fails`).  Both assumptions contradict the
  known types, so everything after the call verifies.
* C123: a default expression is inserted at each call and evaluated there.  `G = 1; def f(x: int = G): ...; G = 2; f()`
  passes 2 in the encoding and 1 in Python (`C123_stale_fails`).  The names in default expressions are never checked to
  be defined: `def f(x: int = G): ...; G = 1; f()` verifies and Python raises a NameError (`C123_undefined_fails`).
  This direct form is reported by mypy (`used-before-def`, see test_global_definedness_9); the same happens unreported if
  the default is a call `h()` of a function that reads `G`.  Function bodies are not part of this model; C126 has them.
* C124: the main method requests the name `main`, and the literal `main` is given to the chopper.  If anything else is
  called `main` (a function, a class, even a parameter), the main method is named `main_0` and dropped, so the code of
  the module is not checked (`C124_main_fails`).  A method inherited from a class of another module is not checked for
  the inheriting class, in the run of any module (`C124_inherit_fails`): with `def foo(self): assert type(self) == A`
  in class A of one module and `class B(A): pass; B().foo()` in another, both modules verify.
* C125: with `--select`, getters and setters of selected classes are not checked (`C125_property_fails`), nor are the
  methods that a selected class inherits (`C125_inherit_fails`).
* C126: module code that calls a method is not checked for the names that the method needs: `class A: def foo(self):
  return g()`, `a = A()`, `a.foo()`, `def g(): ...` verifies and raises a NameError (`C126_method_fails`; for static
  methods `C126_static_fails`; for operators, properties and `with` `C126_implicit_fails`).  The dependencies of a
  constructor are followed only if module code calls it directly, not if a function does (`C126_constructor_fails`).
  The names of methods are marked as defined global names when the class is defined, so a function `foo` counts as
  defined after `class A: def foo(self)` (`C126_shadow_fails`).  All witnesses use the undefined name inside a function
  or method, which mypy's `used-before-def` check does not report.
* C127: a call `A.foo()` of a static method inside a function records the name `A.foo`, which is never marked as defined.
  Module code that calls such a function is always rejected (`C127_static_fails`).
* C128: the functions that take type arguments are applied in the wrong order.  For `x: Dict[int, List[T]]`, T becomes
  `dict_arg(list_arg(typeof(x), 0), 1)` instead of `list_arg(dict_arg(typeof(x), 1), 0)` (`C128_nested_fails`).
  `C128_partial` says exactly when the result is right: when the reversed position leads to the variable, too.
* C129: for that reason no call of a method with such a parameter is accepted (`C129_nested_fails`).  If a variable is the
  type of two parameters, it stands for the type of the first argument: `def f(x: T, y: T)` with `f(1, "a")` is rejected
  (`C129_two_fails`).
* C130: `def f(x: T) -> List[T]` with `l: List[object] = f(1)` gets a `List[int]` (`C130_wrap_fails`).
* C131: the type checks of the arguments of a thread are combined with `==` instead of `&&` (`call.py:1551`), so they pass
  if an even number of arguments has a wrong type.  The start then assumes that the types are right
  (`fork.py:136-137`), so that everything after it verifies, e.g. `assert False` (`C131_types_fails`).  mypy does not
  check `args`, whose type is `Tuple`.  `C131_exact` says exactly what is verified.
* C132: a method that is listed twice in `t.start(f, f)` (also `A.f` and `B.f`, if B inherits f) gives two ThreadPost
  permissions, and joins inhale the postcondition times that amount (`C132_duplicate_fails`).
* C133: `if kwargs_arg or daemon_arg` (`call.py:1456`) tests indices, and index 0 counts as absent:
  `Thread(kwargs={...}, target=f, args=())` is accepted and `kwargs` is ignored (`C133_kwargs_fails`).  If `args` is
  omitted, the translation crashes (`arg_exprs[None]`).
* C134: `translate` stores the result of the automatic detection in the global configuration (`main.py:166`), and the
  server (`nagini --server`) never resets it.  After one program without obligations, all later programs are translated
  without any checks of obligations, so wrong programs are accepted (`C134_fails`, `C134_server_exact`).  The service
  resets the value before each translation (`C134_service`).
* C135: the arguments of `Thread` and `getOld` are not visited, so operations there do not turn on obligations
  (`C135_skipped_fails`; no program that mypy accepts is known where this matters).  Calls of `acquire` on a union of a
  lock and another class are not recognised (`C135_union_fails`), but the contracts in the module of `Lock` are
  (`C135_partial`).
* C136: `get_body_indices` is also used for the bodies of loops, so `Requires`, `Ensures`, `Exsures` and `Decreases` in
  front of the code of a loop (and `Ensures` behind it) are skipped instead of reported; the analyzer has made them
  contracts of the method (`C136_fails`).  In methods whose body is not translated, contracts in branches are
  unconditional contracts (`C136_contract_only_fails`).
* C137: in the statements of a module such a contract belongs to the module, whose main method is created without pre-
  and postconditions, so it is accepted and never checked (`C137_fails`).
* C138: in `float_real.sil`, the postconditions of `>=`, `>`, `<=` and `<` are contradictory for infinity compared with
  NaN: one case says that comparisons with NaN are false, another one that infinity is at least (greater than, ...)
  everything.  After `float("inf") >= float("nan")` every assertion can be proved (`C138_program_fails`).
* C139, C140: `int(x)` of a float is SMT-LIB's `to_int`, which rounds down, so `int(-1.5)` is -2 (`C139_fails`,
  `C140_int_fails`).
* C140: divisors and conditions are compared with +0.0 by `!=`, so `-0.0` is a valid divisor and a true condition
  (`C140_zero_fails`); `int` accepts NaN and infinities (`C140_int_fails`); integers are rounded before they are compared
  with floats (`C140_mixed_fails`).
* C141, C142: `ToSeq(t)` and `ToMS(t)` take the first type argument of the static type.  For `t: Tuple[int, str]` the
  result is created as `PSeq[int]` although it contains a string (`C141_fails`, `C141_tuple_exact`), and for
  `t: Optional[List[int]]` as `PSeq[NoneType]` (`C141_optional_fails`, `C141_optional_exact`).  With the promises of
  `PSeq___getitem__` and `PSeq___contains__`, mentioning an element that has not this type is a contradiction (C88).
  The static type of the expression is another one (`C142_fails`).
* C143: with `--sif=poss` the condition of a `while` loop without `TerminatesSif` is asserted to be low before the loop
  only (`for` loops assert it at the end of each iteration, too).  `while s != 0: s = s - h` with secret `h` is accepted
  and ends for `h == 1` but not for `h == 0` (`C143_fails`).  Calls are not checked at all: the message
  `missing.termination.annotation` is never used, so a method that calls itself forever may be called under a secret
  condition (`C143_calls_fails`).  `C143_partial` proves the claim for programs whose `while` loops check the condition
  in each iteration and whose methods require `LowEvent()`.
* C144: a forward reference in the annotation of a function is a `NameError`, which test_global_definedness_7 expects to
  be reported.  It is not for `List[A]` and any other subscript: the arguments are never looked at (`C144_fails`,
  `C144_generic_exact`), nor for unions of classes that only have `object` in common (`C144_union_fails`), nor for the
  annotations of variables of the module (`C144_variable_fails`).  `Union[A, None]` in an annotation makes nagini fail with an
  exception (`C144_none_crashes`), since `_get_name_parts` asks the constant `None` for its name.
* C145: `from ab import *` followed by `from a import *` executes `ab` for both (`C145_fails`): the module is looked up with
  `file.startswith(name)`, and `'ab.py'` starts with `a`.  The statements of `a` are then never verified and its names are
  not defined.  `C145_exact` says when an import finds its module, `C145_toplevel` that a module outside packages is taken for
  every name that is a prefix of its own.
* C147: directories in dotted names are identified by their own name (`mod$b`) in the whole program.  After `import b.x` and
  `import a.b.x`, `b.x` refers to the module `a.b.x`, even if the second import is in another module (`C147_fails`,
  `C147_other_module`): the contracts of the wrong functions are used and the statements of `b.x` are not verified.
  `import a.b` followed by `import a` makes nagini fail with an exception (`C147_package_crashes`).
* C148: in `p/__init__.py`, `from .m import f` is resolved to the top-level module `m` instead of `p.m`, and to the main file if
  there is no such module (`C148_fails`); `C148_package`: in packages, `n` dots mean what `n + 1` dots mean in Python.
* C149: `import p.m` and `from p.m import f` do not execute `p/__init__.py` (`C149_fails`), and `from .typing import f` does not
  execute the module `typing` of the package, since the name without the dot is compared with the ignored modules
  (`C149_ignored_fails`).
* C150: a program may define its own function `len` (or `range`, `type`, `arg`, `Low`, a class `Thread`, …), which is not
  rejected, and mypy does not report it.  Its calls are verified as calls of the built-in function (`C150_fails`,
  `C150_exact`), so that `assert len([1]) == 1` is accepted for a `len` that returns 42.
* C151: built-in methods that are called with `super()` do not get `self`: the arguments are shifted and the last parameter
  is null (`C151_super_builtin`).  In `class A(int)`, `super().__eq__(5)` becomes `int___eq__(5, null)`, which is false by
  the postcondition of `int___eq__` (`bool.sil:324`), but true in Python for `A(5)` (`C151_fails`).  (The model of C75 passes the receiver to such methods.)  Inlined
  methods (`C.f(..)`, `super().f(..)`, `@Inline`) get no variable for `*args`, so their code reads the variable of the
  calling method with the same Viper name, or is rejected (`C151_inlined_varargs`, `C151_varargs_fails`).  Static methods
  with parameters cannot be called with `super()` (`C151_super_static`).  For `@Inline` methods see C104.
* C152: a class definition reuses any class with that name that is visible, also through the from-imports of imported
  modules.  If `l` defines `A`, `k` contains `from l import A`, and the program contains `from k import g`, then a class `A`
  of the program is the class `A` of `l` (`C152_imports_fail`, `C152_fails`).  Classes with the name of a built-in class,
  e.g. `Place` or `slice`, become the built-in class, in all modules (`C152_builtin_fails`); a class `Set` becomes `set`
  (`C152_typing_fails`); a class `T` is taken for the type variable `T` of the current class (`C152_tvar_fails`).
  Definitions are rejected only if the own module has defined the name before, or if methods have the same names.
* C153: the targets of `for` and `with` and the names in patterns do not count as assigned in a loop, so the types of existing
  variables are lost if a nested loop assigns them (`C153_for_fails`, `C153_fails`); correct programs are then rejected.  The
  node that is created for a name in a pattern is not part of the loop, so the loop is assumed to follow its first write, and
  the invariant contains the type of a variable that has no value yet (`C153_match_fails`).
* C154: in `for x, y in ..`, `Previous(x)` contains the tuples of the previous iterations (`C154_tuple`, `C154_fails`), but has
  the type of `x` as type argument, so `Previous(x)[0]` in the invariant makes the assumptions contradictory from the second
  iteration on (`C154_contradiction`).  `Previous(y)` refers to an outer loop over `y`, if there is one (`C154_second_fails`).
* C28: with `class B(A[List[T]], Generic[T])`, `B[int]` is taken for an `A[int]` and not for an
  `A[List[int]]`; with `class M(A[int])` and `class C(M, Generic[T])`, `C[str]` is taken for an `A[str]`.
  `superclass` does not replace type variables inside of arguments.
* C61: consequently the common supertype may not be a supertype.
* C58: the search for rules takes the first conjunct that has any, whichever failed.
* C59: `(not a) == (not b)` is negated to `a) == (not b`.
* C60: the service treats errors with the same position, code and message as duplicates even if their
  reasons differ; the command line compares the whole text.
* (read only) if `load_sil_files` raises in `reconfigure`, the options have already changed but the
  resources have not, and a later identical call does not reload them.
* C57: overrides of a grandparent's member are not checked.
* (read only) `f(**d)` with a `**kwargs` parameter crashes; obligations inside a condition
  raise `KeyError`; `MustTerminate(True)` hits an assertion; `create_static_field_function`
  gives inherited static fields no value for the subclass.

## Observations that are not part of the model

Found while reading; no theorem is about them.

* `no_position(ctx, error_string, rules)` (`translators/common.py:238-240`) drops the error string and the rules.
* A pure function with `return` without a value crashes the translator (it translates `None` as an expression).
* `get_int_sequence` (`translators/common.py:663-670`) computes `__sil_int_seq__` and discards it.
* Creating a thread: `call.py:1456` tests an index (`if kwargs_arg or daemon_arg`), and omitting `args` indexes with `None`.
* `MaySet` uses a fresh unknown boolean per occurrence, so inhaled and exhaled permissions are unrelated.
* `iter_del` after a `for` loop (`statement.py:869-872`) is skipped by `break`.
* `_is_family_fold` (`contract.py:468-477`) misses `Fold(Acc(self.P()))`; in inlined bodies family folds are ignored
  (`call.py:1147-1151`).
* `translate_predicate` (`predicate.py:43`) rejects predicates with a docstring.
* Two references to the same enum member are not known to be identical (`program.py:1196-1290`).
* The IO properties of a child operation are resolved in the module of its parent.
* The floating point encodings `float_real.sil` and `float_ieee32.sil` differ from Python's 64-bit floats in rounding and
  range (see also C138, C139, C140).
* f-strings and formatting give no guarantee about the resulting string (`expression.py:660-687`).

* `range___bool__` is declared in builtins.json but defined in no resource file: `if range(n):` produces a Viper program with
  an unknown function.

* Arguments of inlined calls are translated twice (`translators/call.py:1115` and `translators/call.py:1232`); handlers of
  inlined calls in the first translation jump to labels that do not exist in the generated method.
* The method that is being translated is not in `ctx.inlined_calls`, so a method may be inlined once into itself.

* `del b.x` for an inherited attribute that is also used in the subclass refers to a Viper field that is not declared, so
  the program is rejected.
* A property that overrides an attribute of the direct superclass crashes instead of being reported (`PythonField` has no
  `inline`).
* Code inlined from another class may access private fields of the class it is inlined into
  (`field.cls is not ctx.current_class`, `translators/expression.py:1030-1031`).

* For calls on unions, the guards use `node.func.value.id` as the name of a Viper variable
  (`translators/call.py:1182`): receivers that are not names crash the translator, and receivers that are module variables
  or have been renamed lead to undeclared variables.

* Data classes get a structural `__eq__` in Python, which depends on the heap; for the verifier `==` on a class without
  `__eq__` is the uninterpreted function `object___eq__`, which does not, so that `a == b` survives a change of `a.x`.

* A store to a subscript looks for a slice in the first target of the statement (`translators/statement.py:1502`):
  `x = l[0] = 1` and `l[0], y = 1, 2` end in an `AttributeError`, and a `for` loop whose target is a subscript in an
  `UnboundLocalError`.  Stores to fields of receivers of union type return `None` for the list of assertions.

* `cls(...)` drops keyword arguments and default values of `__init__` (`translators/call.py:1791-1795`), so Viper
  reports a wrong number of arguments.  For a class whose superclass is a generic instantiation, `has_classmethod`
  asks a `GenericType` for an attribute it does not have (`lib/program_nodes.py:671-672`).

* Defining an IO operation sets `_enable_obligations` of the analyzer (`analyzer_io.py:67`), an attribute that nothing
  reads; the flag is called `enable_obligations`.
* A user class named `Thread` with a method `start` or `join` is translated like the class of nagini_contracts
  (`call.py:1375-1377` compares names).

* The iterated expression of a `for` loop is not visited by the analyzer (`analyzer.py:918-921`), so a comprehension or
  an assignment expression there uses variables that were never created.

* C146: `from b import c` is rejected if `c` is a module that `b` imports (`C146_module_incomplete`), since only `c.x` for the names
  `x` of `c` is known in `b`.  That a definition which hides an imported module does not remove the names of the module is
  harmless because mypy reports such programs (`C146_guard_needed`).

## How to read seeded/LOG.jsonl

Each line is one wrong program tried in a scratch copy.  `failed` lists the
theorems whose own proof broke.

* Lines 1-197: the build stopped at the first module with an error, so a
  theorem in a later module was not rechecked.  `dependent_property_theorems`
  on these lines was found by searching the sources for the names of the failed
  lemmas.  It is an approximation: it can name too many or too few theorems.
* From line 198 on: the failing proofs are replaced by a placeholder in the
  scratch copy and the build is repeated until every module is checked.
  `dependent_property_theorems` then lists exactly the property theorems that
  depend on a placeholder.  An edit whose text occurs more than once in the file
  is rejected.  This was added after an edit meant for `postCheck` was applied to
  `preCheck`; the wrong entry was replaced before it was committed.
* A broken proof shows that the proof noticed the edit.  It does not by itself
  show that the theorem is false for the edited definition.

## Axioms used by each theorem

Generated by `tools/axioms.py` from `#print axioms`.

<!-- axioms begin -->
| claim | theorem | axioms |
|---|---|---|
| C01 | `Hoist.C01_evaluation_order_fails` | propext |
| C01 | `Hoist.C01_witness_values` | none |
| C01 | `Hoist.C01_unary_operand_dropped` | none |
| C01 | `Hoist.C01_evaluation_order_partial` | Quot.sound, propext |
| C02 | `Hoist.C02_short_circuit_fails` | Quot.sound, propext |
| C02 | `Hoist.C02_short_circuit_partial` | Quot.sound, propext |
| C02 | `Hoist.C02_pure_operands` | Quot.sound, propext |
| C03 | `Hoist.C03_conditional_fails` | Quot.sound, propext |
| C03 | `Hoist.C03_conditional_partial` | Quot.sound, propext |
| C04 | `Hoist.C04_chain_short_circuit_fails` | Quot.sound, propext |
| C04 | `Hoist.C04_chain_partial` | Quot.sound, propext |
| C05 | `Unpack.C05_swap_fails` | Quot.sound, propext |
| C05 | `Unpack.C05_chained_targets_fail` | Quot.sound, propext |
| C05 | `Unpack.C05_assignment_partial` | Quot.sound, propext |
| C05 | `Unpack.C05_single_target` | Quot.sound, propext |
| C06 | `Unpack.C06_starred_fails` | Quot.sound, propext |
| C06 | `Unpack.C06_spurious_failure` | Classical.choice, Quot.sound, propext |
| C06 | `Unpack.C06_starred_partial` | Classical.choice, Quot.sound, propext |
| C06 | `Unpack.C06_length_check` | Classical.choice, Quot.sound, propext |
| C06 | `Unpack.C06_prefix_and_star_partial` | Classical.choice, Quot.sound, propext |
| C07 | `Classes.C07_dispatch_most_specific` | Classical.choice, Quot.sound, propext |
| C07 | `Classes.C07_no_instance_no_call` | Classical.choice, Quot.sound, propext |
| C08 | `Unwind.C08_exceptions_fail` | propext |
| C08 | `Unwind.C08_violations` | propext |
| C08 | `Unwind.C08_target_partial` | Quot.sound, propext |
| C08 | `Unwind.C08_value_partial` | Quot.sound, propext |
| C08 | `Unwind.C08_finally_chain_partial` | Quot.sound, propext |
| C08 | `Unwind.C08_uncaught` | Quot.sound, propext |
| C08 | `Unwind.C08_with_partial` | Quot.sound, propext |
| C09 | `Unwind.C09_jumps_fail` | propext |
| C09 | `Unwind.C09_violations` | propext |
| C09 | `Unwind.C09_return_iff_partial` | Classical.choice, Quot.sound, propext |
| C09 | `Unwind.C09_loop_jump_partial` | Quot.sound, propext |
| C09 | `Unwind.C09_blocks_inner_to_outer` | Classical.choice, Quot.sound, propext |
| C10 | `Pure.C10_exact_partial` | Quot.sound, propext |
| C10 | `Pure.C10_sound_partial` | Quot.sound, propext |
| C10 | `Pure.C10_no_fallthrough_partial` | Quot.sound, propext |
| C10 | `Pure.C10_fails` | Quot.sound, propext |
| C10 | `Pure.C10_guard_fails` | Quot.sound, propext |
| C10 | `Pure.C10_or_fails` | Quot.sound, propext |
| C10 | `Pure.C10_leak_fails` | Quot.sound, propext |
| C10 | `Pure.C10_truthiness_fails` | Quot.sound, propext |
| C10 | `Pure.C10_abstract` | propext |
| C11 | `Match.C11_sound_partial` | Quot.sound, propext |
| C11 | `Match.C11_exact_partial` | Quot.sound, propext |
| C11 | `Match.C11_unguarded_partial` | Quot.sound, propext |
| C11 | `Match.C11_fails` | Quot.sound, propext |
| C11 | `Match.C11_or_fails` | Quot.sound, propext |
| C11 | `Match.C11_guard_fails` | Quot.sound, propext |
| C11 | `Match.C11_unset_fails` | Quot.sound, propext |
| C11 | `Match.C11_parameter` | Quot.sound, propext |
| C11 | `Match.C11_body_last` | Quot.sound, propext |
| C12 | `Comp.C12_list_partial` | Classical.choice, Quot.sound, propext |
| C12 | `Comp.C12_filtered_partial` | Classical.choice, Quot.sound, propext |
| C12 | `Comp.C12_filtered_contains` | Classical.choice, Quot.sound, propext |
| C12 | `Comp.C12_set_partial` | Classical.choice, Quot.sound, propext |
| C12 | `Comp.C12_dict_partial` | Classical.choice, Quot.sound, propext |
| C12 | `Comp.C12_dict_accepts` | Quot.sound, propext |
| C12 | `Comp.C12_dict_key_incomplete` | Quot.sound, propext |
| C12 | `Comp.C12_sources` | propext |
| C12 | `Comp.C12_fails` | Quot.sound, propext |
| C12 | `Comp.C12_value_fails` | Quot.sound, propext |
| C12 | `Comp.C12_equal_fails` | Classical.choice, Quot.sound, propext |
| C13 | `For.C13_runs_partial` | Classical.choice, Quot.sound, propext |
| C13 | `For.C13_elements` | Quot.sound, propext |
| C13 | `For.C13_invariant_exact` | Classical.choice, Quot.sound, propext |
| C13 | `For.C13_invariant_defined` | Quot.sound, propext |
| C13 | `For.C13_invariant_partial` | Classical.choice, Quot.sound, propext |
| C13 | `For.C13_invariant_step` | Classical.choice, Quot.sound, propext |
| C13 | `For.C13_permission_partial` | Quot.sound, propext |
| C13 | `For.C13_next` | Classical.choice, Quot.sound, propext |
| C13 | `For.C13_next_unique` | Quot.sound, propext |
| C13 | `For.C13_accepted` | Quot.sound, propext |
| C13 | `For.C13_fails` | Classical.choice, Quot.sound, propext |
| C13 | `For.C13_break_fails` | Classical.choice, Quot.sound, propext |
| C14 | `Args.C14_fails` | Quot.sound, propext |
| C14 | `Args.C14_unpack_fails` | Quot.sound, propext |
| C14 | `Args.C14_posonly_fails` | Quot.sound, propext |
| C14 | `Args.C14_bind_iff_partial` | Classical.choice, Quot.sound, propext |
| C14 | `Args.C14_bind_partial` | Classical.choice, Quot.sound, propext |
| C14 | `Args.C14_total` | Classical.choice, Quot.sound, propext |
| C14 | `Args.C14_kwonly_default_wrong` | Classical.choice, Quot.sound, propext |
| C14 | `Args.C14_order_fails` | Classical.choice, Quot.sound, propext |
| C14 | `Args.C14_order_partial` | Classical.choice, Quot.sound, propext |
| C15 | `IntOps.C15_division_fails` | Classical.choice, Quot.sound, propext |
| C15 | `IntOps.C15_division_iff_partial` | Classical.choice, Quot.sound, propext |
| C15 | `IntOps.C15_spec_unique` | Classical.choice, Quot.sound, propext |
| C16 | `IntOps.C16_bitops_fail` | Classical.choice, Quot.sound, propext |
| C16 | `IntOps.C16_and_iff_partial` | Classical.choice, Quot.sound, propext |
| C16 | `IntOps.C16_or_iff_partial` | Classical.choice, Quot.sound, propext |
| C16 | `IntOps.C16_xor_iff_partial` | Classical.choice, Quot.sound, propext |
| C16 | `IntOps.C16_witness` | Quot.sound, propext |
| C16 | `IntOps.C16_shifts_fail` | Classical.choice, Quot.sound, propext |
| C16 | `IntOps.C16_shl_iff_partial` | Classical.choice, Quot.sound, propext |
| C16 | `IntOps.C16_shr_iff_partial` | Classical.choice, Quot.sound, propext |
| C16 | `IntOps.C16_rshift_negative_fails` | propext |
| C17 | `Seqs.C17_list_slice` | Classical.choice, Quot.sound, propext |
| C18 | `Seqs.C18_imm_slice_iff_partial` | Classical.choice, Quot.sound, propext |
| C18 | `Seqs.C18_tuple_slice_iff_partial` | Classical.choice, Quot.sound, propext |
| C18 | `Seqs.C18_imm_slice_fails` | propext |
| C18 | `Seqs.C18_getitem` | Classical.choice, Quot.sound, propext |
| C19 | `Seqs.C19_tuple_create_iff_partial` | Quot.sound, propext |
| C19 | `Seqs.C19_tuple_create_fails` | Quot.sound, propext |
| C20 | `Seqs.C20_range` | Classical.choice, Quot.sound, propext |
| C20 | `Seqs.C20_range_step` | Classical.choice, Quot.sound, propext |
| C20 | `Seqs.C20_range_unique` | Classical.choice, Quot.sound, propext |
| C20 | `Seqs.C20_range_contains_fails` | Quot.sound, propext |
| C20 | `Seqs.C20_range_contains_iff_partial` | Quot.sound, propext |
| C20 | `Seqs.C20_bytearray_contains` | Quot.sound, propext |
| C20 | `Seqs.C20_enumerate` | Classical.choice, Quot.sound, propext |
| C21 | `Seqs.C21_insert` | Quot.sound, propext |
| C21 | `Seqs.C21_insert_position` | Classical.choice, Quot.sound, propext |
| C21 | `Seqs.C21_setitem` | Classical.choice, Quot.sound, propext |
| C21 | `Seqs.C21_append_extend` | propext |
| C21 | `Seqs.C21_mul` | Quot.sound, propext |
| C21 | `Seqs.C21_bytes` | Quot.sound, propext |
| C21 | `Seqs.C21_reverse_fails` | propext |
| C21 | `Seqs.C21_reverse_iff_partial` | Quot.sound, propext |
| C21 | `Seqs.C21_bytearray_reverse` | Quot.sound, propext |
| C21 | `Seqs.C21_search_fails` | Classical.choice, Quot.sound, propext |
| C21 | `Seqs.C21_contains_fails` | propext |
| C21 | `Seqs.C21_search_partial` | Classical.choice, Quot.sound, propext |
| C21 | `Seqs.C21_bytearray_init_fails` | Quot.sound, propext |
| C21 | `Seqs.C21_bytearray_init_iff_partial` | Quot.sound, propext |
| C22 | `Names.C22_identities_unique_fails` | propext |
| C22 | `Names.C22_trailing_nul_fails` | Classical.choice, Quot.sound, propext |
| C22 | `Names.C22_identities_unique_partial` | Classical.choice, Quot.sound, propext |
| C22 | `Names.C22_prefix_distinct_partial` | Classical.choice, Quot.sound, propext |
| C23 | `Names.C23_decode_encode_fails` | Classical.choice, Quot.sound, propext |
| C23 | `Names.C23_decode_encode_iff_partial` | Classical.choice, Quot.sound, propext |
| C23 | `Names.C23_encode_decode` | Classical.choice, Quot.sound, propext |
| C24 | `TypeDomain.C24_union_contradiction` | Classical.choice, Quot.sound, propext |
| C24 | `TypeDomain.C24_union_fails` | Classical.choice, Quot.sound, propext |
| C24 | `TypeDomain.C24_tuple_fails` | Quot.sound, propext |
| C24 | `TypeDomain.C24_consistent_fails` | Classical.choice, Quot.sound, propext |
| C24 | `TypeDomain.C24_consistent_partial` | Classical.choice, Quot.sound, propext |
| C25 | `TypeDomain.C25_nominal_partial` | Classical.choice, Quot.sound, propext |
| C25 | `TypeDomain.C25_isinstance_partial` | Classical.choice, Quot.sound, propext |
| C25 | `TypeDomain.C25_not_provable` | Classical.choice, Quot.sound, propext |
| C25 | `TypeDomain.C25_builtins_fails` | Classical.choice, Quot.sound, propext |
| C25 | `TypeDomain.C25_builtins_iff_partial` | Classical.choice, Quot.sound, propext |
| C26 | `Classes.C26_least_common_superclass` | Quot.sound, propext |
| C26 | `Classes.C26_union_class` | Quot.sound, propext |
| C26 | `Classes.C26_issubtype_nominal` | Quot.sound, propext |
| C27 | `Classes.C27_lookup_nearest` | Classical.choice, Quot.sound, propext |
| C27 | `Classes.C27_nearest_unique` | none |
| C27 | `Classes.C27_has_function` | Classical.choice, Quot.sound, propext |
| C27 | `Classes.C27_func_or_method_fails` | Classical.choice, Quot.sound, propext |
| C27 | `Classes.C27_func_or_method_partial` | Classical.choice, Quot.sound, propext |
| C27 | `Classes.C27_method_nearest` | Classical.choice, Quot.sound, propext |
| C28 | `Generics.C28_class_partial` | Classical.choice, Quot.sound, propext |
| C28 | `Generics.C28_exact_partial` | Classical.choice, Quot.sound, propext |
| C28 | `Generics.C28_superclass_partial` | Classical.choice, Quot.sound, propext |
| C28 | `Generics.C28_nested_fails` | Classical.choice, Quot.sound, propext |
| C28 | `Generics.C28_skipped_fails` | Classical.choice, Quot.sound, propext |
| C28 | `Generics.C28_fails` | Classical.choice, Quot.sound, propext |
| C29 | `Ops.C29_fails` | Classical.choice, Quot.sound, propext |
| C29 | `Ops.C29_iff_partial` | Classical.choice, Quot.sound, propext |
| C29 | `Ops.C29_defined` | Quot.sound, propext |
| C30 | `SilNodes.C30_translation_preserves` | Classical.choice, Quot.sound, propext |
| C30 | `SilNodes.C30_int_preserves` | Classical.choice, Quot.sound, propext |
| C30 | `SilNodes.C30_perm_preserves` | Classical.choice, Quot.sound, propext |
| C30 | `SilNodes.C30_static` | Classical.choice, Quot.sound, propext |
| C30 | `SilNodes.C30_static_consistent` | Classical.choice, Quot.sound, propext |
| C30 | `SilNodes.C30_condInc` | Classical.choice, Quot.sound, propext |
| C31 | `Guards.C31_guards_exact` | Quot.sound, propext |
| C31 | `Guards.C31_guards_inhale` | Quot.sound, propext |
| C31 | `Guards.C31_occurrence` | Classical.choice, Quot.sound, propext |
| C31 | `Guards.C31_collected` | Quot.sound, propext |
| C31 | `Guards.C31_some_active` | Quot.sound, propext |
| C32 | `Termination.C32_recursion_fails` | propext |
| C32 | `Termination.C32_recursion_partial` | Classical.choice, Quot.sound, propext |
| C32 | `Termination.C32_no_inherited_bodies` | Classical.choice, Quot.sound, propext |
| C32 | `Termination.C32_depth` | Classical.choice, Quot.sound, propext |
| C32 | `Termination.C32_promise_propagates` | Classical.choice, Quot.sound, propext |
| C32 | `Termination.C32_builtins` | Classical.choice, Quot.sound, propext |
| C33 | `Termination.C33_loop_terminates` | Classical.choice, Quot.sound, propext |
| C33 | `Termination.C33_promise_demanded` | Quot.sound, propext |
| C33 | `Termination.C33_iterations` | Classical.choice, Quot.sound, propext |
| C33 | `Termination.C33_amount_restored` | Quot.sound, propext |
| C34 | `WaitLevel.C34_fails` | Classical.choice, Quot.sound, propext |
| C34 | `WaitLevel.C34_fails_always` | Classical.choice, Quot.sound, propext |
| C34 | `WaitLevel.C34_loop_fails` | Classical.choice, Quot.sound, propext |
| C34 | `WaitLevel.C34_deadlock_partial` | Classical.choice, Quot.sound, propext |
| C34 | `WaitLevel.C34_locks` | Classical.choice, Quot.sound, propext |
| C34 | `WaitLevel.C34_owned_below` | Classical.choice, Quot.sound, propext |
| C34 | `WaitLevel.C34_precondition_sound` | Classical.choice, Quot.sound, propext |
| C34 | `WaitLevel.C34_postcondition_sound` | Classical.choice, Quot.sound, propext |
| C34 | `WaitLevel.C34_lock_level_exists` | Classical.choice, Quot.sound, propext |
| C34 | `WaitLevel.C34_lock_level_exact` | Quot.sound, propext |
| C35 | `Ghost.C35_erases_partial` | Classical.choice, Quot.sound, propext |
| C35 | `Ghost.C35_reflects_partial` | Classical.choice, Quot.sound, propext |
| C35 | `Ghost.C35_ghost_functions_partial` | Quot.sound, propext |
| C35 | `Ghost.C35_deterministic` | Classical.choice, Quot.sound, propext |
| C35 | `Ghost.C35_failing_code` | Classical.choice, Quot.sound, propext |
| C35 | `Ghost.C35_endless_loop` | Quot.sound, propext |
| C35 | `Ghost.C35_fails` | propext |
| C35 | `Ghost.C35_call_statement_fails` | propext |
| C35 | `Ghost.C35_if_fails` | propext |
| C35 | `Ghost.C35_augmented_assignment_fails` | propext |
| C35 | `Ghost.C35_builtin_fails` | propext |
| C35 | `Ghost.C35_receiver_fails` | propext |
| C35 | `Ghost.C35_receiver_effect_fails` | propext |
| C35 | `Ghost.C35_loop_variable_fails` | Classical.choice, Quot.sound, propext |
| C35 | `Ghost.C35_ghost_loop_fails` | Classical.choice, Quot.sound, propext |
| C35 | `Ghost.C35_extraction_fails` | propext |
| C35 | `Ghost.C35_nested_call_fails` | propext |
| C35 | `Ghost.C35_return_fails` | propext |
| C35 | `Ghost.C35_chained_call_fails` | Classical.choice, Quot.sound, propext |
| C35 | `Ghost.C35_mixed_return_fails` | Classical.choice, Quot.sound, propext |
| C35 | `Ghost.C35_single_target_fails` | Classical.choice, Quot.sound, propext |
| C36 | `Names.C36_request_terminates` | Classical.choice, Quot.sound, propext |
| C36 | `Names.C36_names_unique` | Quot.sound, propext |
| C36 | `Names.C36_history_terminates` | Classical.choice, Quot.sound, propext |
| C37 | `Alias.C37_aliases_fails` | none |
| C37 | `Alias.C37_block_effect` | Classical.choice, Quot.sound, propext |
| C37 | `Alias.C37_restored_iff_partial` | Classical.choice, Quot.sound, propext |
| C37 | `Alias.C37_reachable_inv` | Classical.choice, Quot.sound, propext |
| C37 | `Alias.C37_lookup_partial` | Classical.choice, Quot.sound, propext |
| C38 | `Imports.C38_included_fails` | propext |
| C38 | `Imports.C38_terminates_iff` | Classical.choice, Quot.sound, propext |
| C38 | `Imports.C38_contents_partial` | Classical.choice, Quot.sound, propext |
| C39 | `Imports.C39_globals_fails` | Quot.sound, propext |
| C39 | `Imports.C39_globals_partial` | Classical.choice, Quot.sound, propext |
| C39 | `Imports.C39_python_total` | Classical.choice, Quot.sound, propext |
| C39 | `Imports.C39_translation_terminates` | Classical.choice, Quot.sound, propext |
| C39 | `Imports.C39_at_most_once` | Classical.choice, Quot.sound, propext |
| C40 | `Deps.C40_recursive_methods_diverge` | Classical.choice, Quot.sound, propext |
| C40 | `Deps.C40_deps_fails` | Classical.choice, Quot.sound, propext |
| C40 | `Deps.C40_check_partial` | Classical.choice, Quot.sound, propext |
| C40 | `Deps.C40_terminates_partial` | Classical.choice, Quot.sound, propext |
| C41 | `Body.C41_body_fails` | propext |
| C41 | `Body.C41_window` | Classical.choice, Quot.sound, propext |
| C41 | `Body.C41_body_partial` | Classical.choice, Quot.sound, propext |
| C41 | `Body.C41_canonical` | Classical.choice, Quot.sound, propext |
| C42 | `Deps.C42_inlining_terminates` | Classical.choice, Quot.sound, propext |
| C42 | `Deps.C42_rejected_iff` | Quot.sound, propext |
| C42 | `Deps.C42_reported` | Quot.sound, propext |
| C42 | `Deps.C42_all_inlined` | Classical.choice, propext |
| C43 | `Errors.C43_converts_iff_partial` | Classical.choice, Quot.sound, propext |
| C43 | `Errors.C43_prints_iff_partial` | Classical.choice, Quot.sound, propext |
| C43 | `Errors.C43_diagnostic_iff_partial` | Classical.choice, Quot.sound, propext |
| C43 | `Errors.C43_rules_partial` | propext |
| C43 | `Errors.C43_known_partial` | Classical.choice, Quot.sound, propext |
| C43 | `Errors.C43_timeout_fails` | Classical.choice, Quot.sound, propext |
| C43 | `Errors.C43_unquoted_fails` | Classical.choice, Quot.sound, propext |
| C43 | `Errors.C43_module_level_fails` | Classical.choice, Quot.sound, propext |
| C44 | `Service.C44_own_diagnostics` | Classical.choice, Quot.sound, propext |
| C44 | `Service.C44_own_success` | Classical.choice, Quot.sound, propext |
| C45 | `History.C45_service_partial` | Classical.choice, Quot.sound, propext |
| C45 | `History.C45_setting_partial` | Classical.choice, Quot.sound, propext |
| C45 | `History.C45_server_iff_partial` | Classical.choice, Quot.sound, propext |
| C45 | `History.C45_server_fails` | Classical.choice, Quot.sound, propext |
| C45 | `History.C45_termination_fails` | Classical.choice, Quot.sound, propext |
| C45 | `History.C45_args_partial` | Classical.choice, Quot.sound, propext |
| C46 | `Service.C46_precise_partial` | Classical.choice, Quot.sound, propext |
| C46 | `Service.C46_no_leak_partial` | Classical.choice, Quot.sound, propext |
| C46 | `Service.C46_stops_iff_partial` | Quot.sound, propext |
| C46 | `Service.C46_stops_partial` | Classical.choice, Quot.sound, propext |
| C46 | `Service.C46_unregistered_fails` | propext |
| C46 | `Service.C46_order_fails` | propext |
| C46 | `Service.C46_server_fails` | propext |
| C47 | `Service.C47_consistent_partial` | Classical.choice, Quot.sound, propext |
| C47 | `Service.C47_reconfigure_partial` | Classical.choice, Quot.sound, propext |
| C47 | `Service.C47_backend_fails` | propext |
| C47 | `Service.C47_sif_fails` | propext |
| C48 | `Lsp.C48_timely_partial` | Classical.choice, Quot.sound, propext |
| C48 | `Lsp.C48_early_fails` | Quot.sound, propext |
| C48 | `Lsp.C48_converting_fails` | Quot.sound, propext |
| C49 | `TestCheck.C49_passes_iff` | Classical.choice, Quot.sound, propext |
| C50 | `TestCheck.C50_half` | Quot.sound, propext |
| C50 | `TestCheck.C50_not_lost` | Classical.choice, Quot.sound, propext |
| C51 | `IntOps.C51_power` | Quot.sound, propext |
| C51 | `IntOps.C51_bit_length` | Classical.choice, Quot.sound, propext |
| C51 | `IntOps.C51_invert` | Classical.choice, Quot.sound, propext |
| C52 | `IntOps.C52_truediv_fails` | none |
| C52 | `IntOps.C52_truediv_iff_partial` | Quot.sound, propext |
| C53 | `Imports.C53_resolve_fails` | propext |
| C53 | `Imports.C53_resolve_iff_partial` | Classical.choice, Quot.sound, propext |
| C54 | `WaitLevel.C54_fails` | none |
| C54 | `WaitLevel.C54_emitted_partial` | Classical.choice, Quot.sound, propext |
| C54 | `WaitLevel.C54_no_inlining` | Classical.choice, Quot.sound, propext |
| C55 | `Args.C55_fails` | propext |
| C55 | `Args.C55_parity_partial` | Classical.choice, Quot.sound, propext |
| C55 | `Args.C55_single_partial` | Classical.choice, Quot.sound, propext |
| C56 | `Ops.C56_fails` | Classical.choice, Quot.sound, propext |
| C56 | `Ops.C56_skipped_fails` | Classical.choice, Quot.sound, propext |
| C56 | `Ops.C56_iff_partial` | Classical.choice, Quot.sound, propext |
| C56 | `Ops.C56_unrelated_partial` | Classical.choice, Quot.sound, propext |
| C56 | `Ops.C56_direct_partial` | Classical.choice, Quot.sound, propext |
| C57 | `Overrides.C57_sound_partial` | Quot.sound, propext |
| C57 | `Overrides.C57_iff_partial` | Classical.choice, Quot.sound, propext |
| C57 | `Overrides.C57_fails` | Classical.choice, Quot.sound, propext |
| C57 | `Overrides.C57_function_fails` | Quot.sound, propext |
| C58 | `Errors.C58_found_partial` | none |
| C58 | `Errors.C58_some_partial` | Quot.sound, propext |
| C58 | `Errors.C58_unique_partial` | Quot.sound, propext |
| C58 | `Errors.C58_conjunction_fails` | propext |
| C59 | `Errors.C59_negate_iff_partial` | Classical.choice, Quot.sound, propext |
| C59 | `Errors.C59_parentheses_fails` | Classical.choice, Quot.sound, propext |
| C60 | `Errors.C60_printed_partial` | Quot.sound, propext |
| C60 | `Errors.C60_service_partial` | Quot.sound, propext |
| C60 | `Errors.C60_reason_fails` | Quot.sound, propext |
| C61 | `Generics.C61_pairwise_partial` | Classical.choice, Quot.sound, propext |
| C61 | `Generics.C61_common_partial` | Classical.choice, Quot.sound, propext |
| C61 | `Generics.C61_order_partial` | Classical.choice, Quot.sound, propext |
| C61 | `Generics.C61_fails` | Classical.choice, Quot.sound, propext |
| C62 | `Result.C62_control` | Classical.choice, Quot.sound, propext |
| C62 | `Result.C62_return_partial` | Classical.choice, Quot.sound, propext |
| C62 | `Result.C62_end_partial` | Classical.choice, Quot.sound, propext |
| C62 | `Result.C62_partial` | Classical.choice, Quot.sound, propext |
| C62 | `Result.C62_loop_in_finally` | Classical.choice, Quot.sound, propext |
| C62 | `Result.C62_fails` | Classical.choice, Quot.sound, propext |
| C62 | `Result.C62_stale_fails` | propext |
| C62 | `Result.C62_loop_exception_fails` | propext |
| C62 | `Result.C62_inlined_fails` | propext |
| C63 | `Adt.C63_class_field_contradiction` | Classical.choice, Quot.sound, propext |
| C63 | `Adt.C63_consistent_fails` | Classical.choice, Quot.sound, propext |
| C63 | `Adt.C63_consistent_partial` | Classical.choice, Quot.sound, propext |
| C64 | `Adt.C64_expressions` | Classical.choice, Quot.sound, propext |
| C64 | `Adt.C64_field_of_constructor` | Classical.choice, Quot.sound, propext |
| C64 | `Adt.C64_eq_partial` | Classical.choice, Quot.sound, propext |
| C64 | `Adt.C64_is_partial` | Classical.choice, Quot.sound, propext |
| C64 | `Adt.C64_isinstance` | Classical.choice, Quot.sound, propext |
| C64 | `Adt.C64_exhaustive` | Classical.choice, Quot.sound, propext |
| C64 | `Adt.C64_eta_partial` | Classical.choice, Quot.sound, propext |
| C64 | `Adt.C64_nullary_incomplete` | Classical.choice, Quot.sound, propext |
| C64 | `Adt.C64_eq_fails` | Classical.choice, Quot.sound, propext |
| C64 | `Adt.C64_is_fails` | Classical.choice, Quot.sound, propext |
| C64 | `Adt.C64_eta_fails` | Classical.choice, Quot.sound, propext |
| C65 | `Adt.C65_names_partial` | Classical.choice, Quot.sound, propext |
| C65 | `Adt.C65_typed_partial` | Classical.choice, Quot.sound, propext |
| C65 | `Adt.C65_expressions_partial` | Quot.sound, propext |
| C65 | `Adt.C65_type_field_fails` | propext |
| C65 | `Adt.C65_underscore_fails` | propext |
| C65 | `Adt.C65_cons_fails` | propext |
| C65 | `Adt.C65_same_name_fails` | Classical.choice, Quot.sound, propext |
| C65 | `Adt.C65_wellformed_fails` | Quot.sound, propext |
| C66 | `Threads.C66_joins_conserve_permissions_partial` | Classical.choice, Quot.sound, propext |
| C66 | `Threads.C66_full_join_partial` | Classical.choice, Quot.sound, propext |
| C66 | `Threads.C66_partial_join_partial` | Classical.choice, Quot.sound, propext |
| C66 | `Threads.C66_unscaled_fails` | Classical.choice, Quot.sound, propext |
| C66 | `Threads.C66_fails` | Classical.choice, Quot.sound, propext |
| C66 | `Threads.C66_exceptions_fail` | Classical.choice, Quot.sound, propext |
| C67 | `Threads.C67_join_assumes_truth_partial` | Classical.choice, Quot.sound, propext |
| C67 | `Threads.C67_join_assumes_all_partial` | Classical.choice, Quot.sound, propext |
| C67 | `Threads.C67_start_consistent` | Quot.sound, propext |
| C67 | `Threads.C67_fails` | Classical.choice, Quot.sound, propext |
| C67 | `Threads.C67_exceptions_fail` | Classical.choice, Quot.sound, propext |
| C67 | `Threads.C67_bound_fails` | Classical.choice, Quot.sound, propext |
| C67 | `Threads.C67_nested_fails` | Classical.choice, Quot.sound, propext |
| C67 | `Threads.C67_result_fails` | Classical.choice, Quot.sound, propext |
| C68 | `IO.C68_io_operations_terminate_partial` | Classical.choice, Quot.sound, propext |
| C68 | `IO.C68_fails` | Quot.sound, propext |
| C68 | `IO.C68_hiding_fails` | Quot.sound, propext |
| C68 | `IO.C68_conditional_fails` | Classical.choice, Quot.sound, propext |
| C69 | `IO.C69_open_is_body_partial` | Classical.choice, Quot.sound, propext |
| C69 | `IO.C69_conditional_fails` | Quot.sound, propext |
| C70 | `Cfg.C70_cfg_faithful_partial` | Classical.choice, Quot.sound, propext |
| C70 | `Cfg.C70_cfg_end_partial` | Classical.choice, Quot.sound, propext |
| C70 | `Cfg.C70_cfg_faithful_fails` | propext |
| C70 | `Cfg.C70_return_in_except_fails` | propext |
| C70 | `Cfg.C70_raise_in_except_fails` | propext |
| C70 | `Cfg.C70_with_in_try_fails` | propext |
| C70 | `Cfg.C70_break_in_with_fails` | propext |
| C70 | `Cfg.C70_loop_in_try_fails` | propext |
| C70 | `Cfg.C70_return_in_finally_fails` | Quot.sound, propext |
| C70 | `Cfg.C70_nested_finally_fails` | propext |
| C70 | `Cfg.C70_named_outer_fails` | propext |
| C71 | `Cfg.C71_jump_targets` | Classical.choice, Quot.sound, propext |
| C71 | `Cfg.C71_labels_distinct` | Classical.choice, Quot.sound, propext |
| C71 | `Cfg.C71_not_stuck` | Classical.choice, Quot.sound, propext |
| C72 | `Oblig.C72_no_leak` | Classical.choice, Quot.sound, propext |
| C72 | `Oblig.C72_release_held` | Classical.choice, Quot.sound, propext |
| C72 | `Oblig.C72_frame` | Classical.choice, Quot.sound, propext |
| C72 | `Oblig.C72_calls` | Classical.choice, Quot.sound, propext |
| C73 | `Oblig.C73_eventually_released` | Classical.choice, Quot.sound, propext |
| C74 | `Oblig.C74_method_terminates` | Classical.choice, Quot.sound, propext |
| C74 | `Oblig.C74_no_infinite_run` | Classical.choice, Quot.sound, propext |
| C74 | `Oblig.C74_call_returns` | Classical.choice, Quot.sound, propext |
| C74 | `Oblig.C74_loop_ends` | Classical.choice, Quot.sound, propext |
| C75 | `Dispatch.C75_verified_code_never_fails_partial` | Classical.choice, Quot.sound, propext |
| C75 | `Dispatch.C75_calls_satisfy_static_contract_partial` | Classical.choice, Quot.sound, propext |
| C75 | `Dispatch.C75_postcondition_partial` | Classical.choice, Quot.sound, propext |
| C75 | `Dispatch.C75_inherited_constructor_fails` | Classical.choice, Quot.sound, propext |
| C75 | `Dispatch.C75_inherited_setter_fails` | Classical.choice, Quot.sound, propext |
| C75 | `Dispatch.C75_explicit_super_fails` | Classical.choice, Quot.sound, propext |
| C75 | `Dispatch.C75_constructor_of_cls_fails` | Classical.choice, Quot.sound, propext |
| C75 | `Dispatch.C75_override_gap_fails` | Classical.choice, Quot.sound, propext |
| C75 | `Dispatch.C75_fails` | Classical.choice, Quot.sound, propext |
| C76 | `Defined.C76_verified_never_undefined_partial` | Classical.choice, Quot.sound, propext |
| C76 | `Defined.C76_pure_function_fails` | Quot.sound, propext |
| C76 | `Defined.C76_inlined_fails` | Quot.sound, propext |
| C76 | `Defined.C76_except_name_fails` | Quot.sound, propext |
| C76 | `Defined.C76_identity_clash_fails` | Quot.sound, propext |
| C76 | `Defined.C76_fails` | Quot.sound, propext |
| C77 | `Defined.C77_assigned_accepted` | Quot.sound, propext |
| C77 | `Defined.C77_assigned_never_undefined` | Classical.choice, Quot.sound, propext |
| C78 | `Families.C78_family_meaning_partial` | Classical.choice, Quot.sound, propext |
| C78 | `Families.C78_gap_fails` | Classical.choice, Quot.sound, propext |
| C78 | `Families.C78_inherited_fails` | Classical.choice, Quot.sound, propext |
| C79 | `Families.C79_static_class` | Classical.choice, Quot.sound, propext |
| C79 | `Families.C79_acc_same` | Classical.choice, Quot.sound, propext |
| C79 | `Families.C79_access_exists` | Classical.choice, Quot.sound, propext |
| C80 | `Families.C80_classes_added` | Classical.choice, Quot.sound, propext |
| C81 | `Cex.C81_names_distinct_partial` | Classical.choice, Quot.sound, propext |
| C81 | `Cex.C81_names_distinct_fails` | Classical.choice, Quot.sound, propext |
| C81 | `Cex.C81_same_class_name_fails` | Classical.choice, Quot.sound, propext |
| C81 | `Cex.C81_names_stable` | Classical.choice, Quot.sound, propext |
| C81 | `Cex.C81_all_named` | Classical.choice, Quot.sound, propext |
| C82 | `Cex.C82_evaluation_partial` | Classical.choice, Quot.sound, propext |
| C82 | `Cex.C82_evaluation_fails` | Classical.choice, Quot.sound, propext |
| C82 | `Cex.C82_parts` | Quot.sound, propext |
| C82 | `Cex.C82_text_injective` | Quot.sound, propext |
| C82 | `Cex.C82_strings` | Classical.choice, Quot.sound, propext |
| C82 | `Cex.C82_no_internal_error_fails` | Classical.choice, Quot.sound, propext |
| C83 | `Cex.C83_integers_partial` | Classical.choice, Quot.sound, propext |
| C83 | `Cex.C83_integers_fails` | Classical.choice, Quot.sound, propext |
| C83 | `Cex.C83_numerals` | Classical.choice, Quot.sound, propext |
| C83 | `Cex.C83_booleans` | Classical.choice, Quot.sound, propext |
| C84 | `Cex.C84_exact_class_partial` | Classical.choice, Quot.sound, propext |
| C84 | `Cex.C84_exact_class_fails` | Classical.choice, Quot.sound, propext |
| C84 | `Cex.C84_class_justified_partial` | Classical.choice, Quot.sound, propext |
| C84 | `Cex.C84_class_justified_fails` | Classical.choice, Quot.sound, propext |
| C85 | `Sif.C85_statements_partial` | Classical.choice, Quot.sound, propext |
| C85 | `Sif.C85_handler_variable_fails` | Quot.sound, propext |
| C85 | `Sif.C85_loop_in_finally_fails` | Quot.sound, propext |
| C85 | `Sif.C85_exception_lost_fails` | Quot.sound, propext |
| C85 | `Sif.C85_cancelled_return_fails` | Quot.sound, propext |
| C85 | `Sif.C85_statements_fails` | Quot.sound, propext |
| C86 | `Sif.C86_for_partial` | Classical.choice, Quot.sound, propext |
| C86 | `Sif.C86_continue_fails` | Quot.sound, propext |
| C86 | `Sif.C86_for_fails` | Quot.sound, propext |
| C86 | `Sif.C86_continue_diverges_fails` | Quot.sound, propext |
| C87 | `Sif.C87_with` | Classical.choice, Quot.sound, propext |
| C88 | `Prelude.C88_consistent_partial` | Classical.choice, Quot.sound, propext |
| C88 | `Prelude.C88_fails` | Classical.choice, Quot.sound, propext |
| C88 | `Prelude.C88_contracts_fails` | Classical.choice, Quot.sound, propext |
| C88 | `Prelude.C88_update_fails` | Classical.choice, Quot.sound, propext |
| C88 | `Prelude.C88_seq_to_ints_fails` | Classical.choice, Quot.sound, propext |
| C88 | `Prelude.C88_bytearray_fails` | Quot.sound, propext |
| C88 | `Prelude.C88_str_create_fails` | Classical.choice, Quot.sound, propext |
| C88 | `Prelude.C88_str_null_fails` | Classical.choice, Quot.sound, propext |
| C88 | `Prelude.C88_str_add_fails` | Classical.choice, Quot.sound, propext |
| C88 | `Prelude.C88_bytes_create_fails` | Classical.choice, Quot.sound, propext |
| C88 | `Prelude.C88_seq_create_fails` | Classical.choice, Quot.sound, propext |
| C88 | `Prelude.C88_set_create_fails` | Classical.choice, Quot.sound, propext |
| C88 | `Prelude.C88_multiset_create_fails` | Classical.choice, Quot.sound, propext |
| C88 | `Prelude.C88_from_bytes_fails` | Classical.choice, Quot.sound, propext |
| C89 | `Prelude.C89_equality_partial` | Classical.choice, Quot.sound, propext |
| C89 | `Prelude.C89_fails` | Classical.choice, Quot.sound, propext |
| C90 | `Prelude.C90_sequences` | Classical.choice, Quot.sound, propext |
| C90 | `Prelude.C90_byte_sequences` | Classical.choice, Quot.sound, propext |
| C90 | `Prelude.C90_sets` | Classical.choice, Quot.sound, propext |
| C90 | `Prelude.C90_multisets` | Classical.choice, Quot.sound, propext |
| C91 | `Exsures.C91_verified_iff` | Quot.sound, propext |
| C91 | `Exsures.C91_call_iff` | Quot.sound, propext |
| C91 | `Exsures.C91_modular` | Quot.sound, propext |
| C92 | `Exsures.C92_sound` | Quot.sound, propext |
| C92 | `Exsures.C92_iff_partial` | Quot.sound, propext |
| C92 | `Exsures.C92_no_exceptions_rejected` | Quot.sound, propext |
| C92 | `Exsures.C92_fails` | Quot.sound, propext |
| C93 | `Amounts.C93_value` | Classical.choice, Quot.sound, propext |
| C93 | `Amounts.C93_iff_partial` | Classical.choice, Quot.sound, propext |
| C93 | `Amounts.C93_accepted_partial` | Classical.choice, Quot.sound, propext |
| C93 | `Amounts.C93_variable_fails` | propext |
| C93 | `Amounts.C93_integer_fails` | propext |
| C93 | `Amounts.C93_fails` | Classical.choice, Quot.sound, propext |
| C94 | `Members.C94_list_iff_partial` | Quot.sound, propext |
| C94 | `Members.C94_set_iff_partial` | Classical.choice, Quot.sound, propext |
| C94 | `Members.C94_dict_iff_partial` | Classical.choice, Quot.sound, propext |
| C94 | `Members.C94_keys_once` | Classical.choice, Quot.sound, propext |
| C94 | `Members.C94_range_partial` | Quot.sound, propext |
| C94 | `Members.C94_range_fails` | propext |
| C94 | `Members.C94_not_canonical` | propext |
| C94 | `Members.C94_fails` | Classical.choice, Quot.sound, propext |
| C95 | `Aggregates.C95_sum` | propext |
| C95 | `Aggregates.C95_sorted` | Quot.sound, propext |
| C95 | `Aggregates.C95_sorted_unique` | Quot.sound, propext |
| C95 | `Aggregates.C95_two` | Quot.sound, propext |
| C95 | `Aggregates.C95_abs` | Quot.sound, propext |
| C95 | `Aggregates.C95_list_partial` | none |
| C95 | `Aggregates.C95_list_bounds` | none |
| C95 | `Aggregates.C95_wrong` | propext |
| C95 | `Aggregates.C95_contradictory` | Quot.sound, propext |
| C95 | `Aggregates.C95_undetermined` | propext |
| C95 | `Aggregates.C95_fails` | Quot.sound, propext |
| C96 | `Quant.C96_quantifiers` | Classical.choice, Quot.sound, propext |
| C96 | `Quant.C96_in_context` | Classical.choice, Quot.sound, propext |
| C96 | `Quant.C96_context` | Quot.sound, propext |
| C97 | `Aug.C97_aug_partial` | propext |
| C97 | `Aug.C97_local_iff_partial` | Quot.sound, propext |
| C97 | `Aug.C97_list_contents` | Quot.sound, propext |
| C97 | `Aug.C97_shared_list_fails` | propext |
| C97 | `Aug.C97_order_fails` | propext |
| C97 | `Aug.C97_fails` | propext |
| C98 | `Globals.C98_partial` | Classical.choice, Quot.sound, propext |
| C98 | `Globals.C98_straight_partial` | Classical.choice, Quot.sound, propext |
| C98 | `Globals.C98_runs` | Quot.sound, propext |
| C98 | `Globals.C98_for_fails` | Quot.sound, propext |
| C98 | `Globals.C98_while_fails` | Classical.choice, Quot.sound, propext |
| C98 | `Globals.C98_cycle_fails` | Quot.sound, propext |
| C98 | `Globals.C98_final_iff` | propext |
| C98 | `Globals.C98_constant` | Classical.choice, Quot.sound, propext |
| C99 | `Statics.C99_sound_partial` | Quot.sound, propext |
| C99 | `Statics.C99_known_partial` | Quot.sound, propext |
| C99 | `Statics.C99_translated` | Quot.sound, propext |
| C99 | `Statics.C99_statements_partial` | Quot.sound, propext |
| C99 | `Statics.C99_fails` | Quot.sound, propext |
| C99 | `Statics.C99_hidden_fails` | Quot.sound, propext |
| C99 | `Statics.C99_inherited_fails` | Classical.choice, Quot.sound, propext |
| C99 | `Statics.C99_skipped_fails` | Classical.choice, Quot.sound, propext |
| C99 | `Statics.C99_receiver_fails` | propext |
| C100 | `Statics.C100_partial` | Quot.sound, propext |
| C100 | `Statics.C100_fails` | Quot.sound, propext |
| C101 | `Truth.C101_fails` | Classical.choice, Quot.sound, propext |
| C101 | `Truth.C101_more_fails` | Quot.sound, propext |
| C101 | `Truth.C101_partial` | Classical.choice, Quot.sound, propext |
| C101 | `Truth.C101_misjudged` | Classical.choice, Quot.sound, propext |
| C101 | `Truth.C101_determined_partial` | Classical.choice, Quot.sound, propext |
| C101 | `Truth.C101_defined` | Classical.choice, Quot.sound, propext |
| C102 | `Truth.C102_values` | Classical.choice, Quot.sound, propext |
| C102 | `Truth.C102_roundtrip` | Classical.choice, Quot.sound, propext |
| C102 | `Truth.C102_impure` | propext |
| C103 | `Enums.C103_full_fails` | propext |
| C103 | `Enums.C103_fails` | propext |
| C103 | `Enums.C103_renamed_fails` | propext |
| C103 | `Enums.C103_identity_fails` | propext |
| C103 | `Enums.C103_consistent_partial` | Quot.sound, propext |
| C103 | `Enums.C103_partial` | Quot.sound, propext |
| C103 | `Enums.C103_constructor` | Quot.sound, propext |
| C104 | `Inline.C104_partial` | Quot.sound, propext |
| C104 | `Inline.C104_depth` | Classical.choice, Quot.sound, propext |
| C104 | `Inline.C104_fails` | Quot.sound, propext |
| C104 | `Inline.C104_except_fails` | propext |
| C104 | `Inline.C104_old_fails` | propext |
| C104 | `Inline.C104_receiver_fails` | propext |
| C104 | `Inline.C104_rejected` | propext |
| C105 | `Fields.C105_partial` | Classical.choice, Quot.sound, propext |
| C105 | `Fields.C105_created_once` | Classical.choice, Quot.sound, propext |
| C105 | `Fields.C105_private_fails` | Classical.choice, Quot.sound, propext |
| C105 | `Fields.C105_spelled_fails` | Classical.choice, Quot.sound, propext |
| C105 | `Fields.C105_property_fails` | Classical.choice, Quot.sound, propext |
| C105 | `Fields.C105_private_property_fails` | Classical.choice, Quot.sound, propext |
| C105 | `Fields.C105_fails` | Classical.choice, Quot.sound, propext |
| C106 | `Fields.C106_partial` | Classical.choice, Quot.sound, propext |
| C106 | `Fields.C106_exclusive` | Classical.choice, Quot.sound, propext |
| C106 | `Fields.C106_may_create_inherited` | Classical.choice, Quot.sound, propext |
| C106 | `Fields.C106_may_create_partial` | Classical.choice, Quot.sound, propext |
| C106 | `Fields.C106_may_create_fails` | propext |
| C106 | `Fields.C106_spelled_fails` | Classical.choice, Quot.sound, propext |
| C106 | `Fields.C106_del_fails` | Classical.choice, Quot.sound, propext |
| C106 | `Fields.C106_fails` | Classical.choice, Quot.sound, propext |
| C107 | `Unions.C107_partial` | Classical.choice, Quot.sound, propext |
| C107 | `Unions.C107_decided` | Classical.choice, Quot.sound, propext |
| C107 | `Unions.C107_operators` | Quot.sound, propext |
| C107 | `Unions.C107_static_fails` | Quot.sound, propext |
| C107 | `Unions.C107_pure_static_fails` | Quot.sound, propext |
| C107 | `Unions.C107_mixed_fails` | none |
| C107 | `Unions.C107_fails` | Quot.sound, propext |
| C108 | `Unions.C108_partial` | Classical.choice, Quot.sound, propext |
| C108 | `Unions.C108_vararg_wrong` | Quot.sound, propext |
| C108 | `Unions.C108_rejected` | Quot.sound, propext |
| C108 | `Unions.C108_vararg_fails` | Quot.sound, propext |
| C108 | `Unions.C108_fails` | Quot.sound, propext |
| C109 | `Dataclasses.C109_partial` | Classical.choice, Quot.sound, propext |
| C109 | `Dataclasses.C109_keywords_partial` | Classical.choice, Quot.sound, propext |
| C109 | `Dataclasses.C109_fails` | Quot.sound, propext |
| C109 | `Dataclasses.C109_inherited_fails` | Quot.sound, propext |
| C109 | `Dataclasses.C109_inherited_wrong` | Classical.choice, Quot.sound, propext |
| C109 | `Dataclasses.C109_plain_fails` | Quot.sound, propext |
| C109 | `Dataclasses.C109_class_var_fails` | Quot.sound, propext |
| C109 | `Dataclasses.C109_property_fails` | Quot.sound, propext |
| C109 | `Dataclasses.C109_order_fails` | Quot.sound, propext |
| C110 | `Dataclasses.C110_partial` | Quot.sound, propext |
| C110 | `Dataclasses.C110_fails` | none |
| C110 | `Dataclasses.C110_lost` | Quot.sound, propext |
| C111 | `Stores.C111_partial` | Quot.sound, propext |
| C111 | `Stores.C111_single_partial` | Quot.sound, propext |
| C111 | `Stores.C111_fails` | Quot.sound, propext |
| C111 | `Stores.C111_target_call` | none |
| C111 | `Stores.C111_reevaluated` | none |
| C111 | `Stores.C111_reevaluated_variable` | none |
| C111 | `Stores.C111_receiver_read_late` | none |
| C112 | `ClassMethods.C112_sound_partial` | Classical.choice, Quot.sound, propext |
| C112 | `ClassMethods.C112_iff_partial` | Classical.choice, Quot.sound, propext |
| C112 | `ClassMethods.C112_fails_without_init` | Classical.choice, Quot.sound, propext |
| C112 | `ClassMethods.C112_fails_skipped` | Classical.choice, Quot.sound, propext |
| C112 | `ClassMethods.C112_fails_post_init` | Classical.choice, Quot.sound, propext |
| C113 | `Decreases.C113_partial` | Classical.choice, Quot.sound, propext |
| C113 | `Decreases.C113_unique_partial` | Classical.choice, Quot.sound, propext |
| C113 | `Decreases.C113_fails` | Quot.sound, propext |
| C113 | `Decreases.C113_fails_condition` | Classical.choice, Quot.sound, propext |
| C113 | `Decreases.C113_needs_trust` | Quot.sound, propext |
| C114 | `IsInstance.C114_iff_partial` | Classical.choice, Quot.sound, propext |
| C114 | `IsInstance.C114_float_fails` | Classical.choice, Quot.sound, propext |
| C114 | `IsInstance.C114_var_fails` | Classical.choice, Quot.sound, propext |
| C114 | `IsInstance.C114_type_fails` | Classical.choice, Quot.sound, propext |
| C115 | `Scopes.C115_iff_partial` | Classical.choice, Quot.sound, propext |
| C115 | `Scopes.C115_modules_partial` | Classical.choice, Quot.sound, propext |
| C115 | `Scopes.C115_static_method_fails` | none |
| C115 | `Scopes.C115_parameter_fails` | none |
| C115 | `Scopes.C115_special_fails` | Quot.sound, propext |
| C115 | `Scopes.C115_order_fails` | propext |
| C115 | `Scopes.C115_leak_fails` | propext |
| C116 | `Withs.C116_iff_partial` | Quot.sound, propext |
| C116 | `Withs.C116_normal_partial` | Quot.sound, propext |
| C116 | `Withs.C116_swallow_fails` | Quot.sound, propext |
| C116 | `Withs.C116_break_fails` | Quot.sound, propext |
| C117 | `Prob.C117_checked_partial` | Quot.sound, propext |
| C117 | `Prob.C117_no_secrets` | propext |
| C117 | `Prob.C117_while_fails` | Quot.sound, propext |
| C117 | `Prob.C117_match_fails` | Classical.choice, Quot.sound, propext |
| C117 | `Prob.C117_union_fails` | propext |
| C117 | `Prob.C117_operator_fails` | propext |
| C117 | `Prob.C117_filter_fails` | propext |
| C117 | `Prob.C117_pure_fails` | Quot.sound, propext |
| C117 | `Prob.C117_fails` | Quot.sound, propext |
| C118 | `SifMode.C118_api_partial` | Quot.sound, propext |
| C118 | `SifMode.C118_others_partial` | Quot.sound, propext |
| C118 | `SifMode.C118_command_line_fails` | Quot.sound, propext |
| C118 | `SifMode.C118_fails` | propext |
| C119 | `FieldTypes.C119_declared_partial` | Classical.choice, Quot.sound, propext |
| C119 | `FieldTypes.C119_narrow_partial` | Classical.choice, Quot.sound, propext |
| C119 | `FieldTypes.C119_order_partial` | Classical.choice, Quot.sound, propext |
| C119 | `FieldTypes.C119_narrowed_fails` | propext |
| C119 | `FieldTypes.C119_files_fails` | propext |
| C119 | `FieldTypes.C119_generic_fails` | Quot.sound, propext |
| C119 | `FieldTypes.C119_union_fails` | propext |
| C119 | `FieldTypes.C119_fails` | propext |
| C120 | `Substs.C120_generic_partial` | Classical.choice, Quot.sound, propext |
| C120 | `Substs.C120_own_partial` | Classical.choice, Quot.sound, propext |
| C120 | `Substs.C120_self_partial` | Classical.choice, Quot.sound, propext |
| C120 | `Substs.C120_optional_partial` | Classical.choice, Quot.sound, propext |
| C120 | `Substs.C120_nested_fails` | propext |
| C120 | `Substs.C120_nested_wf_fails` | Quot.sound, propext |
| C120 | `Substs.C120_tuple_fails` | propext |
| C120 | `Substs.C120_optional_fails` | propext |
| C120 | `Substs.C120_fails` | Quot.sound, propext |
| C121 | `ExprTypes.C121_partial` | Quot.sound, propext |
| C121 | `ExprTypes.C121_get_partial` | Quot.sound, propext |
| C121 | `ExprTypes.C121_slice_fails` | Classical.choice, Quot.sound, propext |
| C121 | `ExprTypes.C121_slice_never_fails` | propext |
| C121 | `ExprTypes.C121_get_fails` | Classical.choice, Quot.sound, propext |
| C121 | `ExprTypes.C121_compare_fails` | Classical.choice, Quot.sound, propext |
| C121 | `ExprTypes.C121_optional_fails` | Classical.choice, Quot.sound, propext |
| C122 | `ExprTypes.C122_partial` | Quot.sound, propext |
| C122 | `ExprTypes.C122_slice_fails` | Classical.choice, Quot.sound, propext |
| C122 | `ExprTypes.C122_slice_never_fails` | propext |
| C122 | `ExprTypes.C122_optional_fails` | Classical.choice, Quot.sound, propext |
| C123 | `Defaults.C123_partial` | Quot.sound, propext |
| C123 | `Defaults.C123_stale_fails` | Quot.sound, propext |
| C123 | `Defaults.C123_undefined_fails` | Quot.sound, propext |
| C124 | `Coverage.C124_partial` | Classical.choice, Quot.sound, propext |
| C124 | `Coverage.C124_own_partial` | Classical.choice, Quot.sound, propext |
| C124 | `Coverage.C124_inherit_fails` | Classical.choice, Quot.sound, propext |
| C124 | `Coverage.C124_main_fails` | Classical.choice, Quot.sound, propext |
| C125 | `Coverage.C125_partial` | Classical.choice, Quot.sound, propext |
| C125 | `Coverage.C125_property_fails` | Classical.choice, Quot.sound, propext |
| C125 | `Coverage.C125_inherit_fails` | Classical.choice, Quot.sound, propext |
| C126 | `GlobalNames.C126_partial` | Quot.sound, propext |
| C126 | `GlobalNames.C126_method_fails` | Quot.sound, propext |
| C126 | `GlobalNames.C126_static_fails` | Quot.sound, propext |
| C126 | `GlobalNames.C126_implicit_fails` | Quot.sound, propext |
| C126 | `GlobalNames.C126_constructor_fails` | Quot.sound, propext |
| C126 | `GlobalNames.C126_shadow_fails` | Quot.sound, propext |
| C127 | `GlobalNames.C127_partial` | Quot.sound, propext |
| C127 | `GlobalNames.C127_static_fails` | Quot.sound, propext |
| C128 | `MethodVars.C128_partial` | Classical.choice, Quot.sound, propext |
| C128 | `MethodVars.C128_flat` | Classical.choice, Quot.sound, propext |
| C128 | `MethodVars.C128_bare` | propext |
| C128 | `MethodVars.C128_nested_fails` | Classical.choice, Quot.sound, propext |
| C129 | `MethodVars.C129_partial` | Classical.choice, Quot.sound, propext |
| C129 | `MethodVars.C129_two_fails` | Quot.sound, propext |
| C129 | `MethodVars.C129_nested_fails` | Quot.sound, propext |
| C130 | `MethodVars.C130_partial` | Quot.sound, propext |
| C130 | `MethodVars.C130_wrap_fails` | propext |
| C131 | `ThreadArgs.C131_exact` | Classical.choice, Quot.sound, propext |
| C131 | `ThreadArgs.C131_partial` | Classical.choice, Quot.sound, propext |
| C131 | `ThreadArgs.C131_one` | Classical.choice, Quot.sound, propext |
| C131 | `ThreadArgs.C131_complete` | Classical.choice, Quot.sound, propext |
| C131 | `ThreadArgs.C131_types_fails` | Classical.choice, Quot.sound, propext |
| C132 | `ThreadArgs.C132_exact` | Classical.choice, Quot.sound, propext |
| C132 | `ThreadArgs.C132_partial` | Classical.choice, Quot.sound, propext |
| C132 | `ThreadArgs.C132_duplicate_fails` | Classical.choice, Quot.sound, propext |
| C133 | `ThreadArgs.C133_partial` | Quot.sound, propext |
| C133 | `ThreadArgs.C133_kwargs_fails` | propext |
| C134 | `AutoOblig.C134_fails` | propext |
| C134 | `AutoOblig.C134_server_exact` | Quot.sound, propext |
| C134 | `AutoOblig.C134_partial` | Quot.sound, propext |
| C134 | `AutoOblig.C134_service` | propext |
| C134 | `AutoOblig.C134_service_cli` | propext |
| C134 | `AutoOblig.C134_single` | Quot.sound, propext |
| C135 | `AutoOblig.C135_skipped_fails` | propext |
| C135 | `AutoOblig.C135_call` | propext |
| C135 | `AutoOblig.C135_union_fails` | propext |
| C135 | `AutoOblig.C135_partial` | Classical.choice, Quot.sound, propext |
| C135 | `AutoOblig.C135_ghost` | propext |
| C135 | `AutoOblig.C135_checked` | Classical.choice, Quot.sound, propext |
| C136 | `Placement.C136_fails` | propext |
| C136 | `Placement.C136_contract_only_fails` | propext |
| C136 | `Placement.C136_partial` | Classical.choice, Quot.sound, propext |
| C136 | `Placement.C136_accepts` | Classical.choice, Quot.sound, propext |
| C137 | `Placement.C137_fails` | propext |
| C137 | `Placement.C137_methods` | Classical.choice, Quot.sound, propext |
| C137 | `Placement.C137_partial` | Classical.choice, Quot.sound, propext |
| C137 | `Placement.C137_exact` | Classical.choice, Quot.sound, propext |
| C138 | `Floats.C138_fails` | Classical.choice, Quot.sound, propext |
| C138 | `Floats.C138_program_fails` | Classical.choice, Quot.sound, propext |
| C138 | `Floats.C138_exact` | Classical.choice, Quot.sound, propext |
| C138 | `Floats.C138_partial` | Classical.choice, Quot.sound, propext |
| C138 | `Floats.C138_ieee` | Classical.choice, Quot.sound, propext |
| C139 | `Floats.C139_partial` | Classical.choice, Quot.sound, propext |
| C139 | `Floats.C139_compare` | Classical.choice, Quot.sound, propext |
| C139 | `Floats.C139_int` | Classical.choice, Quot.sound, propext |
| C139 | `Floats.C139_fails` | Classical.choice, Quot.sound, propext |
| C140 | `Floats.C140_fails` | Classical.choice, Quot.sound, propext |
| C140 | `Floats.C140_zero_fails` | Classical.choice, Quot.sound, propext |
| C140 | `Floats.C140_int_fails` | Classical.choice, Quot.sound, propext |
| C140 | `Floats.C140_mixed_fails` | Classical.choice, Quot.sound, propext |
| C140 | `Floats.C140_partial` | Classical.choice, Quot.sound, propext |
| C140 | `Floats.C140_compare` | Classical.choice, Quot.sound, propext |
| C140 | `Floats.C140_int` | Classical.choice, Quot.sound, propext |
| C140 | `Floats.C140_arith` | Classical.choice, Quot.sound, propext |
| C141 | `Creates.C141_partial` | Quot.sound, propext |
| C141 | `Creates.C141_fails` | Classical.choice, Quot.sound, propext |
| C141 | `Creates.C141_optional_fails` | Classical.choice, Quot.sound, propext |
| C141 | `Creates.C141_optional_exact` | propext |
| C141 | `Creates.C141_tuple_exact` | Classical.choice, Quot.sound, propext |
| C142 | `Creates.C142_partial` | propext |
| C142 | `Creates.C142_accepts` | Quot.sound, propext |
| C142 | `Creates.C142_fails` | Classical.choice, Quot.sound, propext |
| C143 | `Poss.C143_partial` | Quot.sound, propext |
| C143 | `Poss.C143_no_secrets` | Quot.sound, propext |
| C143 | `Poss.C143_rejects` | propext |
| C143 | `Poss.C143_fails` | propext |
| C143 | `Poss.C143_calls_fails` | propext |
| C144 | `Annots.C144_partial` | Classical.choice, Quot.sound, propext |
| C144 | `Annots.C144_annotation` | Classical.choice, Quot.sound, propext |
| C144 | `Annots.C144_generic_exact` | Classical.choice, Quot.sound, propext |
| C144 | `Annots.C144_generic_classes` | Classical.choice, Quot.sound, propext |
| C144 | `Annots.C144_fails` | propext |
| C144 | `Annots.C144_union_fails` | propext |
| C144 | `Annots.C144_variable_fails` | propext |
| C144 | `Annots.C144_none_crashes` | Quot.sound, propext |
| C145 | `ImportTargets.C145_partial` | Quot.sound, propext |
| C145 | `ImportTargets.C145_exact` | Quot.sound, propext |
| C145 | `ImportTargets.C145_toplevel` | Quot.sound, propext |
| C145 | `ImportTargets.C145_fails` | none |
| C146 | `ImportNames.C146_sound` | Quot.sound, propext |
| C146 | `ImportNames.C146_complete` | Quot.sound, propext |
| C146 | `ImportNames.C146_interpretation` | Quot.sound, propext |
| C146 | `ImportNames.C146_encoding` | propext |
| C146 | `ImportNames.C146_consistent` | propext |
| C146 | `ImportNames.C146_module_incomplete` | Quot.sound, propext |
| C146 | `ImportNames.C146_guard_needed` | Quot.sound, propext |
| C147 | `Packages.C147_partial` | Quot.sound, propext |
| C147 | `Packages.C147_distinct` | Quot.sound, propext |
| C147 | `Packages.C147_fails` | propext |
| C147 | `Packages.C147_other_module` | propext |
| C147 | `Packages.C147_package_crashes` | propext |
| C148 | `Packages.C148_partial` | Quot.sound, propext |
| C148 | `Packages.C148_exact` | Quot.sound, propext |
| C148 | `Packages.C148_package` | Quot.sound, propext |
| C148 | `Packages.C148_fails` | none |
| C149 | `Packages.C149_partial` | propext |
| C149 | `Packages.C149_fails` | propext |
| C149 | `Packages.C149_ignored_absolute` | Quot.sound, propext |
| C149 | `Packages.C149_ignored_fails` | Quot.sound, propext |
| C150 | `Calls.C150_partial` | Classical.choice, Quot.sound, propext |
| C150 | `Calls.C150_exact` | Classical.choice, Quot.sound, propext |
| C150 | `Calls.C150_alias` | propext |
| C150 | `Calls.C150_forall_missing` | propext |
| C150 | `Calls.C150_fails` | propext |
| C151 | `Receivers.C151_partial` | Quot.sound, propext |
| C151 | `Receivers.C151_super_builtin` | Quot.sound, propext |
| C151 | `Receivers.C151_inlined_varargs` | Quot.sound, propext |
| C151 | `Receivers.C151_super_static` | Classical.choice, Quot.sound, propext |
| C151 | `Receivers.C151_fails` | propext |
| C151 | `Receivers.C151_varargs_fails` | propext |
| C152 | `ClassDefs.C152_partial` | Classical.choice, Quot.sound, propext |
| C152 | `ClassDefs.C152_injective` | Classical.choice, Quot.sound, propext |
| C152 | `ClassDefs.C152_imports_fail` | propext |
| C152 | `ClassDefs.C152_builtin_fails` | Classical.choice, Quot.sound, propext |
| C152 | `ClassDefs.C152_typing_fails` | Quot.sound, propext |
| C152 | `ClassDefs.C152_tvar_fails` | Classical.choice, Quot.sound, propext |
| C152 | `ClassDefs.C152_fails` | propext |
| C153 | `LoopTypes.C153_partial` | Classical.choice, Quot.sound, propext |
| C153 | `LoopTypes.C153_existed` | Classical.choice, Quot.sound, propext |
| C153 | `LoopTypes.C153_for_fails` | Quot.sound, propext |
| C153 | `LoopTypes.C153_match_fails` | Quot.sound, propext |
| C153 | `LoopTypes.C153_fails` | Quot.sound, propext |
| C154 | `Previous.C154_partial` | Classical.choice, Quot.sound, propext |
| C154 | `Previous.C154_rejected` | Classical.choice, Quot.sound, propext |
| C154 | `Previous.C154_tuple` | Classical.choice, Quot.sound, propext |
| C154 | `Previous.C154_contradiction` | Classical.choice, Quot.sound, propext |
| C154 | `Previous.C154_second_fails` | Classical.choice, Quot.sound, propext |
| C154 | `Previous.C154_fails` | Classical.choice, Quot.sound, propext |
<!-- axioms end -->
