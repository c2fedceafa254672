{"id": "C01", "title": "Operand evaluation order is preserved", "statement": "When Nagini translates an expression whose operands contain calls with side effects (binary operations, call arguments, tuple and list displays, attribute reads), executing the emitted statements and then evaluating the emitted Viper expression gives the same result value and the same final heap as evaluating the Python expression left to right.", "quantifier": "every expression built from constants, locals, heap reads, arithmetic, and calls to arbitrary heap-transforming methods; every initial heap and local store", "why_tests_cant": "the number of operand nestings and heap behaviours of callees is unbounded; a wrong order only shows for callees that write a location an earlier operand reads", "anchors": ["src/nagini_translation/translators/expression.py: translate_BinOp, translate_Compare, translate_Tuple", "src/nagini_translation/translators/call.py: translate_args, _only_translate_method_call"]}
{"id": "C02", "title": "and/or short-circuit evaluation is preserved", "statement": "For `e1 and ... and en` and `e1 or ... or en` the emitted code runs the side effects of exactly those operands Python evaluates, in the same order, and the resulting value equals Python's result (the last evaluated operand).", "quantifier": "every n, every list of operand expressions (pure or with calls), every initial state", "why_tests_cant": "requires all operand counts, truth-value combinations and all possible effects of operands on earlier operands", "anchors": ["src/nagini_translation/translators/expression.py: translate_BoolOp", "src/nagini_translation/lib/util.py: join_expressions, join_three_expressions"]}
{"id": "C03", "title": "Conditional expressions evaluate exactly one branch", "statement": "`a if c else b` runs the effects of c and then of exactly the selected branch, and its value is the value of the selected branch.", "quantifier": "every condition and branch expression, every initial state", "why_tests_cant": "a branch may change any location the condition reads; tests only sample callees", "anchors": ["src/nagini_translation/translators/expression.py: translate_IfExp"]}
{"id": "C04", "title": "Chained comparisons short-circuit", "statement": "`e0 op1 e1 op2 e2 ...` has the value of the conjunction of its links, evaluates every operand at most once, and does not run the side effects of operands to the right of the first false link.", "quantifier": "every chain length, all operands, all initial states", "why_tests_cant": "chain length and operand effects are unbounded", "anchors": ["src/nagini_translation/translators/expression.py: translate_Compare"]}
{"id": "C05", "title": "Tuple and multi-target assignment assigns the values computed before the assignment", "statement": "After `t1, ..., tn = rhs` (and `t1 = t2 = rhs`) every target holds the component that rhs had before any target was written (so `a, b = b, a` swaps).", "quantifier": "every target list of local variables, every tuple right-hand side over locals, every initial store", "why_tests_cant": "all aliasing patterns between targets and right-hand-side variables must be covered", "anchors": ["src/nagini_translation/translators/statement.py: translate_stmt_Assign, assign_to, _assign_to_tuple", "src/nagini_translation/translators/expression.py: translate_Tuple"]}
{"id": "C06", "title": "Starred unpacking assigns the same segments as Python", "statement": "In `x1, ..., *s, y1, ..., yk = seq` the targets before the star receive the first elements, the starred target the middle segment and the targets after the star the last k elements; the emitted length check fails exactly when Python raises ValueError.", "quantifier": "every number of targets before and after the star, every sequence length", "why_tests_cant": "unbounded target lists and sequence lengths", "anchors": ["src/nagini_translation/translators/statement.py: assign_to, _assign_to_tuple, _assign_to_starred"]}
{"id": "C07", "title": "Union-typed receivers dispatch to the most specific alternative", "statement": "A call, field access or field assignment on a receiver of union type runs the alternative of the most specific union member the receiver is an instance of, and exactly one alternative.", "quantifier": "every finite single-inheritance class hierarchy, every union of its classes, every dynamic receiver type that is an instance of some member", "why_tests_cant": "hierarchies and union subsets are unbounded; order of a Python set is arbitrary", "anchors": ["src/nagini_translation/lib/program_nodes.py: toposort_classes, chain_if_stmts, chain_cond_exp", "src/nagini_translation/translators/call.py: translate_call_in_union", "src/nagini_translation/translators/common.py: get_function_call"]}
{"id": "C08", "title": "Raised exceptions reach the handler Python would select", "statement": "An exception raised at a statement transfers control to the first matching except clause of the innermost enclosing try that has one, after running every finally block (and __exit__) that Python runs on the way, and to the caller if there is none.", "quantifier": "every nesting of try/except/finally/with around the raising statement, every set of handler types, every raised type", "why_tests_cant": "nesting depth and handler lists are unbounded", "anchors": ["src/nagini_translation/translators/expression.py: create_exception_catchers, _create_goto_finally", "src/nagini_translation/translators/method.py: translate_finally, translate_handler", "src/nagini_translation/lib/util.py: get_surrounding_try_blocks"]}
{"id": "C09", "title": "return/break/continue run all pending finally blocks and stop at the right target", "statement": "A return, break or continue executes exactly the finally blocks and __exit__ calls between the statement and its target, innermost first, and then continues at the method end, after the loop, or at the next iteration.", "quantifier": "every nesting of loops, try/finally and with blocks, protected regions and handlers around the jump", "why_tests_cant": "nesting is unbounded; each combination takes a different path through the finally-code dispatch", "anchors": ["src/nagini_translation/translators/statement.py: translate_stmt_Return, translate_stmt_Break, translate_stmt_Continue", "src/nagini_translation/translators/method.py: translate_finally"]}
{"id": "C10", "title": "Pure functions denote what the Python body computes", "statement": "The single Viper expression emitted for the body of a @Pure function (nested lets and conditionals) evaluates, for all arguments, to the value the Python body returns.", "quantifier": "every body built from assignments, augmented assignments, if/else, assert and return; every argument valuation", "why_tests_cant": "bodies and control-flow joins are unbounded", "anchors": ["src/nagini_translation/translators/pure.py: translate_pure, translate_exprs, translate_pure_Assign, translate_pure_If"]}
{"id": "C11", "title": "match statements select the first matching case and bind the same names", "statement": "The nested if emitted for a match statement executes the body of the first case whose pattern matches and whose guard holds, with pattern variables bound as in Python, and nothing if there is none.", "quantifier": "every list of cases built from value, singleton, class, or, as and wildcard patterns, every subject", "why_tests_cant": "pattern nesting and case lists are unbounded", "anchors": ["src/nagini_translation/translators/statement.py: translate_stmt_Match, _translate_match_pattern_cond, _translate_match_pattern_assignments, _collect_guard_aliases"]}
{"id": "C12", "title": "Facts assumed about comprehensions hold for the value Python builds", "statement": "Everything the encoding assumes about the result of a list, filtered list, set or dict comprehension is true of the container Python builds from the same source.", "quantifier": "every source sequence, every element/key/value function and filter", "why_tests_cant": "an assumed fact must hold for all sources; a false one makes the verifier unsound silently", "anchors": ["src/nagini_translation/translators/expression.py: translate_ListComp, translate_SetComp, translate_DictComp"]}
{"id": "C13", "title": "for loops visit every element once, in order, and Previous() is the visited prefix", "statement": "The iterator encoding of a for loop maintains its generated invariant through every iteration, binds the loop variable to the successive elements, terminates after the last one, and Previous(...) always equals the elements already processed.", "quantifier": "every finite sequence, every number of executed iterations", "why_tests_cant": "the invariant must be inductive over all iterations and lengths, including the empty sequence", "anchors": ["src/nagini_translation/translators/statement.py: translate_stmt_For, _create_for_loop_invariant", "src/nagini_translation/resources/iterator.sil: Iterator___next__"]}
{"id": "C14", "title": "Call arguments are bound to the parameters Python binds them to", "statement": "For every call Python accepts, each parameter of the callee receives the same argument (positional, keyword, default, *args, **kwargs) in the translated call.", "quantifier": "every signature with optional defaults, *args and **kwargs, every list of positional and keyword arguments", "why_tests_cant": "signatures and call shapes are unbounded", "anchors": ["src/nagini_translation/translators/call.py: translate_args, _wrap_kw_args"]}
{"id": "C15", "title": "Integer division and modulo contracts agree with Python", "statement": "For all integers a and b != 0 the value the verifier computes for a // b and a % b is the value Python computes (floor division and modulo with the sign of the divisor).", "quantifier": "all pairs of integers with non-zero divisor", "why_tests_cant": "infinite domain; sign combinations are easy to miss", "anchors": ["src/nagini_translation/resources/bool.sil: int___floordiv__, int___mod__"]}
{"id": "C16", "title": "Bitwise operator contracts agree with Python", "statement": "For every pair of integers satisfying the operator preconditions, the value assumed for &, |, ^, << and >> is Python's value.", "quantifier": "all integers within the configured --int-bitops-size range, every bit size", "why_tests_cant": "the range depends on an unbounded configuration parameter and includes negative numbers", "anchors": ["src/nagini_translation/resources/bool.sil: int___and__, int___or__, int___xor__, int___lshift__, int___rshift__", "src/nagini_translation/resources/intbv.sil: toBVInt, fromBVInt", "src/nagini_translation/main.py: parse_sil_file"]}
{"id": "C17", "title": "List slicing agrees with Python for all bounds", "statement": "The contents specified for l[a:b] (missing, negative and out-of-range bounds included) are exactly the elements Python returns, in order.", "quantifier": "every sequence and every pair of optional integer bounds", "why_tests_cant": "infinitely many bounds and lengths", "anchors": ["src/nagini_translation/resources/list.sil: list___getitem_slice__", "src/nagini_translation/resources/slice.sil: slice___create__"]}
{"id": "C18", "title": "Slice contracts of immutable sequences are satisfiable and agree with Python", "statement": "For tuples, bytes and ranges the postconditions of slicing are satisfiable for every bounds pair and describe Python's result.", "quantifier": "every sequence and bounds pair, including stop < start", "why_tests_cant": "a contradictory postcondition proves false only for particular bounds and is never reported as an error", "anchors": ["src/nagini_translation/resources/tuple.sil: tuple___getitem_slice__", "src/nagini_translation/resources/bytes.sil: bytes___getitem_slice__", "src/nagini_translation/resources/range.sil: range___getitem_slice__"]}
{"id": "C19", "title": "Tuple construction contracts are consistent", "statement": "For every number n of elements accepted by the translator (0..9) the postconditions of the n-tuple constructor are satisfied by the real n-tuple.", "quantifier": "every supported arity and all element values", "why_tests_cant": "the contract is assumed, so a contradiction in it makes every later assertion verify; no failing test appears", "anchors": ["src/nagini_translation/resources/tuple.sil: tuple___create0__ ... tuple___create9__", "src/nagini_translation/translators/expression.py: create_tuple"]}
{"id": "C20", "title": "range objects have Python's length, elements and membership", "statement": "For all start, stop and step the length, the i-th element and membership specified for range(start, stop, step) are those of Python.", "quantifier": "all integers start, stop, step != 0", "why_tests_cant": "infinite domain with rounding corner cases", "anchors": ["src/nagini_translation/resources/range.sil: range___create__, range___create_step__, range___len__, range___contains__"]}
{"id": "C21", "title": "List mutation contracts agree with Python", "statement": "append, extend, insert, remove, index, reverse and item assignment leave the list with the contents Python produces for every index, including negative and out-of-range insert positions.", "quantifier": "every list, element and integer index", "why_tests_cant": "infinitely many lists and indices", "anchors": ["src/nagini_translation/resources/list.sil: list_append, list_insert, list_remove, list_index, list___setitem__"]}
{"id": "C22", "title": "Distinct names have distinct numeric identities", "statement": "Two different strings (variable, field and module names, thread pre-state expressions) never get the same integer identity in the generated program, so definedness and permission facts about one never apply to the other.", "quantifier": "every pair of strings", "why_tests_cant": "collisions exist only for special pairs; sampling pairs does not find or exclude them", "anchors": ["src/nagini_translation/lib/util.py: string_to_int", "src/nagini_translation/translators/common.py: check_var_defined, get_may_set_predicate"]}
{"id": "C23", "title": "Decoding a numeric string identity returns the string", "statement": "int_to_string(string_to_int(s)) == s.", "quantifier": "every string s", "why_tests_cant": "infinite domain", "anchors": ["src/nagini_translation/lib/util.py: string_to_int, int_to_string"]}
{"id": "C24", "title": "The type axioms emitted for a program are consistent", "statement": "For every program there is an interpretation of the generated type domain (subtyping, class constants, unions) that satisfies all emitted axioms; otherwise everything verifies.", "quantifier": "every finite class hierarchy", "why_tests_cant": "consistency is a statement about existence of a model for every program; a contradiction may need an instantiation no test triggers", "anchors": ["src/nagini_translation/translators/type_domain_factory.py: get_default_axioms, create_subtype_axiom, create_union_basic_axioms"]}
{"id": "C25", "title": "isinstance facts are exactly nominal subtyping", "statement": "From the emitted type axioms a value of static class C is provably an instance of D iff D is an ancestor of C, and provably not an instance of unrelated classes.", "quantifier": "every finite single-inheritance hierarchy and every pair of classes", "why_tests_cant": "hierarchies are unbounded", "anchors": ["src/nagini_translation/translators/type_domain_factory.py: create_subtype_axiom, create_subtype_exclusion_axiom, create_transitivity_axiom"]}
{"id": "C26", "title": "The type inferred for a join is the least common superclass", "statement": "The common supertype computed for two types is a supertype of both and a subtype of every other common supertype.", "quantifier": "every finite single-inheritance hierarchy and every pair of classes", "why_tests_cant": "hierarchies are unbounded", "anchors": ["src/nagini_translation/lib/program_nodes.py: PythonClass.get_common_superclass", "src/nagini_translation/lib/resolver.py: pairwise_supertype, common_supertype"]}
{"id": "C27", "title": "Member lookup finds the nearest definition on the superclass chain", "statement": "Looking up a field, method or function by name on a class returns the definition of the nearest class on the superclass chain that defines it, and None iff no class on the chain does.", "quantifier": "every class chain and every assignment of members to classes", "why_tests_cant": "unbounded chains", "anchors": ["src/nagini_translation/lib/program_nodes.py: PythonClass.get_field, get_method, get_function, get_func_or_method"]}
{"id": "C28", "title": "Generic subtyping agrees with the declared base class arguments", "statement": "A[args] is reported to be a subtype of B[args2] iff instantiating the declared superclasses of A with args reaches B[args2].", "quantifier": "every generic hierarchy and every instantiation", "why_tests_cant": "unbounded hierarchies and instantiations", "anchors": ["src/nagini_translation/lib/program_nodes.py: GenericType.issubtype, GenericType.superclass"]}
{"id": "C29", "title": "The static type of a binary operation is the type of the function that is called", "statement": "The operator method whose result type is used for typing `a op b` is the operator method that the translation calls.", "quantifier": "every pair of operand classes and every assignment of operator overloads to classes", "why_tests_cant": "the space of overload combinations is unbounded", "anchors": ["src/nagini_translation/lib/resolver.py: _do_get_type", "src/nagini_translation/translators/expression.py: translate_operator"]}
{"id": "C30", "title": "Simplification of generated assertions preserves meaning", "statement": "Translating the internal Boolean, integer and permission nodes (with constant folding and dropping of trivial conjuncts) yields an expression with the same value as the unsimplified one in every state, and nodes reported always-true/always-false have that value.", "quantifier": "every expression tree and every valuation of its atoms", "why_tests_cant": "trees and valuations are unbounded", "anchors": ["src/nagini_translation/lib/silver_nodes/bool_expr.py", "src/nagini_translation/lib/silver_nodes/int_expr.py", "src/nagini_translation/lib/silver_nodes/perm_expr.py"]}
{"id": "C31", "title": "Guards collected for an obligation are exactly the condition under which it occurs", "statement": "For every obligation occurrence in a contract the collected guard conditions are all true iff evaluating the contract reaches that occurrence.", "quantifier": "every nesting of Implies, conditional expressions and conjunctions, every state", "why_tests_cant": "unbounded nesting; needs all states", "anchors": ["src/nagini_translation/lib/guard_collectors.py: GuardCollectingVisitor"]}
{"id": "C32", "title": "Methods with an active termination promise do not recurse forever", "statement": "If every call made under an active MustTerminate obligation passes the generated measure check, there is no infinite call chain from a call with an active promise, including calls dispatched to overriding methods.", "quantifier": "every call graph, every measure assignment, every infinite chain", "why_tests_cant": "non-termination is a property of infinite executions", "anchors": ["src/nagini_translation/translators/obligation/measures.py: MeasureMap.check, initialize", "src/nagini_translation/translators/obligation/method.py", "src/nagini_translation/translators/obligation/obligation_info.py: create_termination_check"]}
{"id": "C33", "title": "Loops with a termination promise terminate", "statement": "If the generated loop checks (measure positive while the condition holds, promise re-established with a smaller measure at the end of the body) succeed for every iteration, the loop runs finitely often.", "quantifier": "every loop execution", "why_tests_cant": "non-termination is a property of infinite executions", "anchors": ["src/nagini_translation/translators/obligation/loop.py", "src/nagini_translation/translators/obligation/measures.py"]}
{"id": "C34", "title": "Wait-level checks exclude deadlock", "statement": "If every lock acquisition and join passes the generated wait-level check, no cyclic wait among threads is reachable.", "quantifier": "every number of threads and locks and every interleaving of acquire/release", "why_tests_cant": "schedules and thread counts are unbounded", "anchors": ["src/nagini_translation/translators/obligation/waitlevel.py", "src/nagini_translation/resources/lock.sil", "src/nagini_translation/translators/obligation/types/must_release.py"]}
{"id": "C35", "title": "Removing ghost code does not change the program", "statement": "Whenever the ghost checker accepts a program, running the extracted program gives the same values of all regular variables, the same sequence of regular side effects and the same termination behaviour as the original.", "quantifier": "every accepted program and every initial state", "why_tests_cant": "noninterference quantifies over all programs and states", "anchors": ["src/nagini_translation/ghost/ghost_checker.py: GhostChecker", "src/nagini_translation/ghost/extraction.py: ProgramExtractor"]}
{"id": "C36", "title": "Generated names are unique", "statement": "Every name handed out for the generated Viper program is different from all names handed out before in the same program, for any sequence of requests and nested scopes, and the request always terminates.", "quantifier": "every history of name requests", "why_tests_cant": "histories are unbounded", "anchors": ["src/nagini_translation/lib/program_nodes.py: PythonScope.get_fresh_name"]}
{"id": "C37", "title": "Leaving an alias scope restores exactly the aliases of the enclosing scope", "statement": "After a with-block that introduces aliases the resolution of every name is the same as before the block, for every nesting of alias contexts and additional aliases.", "quantifier": "every well-nested sequence of alias operations", "why_tests_cant": "nesting is unbounded", "anchors": ["src/nagini_translation/lib/context.py: aliases_context, additional_aliases, set_alias, remove_alias"]}
{"id": "C38", "title": "Module lookup terminates on cyclic imports and sees every reachable module once", "statement": "Computing the modules visible from a module terminates for every import graph and contains exactly the modules reachable by from-imports.", "quantifier": "every finite (cyclic) import graph", "why_tests_cant": "graphs are unbounded", "anchors": ["src/nagini_translation/lib/views.py: PythonModuleView.get_included_modules", "src/nagini_translation/lib/program_nodes.py: PythonModule.get_included_modules"]}
{"id": "C39", "title": "Global statements of a module execute at most once and in Python import order", "statement": "Executing the encoded main method runs the global statements of each module at most once, in the order in which Python executes them on import, for cyclic imports as well.", "quantifier": "every finite import graph with statements and imports interleaved", "why_tests_cant": "graphs and interleavings are unbounded", "anchors": ["src/nagini_translation/translators/statement.py: _execute_module_statements, translate_stmt_Import, translate_stmt_ImportFrom", "src/nagini_translation/translators/method.py: _initialize_main_state"]}
{"id": "C40", "title": "The definedness check of a global call covers all transitive dependencies and is computed in finite time", "statement": "Before a global call all names its callee transitively needs are checked to be defined; computing that set terminates also for recursive functions and methods.", "quantifier": "every (cyclic) dependency graph with unconditional and subclass-conditional dependencies", "why_tests_cant": "graphs are unbounded; non-termination is not observable in a finite test", "anchors": ["src/nagini_translation/lib/program_nodes.py: add_all_call_deps", "src/nagini_translation/translators/common.py: _get_global_definedness_conditions", "src/nagini_translation/translators/call.py: _add_dependencies"]}
{"id": "C41", "title": "Splitting a body into contract and code loses no statement", "statement": "The statements before the computed start index are contract statements (or docstring/global declarations), and every statement between start and end is translated as code; no executable statement outside this window is silently dropped.", "quantifier": "every statement list", "why_tests_cant": "unbounded lists", "anchors": ["src/nagini_translation/lib/util.py: get_body_indices"]}
{"id": "C42", "title": "Inlining terminates and rejects recursion", "statement": "Inlining of statically bound calls terminates for every call graph; a program is rejected exactly when a method is reached again while it is being inlined.", "quantifier": "every finite call graph", "why_tests_cant": "graphs are unbounded; non-termination cannot be tested", "anchors": ["src/nagini_translation/translators/call.py: _inline_call, inline_method"]}
{"id": "C43", "title": "Every reported verification error can be rendered", "statement": "Converting any backend error yields an error whose id and reason have a message, and rendering it never fails.", "quantifier": "every backend error id, reason id, conversion-rule set and position information", "why_tests_cant": "combinations of rules and ids are too many to trigger through the verifier", "anchors": ["src/nagini_translation/lib/errors/manager.py: ErrorManager.transformError", "src/nagini_translation/lib/errors/rules.py", "src/nagini_translation/lib/errors/messages.py", "src/nagini_translation/lib/errors/wrappers.py: Error, Reason"]}
{"id": "C44", "title": "Concurrent verification requests do not mix up their diagnostics", "statement": "The diagnostics returned for a request are computed from the error-mapping state of that request's own translation, for every interleaving of concurrent requests.", "quantifier": "every number of concurrent requests and every interleaving of their steps", "why_tests_cant": "schedules are unbounded", "anchors": ["src/nagini_translation/service.py: VerificationService._verify_concurrent"]}
{"id": "C45", "title": "A verification result does not depend on previously verified programs", "statement": "Whether obligations are checked for a program depends only on the program and the start-up options, not on which programs the same process verified before.", "quantifier": "every history of verification requests", "why_tests_cant": "histories are unbounded", "anchors": ["src/nagini_translation/service.py: VerificationService._reset_obligations", "src/nagini_translation/main.py: translate, main (server loop)", "src/nagini_translation/lib/config.py: ObligationConfig"]}
{"id": "C46", "title": "Cancellation is precise", "statement": "cancel(token) never stops a job that was not submitted under that token, stops the job most recently submitted under it if that is still running, and finished jobs leave no registration behind.", "quantifier": "every interleaving of submissions, completions and cancellations, with token reuse", "why_tests_cant": "schedules are unbounded", "anchors": ["src/nagini_translation/service.py: VerificationService.cancel, _verify_concurrent"]}
{"id": "C47", "title": "Reconfiguration does not affect verifications already running", "statement": "A verification request uses one consistent configuration (backend and matching backend arguments, sif mode, Silver resources) throughout, whatever reconfigure calls interleave with it.", "quantifier": "every interleaving of requests and reconfigure calls", "why_tests_cant": "schedules are unbounded", "anchors": ["src/nagini_translation/service.py: VerificationService.reconfigure, _verify_concurrent, _can_run_concurrently"]}
{"id": "C48", "title": "The diagnostics shown for a document are those of its newest verification run", "statement": "After all runs of a document have finished, the published diagnostics are those of the run started last.", "quantifier": "every interleaving of saves, cancellations and completions", "why_tests_cant": "schedules are unbounded", "anchors": ["src/nagini_translation/lsp_server.py: NaginiLanguageServer.run_verification"]}
{"id": "C49", "title": "A test passes iff expected and reported errors agree as multisets", "statement": "The annotation check succeeds iff the multiset of reported errors equals the multiset of expected ones (expected minus missing plus unexpected), independently of the iteration order of the internal sets.", "quantifier": "every list of annotations and errors and every iteration order", "why_tests_cant": "set order is not controllable in tests; lists are unbounded", "anchors": ["src/nagini_translation/tests.py: AnnotationManager.check_errors, _get_expected_output"]}
{"id": "C50", "title": "Duplicate errors of a two-execution run are halved, never lost", "statement": "For information-flow runs every distinct error reported n times is kept exactly ceil(n/2) times.", "quantifier": "every list of errors", "why_tests_cant": "unbounded lists", "anchors": ["src/nagini_translation/tests.py: VerificationTest._evaluate_result"]}
{"id": "C51", "title": "Power, bit_length and ~ on integers agree with Python", "statement": "For integer operands accepted by the preconditions, the values the verifier assumes for a ** b (b >= 0), a.bit_length() and ~a are the ones Python computes.", "quantifier": "all integers a, all exponents b >= 0; bit_length: all |a| < 2^64; ~: all bits of all integers", "why_tests_cant": "the domain is unbounded (or 2^65 values); an off-by-one in the nested case tables only shows at power-of-two boundaries", "anchors": ["src/nagini_translation/resources/bool.sil: int___pow__, int_bit_length, __int_bit_length8, __int_bit_length32, __int_bit_length64, int___invert__"]}
{"id": "C52", "title": "True division yields a float", "statement": "The type the verifier assumes for the result of a / b on integers is the type Python gives it (float), for every divisor other than zero.", "quantifier": "all integers a, b with b != 0", "why_tests_cant": "depends on whether the division is exact, for all pairs of integers", "anchors": ["src/nagini_translation/resources/bool.sil: int___truediv__"]}
{"id": "C53", "title": "A from-import statement means the module Python imports", "statement": "For every from-import statement naming a module m, the module whose global statements are executed and whose names are checked is m.", "quantifier": "every list of imported modules with every choice of module and file names", "why_tests_cant": "Name clashes between a module name and the beginning of another module's file name depend on the set of files and the order of the imports; tests contain a few fixed module names.", "anchors": ["src/nagini_translation/translators/statement.py: translate_stmt_ImportFrom"]}
{"id": "C54", "title": "Wait-level constraints of every contract are generated", "statement": "For every program, every wait-level constraint written in the contract of a method that is translated appears in the generated precondition or postcondition, whatever was translated before it.", "quantifier": "every sequence of translated methods with every mix of inlined calls, thread starts and joins in their bodies", "why_tests_cant": "The constraints disappear silently depending on which bodies happen to be translated earlier; a test fixes one program and one order, and a missing constraint only makes verification succeed more often.", "anchors": ["src/nagini_translation/translators/call.py: inline_method", "src/nagini_translation/translators/obligation/waitlevel.py: _translate_waitlevel_method", "src/nagini_translation/translators/obligation/fork.py"]}
{"id": "C55", "title": "Thread arguments are checked against the parameter types of the target", "statement": "For every thread creation, the generated assertion about the arguments holds only if every argument has the type of the parameter it is passed to.", "quantifier": "every number of arguments and every combination of well-typed and ill-typed arguments", "why_tests_cant": "The individual checks are combined with one connective; any test with a single ill-typed argument behaves the same for the right and the wrong connective, and tests with well-typed arguments cannot tell them apart at all.", "anchors": ["src/nagini_translation/translators/call.py: _translate_thread_creation"]}
{"id": "C56", "title": "Binary operators call the method Python calls", "statement": "For every class hierarchy and every placement of an operator method and its reflected variant, the translation of `a op b` calls the method from which Python gets the value, on the same operand.", "quantifier": "every single-inheritance hierarchy, every set of classes defining the two methods with arbitrary parameter types, every pair of operand classes", "why_tests_cant": "The priority rule of reflected methods depends on which classes of an arbitrarily long chain redefine them; a test fixes one small hierarchy.", "anchors": ["src/nagini_translation/translators/expression.py: translate_operator", "src/nagini_translation/lib/program_nodes.py: get_compatible_func_or_method, process"]}
{"id": "C57", "title": "Overriding methods are checked against what they override", "statement": "If all classes are accepted, then for every receiver and every class of which it is an instance, the method or pure function that Python executes for the dynamic class is covered by the contract (for a function: has the value) of the member found for the static class.", "quantifier": "every single-inheritance hierarchy, every set of classes that contain the member, all contracts over arbitrary states", "why_tests_cant": "Behavioural subtyping along chains of arbitrary length relies on transitivity of the generated checks; a test has one small hierarchy and fixed contracts.", "anchors": ["src/nagini_translation/lib/program_nodes.py: PythonMethod.process, PythonClass.get_contents", "src/nagini_translation/translators/program.py: create_override_check, _check_override_validity, translate_program"]}
{"id": "C58", "title": "An error is explained by the conversion rules of the expression that failed", "statement": "If the back-end reports a conjunction or implication, the rules used to explain the error are those of the part that failed.", "quantifier": "every expression tree, every assignment of rules to positions", "why_tests_cant": "trees and combinations of rules are unbounded, and the back-end decides which node is reported", "anchors": ["src/nagini_translation/lib/errors/manager.py: ErrorManager._try_get_rules_workaround"]}
{"id": "C59", "title": "Negated branch conditions are well-formed text", "statement": "The text shown for a branch that was not taken has matching parentheses whenever the condition has.", "quantifier": "every condition text", "why_tests_cant": "unbounded texts; only some shapes are affected", "anchors": ["src/nagini_translation/lib/errors/manager.py: ErrorManager._convert_error"]}
{"id": "C60", "title": "Removing duplicate errors loses no information", "statement": "The errors printed and the diagnostics of the service contain every distinct error exactly once.", "quantifier": "every list of errors", "why_tests_cant": "lists are unbounded; which errors coincide in position and message depends on the back-end", "anchors": ["src/nagini_translation/verifier.py: Failure.to_string", "src/nagini_translation/service.py: _failure_diagnostics"]}
{"id": "C61", "title": "The common supertype is the least one", "statement": "The type inferred for several values (elements of a display, branches of a conditional expression) is a supertype of all of their types and a subtype of every other such type; it does not depend on the order of the values.", "quantifier": "every class hierarchy, every non-empty list of types", "why_tests_cant": "hierarchies, instantiations and lists are unbounded", "anchors": ["src/nagini_translation/lib/resolver.py: common_supertype, pairwise_supertype"]}
{"id": "C62", "title": "The result variable holds the value Python returns", "statement": "At the end of a translated method the result variable has the value of the return statement that Python executed, also when finally blocks, loops or handlers run between the return and the end of the method, and None if the end of the body was reached without a return.", "quantifier": "all bodies built from assignments, returns, raises, break, continue, branches, loops with else clauses, try/except and try/finally, in all states; also when the method is inlined", "why_tests_cant": "Nesting of finally blocks, loops and handlers is unbounded, and the wrong value shows only for a pending return that is overtaken by other code.", "anchors": ["src/nagini_translation/translators/statement.py:_set_result_none", "src/nagini_translation/translators/statement.py:translate_stmt_Return", "src/nagini_translation/translators/method.py:translate_method", "src/nagini_translation/translators/call.py:inline_method"]}
{"id": "C63", "title": "The axioms of algebraic data types are consistent", "statement": "For the ADTs that a program declares there is an interpretation of the generated domain functions, boxing functions and type functions that satisfies all generated axioms and contracts, so that nothing is verified vacuously.", "quantifier": "all sets of ADTs, constructors and fields of int, bool, type, class and ADT types, over all class hierarchies", "why_tests_cant": "A contradiction among quantified axioms makes every program verify; whether the SMT solver finds it depends on triggers, so tests that pass show nothing.", "anchors": ["src/nagini_translation/translators/program.py:create_adts_domains_and_functions", "src/nagini_translation/translators/program.py:_create_adt_axiom_deconstructor_types", "src/nagini_translation/translators/program.py:_create_adt_axiom_deconstructors_over_constructors"]}
{"id": "C64", "title": "Operations on algebraic data types agree with Python", "statement": "Constructor calls, field accesses, ==, is and isinstance on ADTs have in every interpretation of the generated axioms the value that they have in Python, where constructors are named tuples.", "quantifier": "all ADTs, all well-typed expressions over them, all interpretations of the axioms", "why_tests_cant": "The axioms constrain infinitely many terms, and the answer depends on all of them together.", "anchors": ["src/nagini_translation/translators/program.py:_create_adt_equality_axioms", "src/nagini_translation/translators/call.py:translate_adt_cons", "src/nagini_translation/translators/expression.py:translate_adt_decons", "src/nagini_translation/translators/expression.py:_translate_primitive_operation", "src/nagini_translation/translators/call.py:_translate_isinstance"]}
{"id": "C65", "title": "The declarations generated for algebraic data types are well formed", "statement": "The functions generated for an ADT have different names, and all axioms, contracts and translated expressions are well typed.", "quantifier": "all ADTs with distinct constructors and distinct fields per constructor", "why_tests_cant": "The names of constructors and fields come from the user; collisions occur only for particular combinations.", "anchors": ["src/nagini_translation/translators/program.py:_create_adt_func_constructors", "src/nagini_translation/translators/program.py:_create_adt_func_deconstructors", "src/nagini_translation/translators/program.py:_create_adt_func_constructor_types", "src/nagini_translation/lib/program_nodes.py:PythonClass.fresh", "src/nagini_translation/lib/util.py:SingletonFreshName"]}
{"id": "C66", "title": "Joining threads does not duplicate permissions", "statement": "However threads are started, end and are joined, with any amounts of the permission to join, all threads together never hold more than the full permission to any field, predicate, global variable or thread.", "quantifier": "all targets and postconditions, all interleavings of starts, transfers, ends and joins by any number of threads", "why_tests_cant": "Duplication needs several threads that join with parts of the permission; each join alone looks correct.", "anchors": ["src/nagini_translation/translators/call.py:_translate_thread_join", "src/nagini_translation/translators/call.py:_inhale_possible_thread_post", "src/nagini_translation/translators/contract.py:_translate_acc_field", "src/nagini_translation/translators/contract.py:translate_acc_global", "src/nagini_translation/translators/contract.py:translate_may_start", "src/nagini_translation/translators/contract.py:translate_thread_post", "src/nagini_translation/translators/common.py:create_predicate_access"]}
{"id": "C67", "title": "A join assumes what the thread established", "statement": "The facts assumed when a thread is joined are those that its target established: the normal postconditions, with the arguments given at the creation, with the values of Old expressions at the start, and only if the target ended normally.", "quantifier": "all targets, postconditions with Old, quantifiers and implications, all heaps at start and end", "why_tests_cant": "The values of Old expressions are passed from the start to the join by their text; whether that is right depends on the context of every occurrence.", "anchors": ["src/nagini_translation/translators/call.py:_inhale_possible_thread_post", "src/nagini_translation/translators/obligation/fork.py:_remember_old_expressions", "src/nagini_translation/translators/contract.py:translate_old", "src/nagini_translation/lib/util.py:OldExpressionCollector", "src/nagini_translation/lib/util.py:OldExpressionTransformer"]}
{"id": "C68", "title": "IO operations declared to terminate do terminate", "statement": "If all termination checks of IO operations verify, then an operation whose Terminates condition holds for its arguments is expanded into finitely deep sub-operations, all of which are declared to terminate and none of which is gap_io.", "quantifier": "all programs of IO operations with existentials, quantifiers and conditions, all interpretations, all arguments", "why_tests_cant": "The expansion can be arbitrarily deep and the checks only compare an operation with its immediate sub-operations; whether they cover all instances depends on how existential and quantified variables are resolved.", "anchors": ["src/nagini_translation/translators/io_operation/termination_check.py:TerminationCheckGenerator", "src/nagini_translation/translators/io_operation/definition.py:_translate_defining_getters", "src/nagini_translation/translators/io_operation/termination_check.py:_create_termination_checks", "src/nagini_translation/lib/io_checkers.py:IOOperationBodyChecker", "src/nagini_translation/lib/program_nodes.py:PythonIOOperation.get_variable", "src/nagini_translation/lib/guard_collectors.py"]}
{"id": "C69", "title": "Opening an IO operation yields exactly its body", "statement": "The assertion inhaled by Open(op(args)) holds exactly if the body of the operation holds for the values of the arguments, with the existentials being the results of the operations that define them; it does not depend on the order in which opened variables are replaced.", "quantifier": "all bodies with nested existentials, quantifiers and conditions, all argument expressions, all states and resources", "why_tests_cant": "Definitions are replaced one after the other in terms that mention each other; errors only show for chains of definitions and particular orders.", "anchors": ["src/nagini_translation/translators/io_operation/opener.py:Opener", "src/nagini_translation/translators/io_operation/result_translator.py", "src/nagini_translation/translators/io_operation/use.py:translate_io_operation_call", "src/nagini_translation/lib/io_context.py:IOOpenContext"]}
{"id": "C70", "title": "The control flow graph of a method simulates Python's execution", "statement": "For every execution of a method body in Python - normal end, return, exception, failed check, through loops, try and with statements and any nesting of these - the generated method, started with arbitrary values of its auxiliary variables, ends in the same way: with a failed check, or with the same store, the same returned value and the same exception.", "quantifier": "all bodies, all stores, all executions of any length, all initial values of the error and finally variables", "why_tests_cant": "The code for except clauses, else and finally suites is put at the end of the method and entered by jumps that depend on where statements are nested and on values of auxiliary variables; the number of combinations of nesting, jumps and loop iterations is unbounded.", "anchors": ["src/nagini_translation/translators/statement.py:translate_stmt_Try", "src/nagini_translation/translators/statement.py:translate_stmt_With", "src/nagini_translation/translators/statement.py:translate_stmt_While", "src/nagini_translation/translators/statement.py:translate_stmt_Return", "src/nagini_translation/translators/statement.py:translate_stmt_Break", "src/nagini_translation/translators/expression.py:create_exception_catchers", "src/nagini_translation/translators/method.py:translate_finally", "src/nagini_translation/translators/method.py:translate_handler", "src/nagini_translation/translators/method.py:_translate_try_handlers", "src/nagini_translation/lib/util.py:get_surrounding_try_blocks"]}
{"id": "C71", "title": "Jumps of generated methods have exactly one target", "statement": "In the code generated for any method body every label is declared once, every jump goes to a declared label, and no execution ends anywhere but with a failed check or at the end of the method.", "quantifier": "all bodies, all executions", "why_tests_cant": "Labels of blocks, handlers, loops and the end of the method are generated in different places from the names that the analyzer chose; a missing or duplicate label depends on the combination of nested constructs.", "anchors": ["src/nagini_translation/analyzer.py:visit_Try", "src/nagini_translation/analyzer.py:visit_With", "src/nagini_translation/translators/method.py:_translate_try_handlers", "src/nagini_translation/translators/method.py:translate_finally", "src/nagini_translation/translators/statement.py:translate_stmt_While", "src/nagini_translation/translators/expression.py:create_exception_catchers"]}
{"id": "C72", "title": "Verified methods do not leak obligations", "statement": "In every execution of a method of a program all of whose methods verify, the thread holds at the end - normal or exceptional - exactly the locks that the postcondition mentions and the locks the method does not know of; the method releases only locks it holds and never the locks its caller kept; every call it makes starts as the callee's contract demands; break and continue never leave a method.", "quantifier": "all programs whose encoding verifies, all contracts with guarded MustRelease and MustTerminate with or without measures, all executions of any length through loops, jumps, exceptions and nested or recursive calls", "why_tests_cant": "Whether a lock is released depends on executions of unbounded length; the checks are spread over inhale-exhale assertions, bounding statements and leak checks of methods, calls and loops, and a missing check accepts more programs without failing any test that verifies.", "anchors": ["src/nagini_translation/translators/obligation/inexhale.py:ObligationInhaleExhale", "src/nagini_translation/translators/obligation/inexhale.py:InexhaleObligationInstanceMixin", "src/nagini_translation/translators/obligation/method_node.py:ObligationMethodNodeConstructor", "src/nagini_translation/translators/obligation/loop_node.py:ObligationLoopNodeConstructor", "src/nagini_translation/translators/obligation/method_call_node.py:ObligationMethodCallNodeConstructor", "src/nagini_translation/translators/obligation/manager.py:create_leak_check", "src/nagini_translation/translators/obligation/types/must_release.py:MustReleaseObligationInstance", "src/nagini_translation/translators/obligation/utils.py:bound_obligations", "src/nagini_contracts/lock.py:Lock"]}
{"id": "C73", "title": "Every obligation to release a lock is eventually discharged", "statement": "In every infinite execution of a verified method, each lock the thread holds at any time (other than locks the method does not know of) is released later, also if the method never ends, the obligation is passed through recursive calls and loop iterations, or it waits in callers while callees run.", "quantifier": "all verified programs, all infinite executions, all locks, all times", "why_tests_cant": "The claim is about infinite executions (finite blocking); it needs the measures of MustRelease to decrease along any chain of calls and iterations and all others that run meanwhile to terminate.", "anchors": ["src/nagini_translation/translators/obligation/inexhale.py:construct_use_method_bounded", "src/nagini_translation/translators/obligation/inexhale.py:construct_use_loop", "src/nagini_translation/translators/obligation/inexhale.py:construct_obligation_bound", "src/nagini_translation/translators/obligation/measures.py:MeasureMap", "src/nagini_translation/translators/obligation/method_node.py:_add_caller_leak_check", "src/nagini_translation/translators/obligation/loop_node.py:_add_leak_check", "src/nagini_translation/translators/obligation/loop_node.py:_check_loop_preserves_termination", "src/nagini_contracts/lock.py:Lock"]}
{"id": "C74", "title": "Promised termination holds for whole executions", "statement": "If the precondition of a method of a verified program promises termination, every execution of the method is finite; in executions that do not end, every call of such a method returns and every loop whose invariant promises termination is left - including loops, exceptions and calls nested in them to any depth.", "quantifier": "all verified programs, all states, all executions", "why_tests_cant": "Termination is a property of executions of unbounded length; measures, permissions to MustTerminate and their reset after loops interact across methods.", "anchors": ["src/nagini_translation/translators/obligation/types/must_terminate.py:MustTerminateObligationInstance", "src/nagini_translation/translators/obligation/method_node.py:_add_caller_leak_check", "src/nagini_translation/translators/obligation/loop_node.py:ObligationLoopNodeConstructor", "src/nagini_translation/translators/obligation/node_constructor.py:_reset_must_terminate", "src/nagini_translation/translators/obligation/obligation_info.py:create_termination_check", "src/nagini_translation/translators/obligation/measures.py:MeasureMap", "src/nagini_contracts/lock.py:Lock"]}
{"id": "C75", "title": "A verified program never fails, whatever the classes of its objects", "statement": "If all checks generated for the classes of a program verify (method bodies for exactly their own class, inherited methods again for every subclass, overriding methods against the overridden contract) and the main code verifies, then no execution fails an assertion or violates a precondition, and every dynamically bound call behaves according to the contract known for the static class of its receiver.", "quantifier": "all class hierarchies, all methods, contracts and bodies with loops, dynamically and statically bound calls, super calls, constructors and property setters, all executions of any length", "why_tests_cant": "Soundness of modular verification under subclassing concerns all programs and all dynamic types; a check that is not generated makes a program verify instead of fail, which no test of accepted or rejected examples shows.", "anchors": ["src/nagini_translation/translators/program.py:create_inherit_check", "src/nagini_translation/translators/program.py:create_override_check", "src/nagini_translation/translators/program.py:translate_program", "src/nagini_translation/translators/method.py:translate_method", "src/nagini_translation/translators/call.py:translate_normal_call", "src/nagini_translation/translators/call.py:_inline_call", "src/nagini_translation/translators/call.py:translate_constructor_call", "src/nagini_translation/lib/resolver.py:get_target", "src/nagini_translation/lib/program_nodes.py:get_method", "src/nagini_translation/lib/program_nodes.py:overrides"]}
{"id": "C76", "title": "A verified method never reads an unassigned local variable", "statement": "If the Viper method generated for a Python method verifies, then no execution that starts in a state with the precondition reads a local variable before it was assigned (or after an except clause unbound it).", "quantifier": "all bodies with branches, loops, exceptions and handlers, calls of pure functions and inlined calls, all executions, all names", "why_tests_cant": "Whether a variable is assigned depends on the path taken; a check that is missing on some path, or assumed by an unrelated piece of code, makes programs verify instead of fail.", "anchors": ["src/nagini_translation/translators/expression.py:wrap_definedness_check", "src/nagini_translation/translators/common.py:set_var_defined", "src/nagini_translation/translators/common.py:is_local_variable", "src/nagini_translation/translators/program.py:create_definedness_functions", "src/nagini_translation/translators/method.py:translate_handler", "src/nagini_translation/translators/pure.py:_wrap_with_assuming", "src/nagini_translation/translators/call.py:inline_method"]}
{"id": "C77", "title": "Variables assigned on all paths pass the definedness checks", "statement": "Code in which every variable is assigned before it is read on all paths through its text is never rejected because of the checks that variables are defined.", "quantifier": "all bodies with branches, loops, exceptions and handlers, calls of pure functions and inlined calls; all other obligations", "why_tests_cant": "Acceptance of all programs with definite assignment is a statement about all control flow, and also about which facts survive loops and handlers.", "anchors": ["src/nagini_translation/translators/expression.py:wrap_definedness_check", "src/nagini_translation/translators/common.py:set_var_defined", "src/nagini_translation/translators/common.py:is_local_variable", "src/nagini_translation/translators/program.py:create_definedness_functions", "src/nagini_translation/translators/method.py:translate_handler", "src/nagini_translation/translators/pure.py:_wrap_with_assuming", "src/nagini_translation/translators/call.py:inline_method"]}
{"id": "C78", "title": "A predicate of a class stands for the definitions of the receiver's class and its superclasses", "statement": "For a receiver whose class is D, the body of the Silver predicate that an access names is equivalent to the separating conjunction of the bodies of the predicate in D and all its superclasses, with arguments bound by position.", "quantifier": "all class hierarchies, definitions in any subset of the classes, all parameter names, arguments and resources, every order in which members are sorted", "why_tests_cant": "The grouping of predicates into families and the meaning of the combined body depend on the whole class hierarchy; a definition that is silently left out of its family does not show as an error.", "anchors": ["src/nagini_translation/translators/predicate.py:translate_predicate_family", "src/nagini_translation/translators/program.py:predicate_families", "src/nagini_translation/translators/call.py:family_root", "src/nagini_translation/translators/contract.py:translate_acc_predicate", "src/nagini_translation/lib/program_nodes.py:get_predicate", "src/nagini_translation/lib/program_nodes.py:overrides"]}
{"id": "C79", "title": "Which Silver predicate is meant does not depend on the static class", "statement": "Accesses to the predicate of one object through different static classes, and with or without Acc, name the same Silver predicate, and it exists whenever some superclass defines the predicate.", "quantifier": "all class hierarchies and all pairs of a class and one of its superclasses", "why_tests_cant": "Concerns every pair of classes in every hierarchy.", "anchors": ["src/nagini_translation/translators/predicate.py:translate_predicate_family", "src/nagini_translation/translators/program.py:predicate_families", "src/nagini_translation/translators/call.py:family_root", "src/nagini_translation/translators/contract.py:translate_acc_predicate", "src/nagini_translation/lib/program_nodes.py:get_predicate", "src/nagini_translation/lib/program_nodes.py:overrides"]}
{"id": "C80", "title": "Adding classes does not change the meaning of predicates", "statement": "If classes are added to a program that are not superclasses of the old ones, then accesses with the old classes name the same Silver predicate, and its body has the same meaning for receivers of the old classes.", "quantifier": "all programs and all extensions, including further definitions of the same predicate", "why_tests_cant": "Modularity is a statement about programs that do not exist yet.", "anchors": ["src/nagini_translation/translators/predicate.py:translate_predicate_family", "src/nagini_translation/translators/program.py:predicate_families", "src/nagini_translation/translators/call.py:family_root", "src/nagini_translation/translators/contract.py:translate_acc_predicate", "src/nagini_translation/lib/program_nodes.py:get_predicate", "src/nagini_translation/lib/program_nodes.py:overrides"]}
{"id": "C81", "title": "Counterexamples give different objects different names", "statement": "While a counterexample is converted, every reference gets a name, keeps it, and references with different values get different names (except None).", "quantifier": "all models, all class tables, all sequences of references and declared types", "why_tests_cant": "Names clash only for particular combinations of unknown types and declared types, or of class names; whether they can clash at all is a statement about all models.", "anchors": ["src/nagini_translation/models/converter.py:get_reference_name", "src/nagini_translation/models/converter.py:get_type_name", "src/nagini_translation/models/converter.py:ref_get_actual_type"]}
{"id": "C82", "title": "Terms are evaluated to what the model says", "statement": "The textual evaluation of a Silicon term (variables, function applications, snapshots and their components, sort wrappers, string literals) yields the text of the value that the term denotes in the solver's model, or reports that there is none.", "quantifier": "all models whose symbols are printed without parentheses and spaces, all terms, all nesting depths", "why_tests_cant": "Values are split and compared as texts; that this agrees with the meaning of nested s-expressions holds or fails for infinitely many texts.", "anchors": ["src/nagini_translation/models/converter.py:evaluate_term", "src/nagini_translation/models/converter.py:get_parts", "src/nagini_translation/models/converter.py:get_func_value", "src/nagini_translation/models/extractor.py:extract_model_entries"]}
{"id": "C83", "title": "Counterexamples show the integers and booleans of the model", "statement": "A reference that the model says is an integer (boolean) is shown with its value; numerals, also negative ones, are read as written.", "quantifier": "all models, references, types and integers", "why_tests_cant": "Depends on what the solver leaves unspecified, which no test controls.", "anchors": ["src/nagini_translation/models/converter.py:convert_int_value", "src/nagini_translation/models/converter.py:convert_bool_value", "src/nagini_translation/models/converter.py:parse_int", "src/nagini_translation/models/converter.py:parse_bool"]}
{"id": "C84", "title": "Counterexamples show objects with their classes", "statement": "An object is shown with its most precise class, and only with a class that its type is a subtype of according to the model.", "quantifier": "all models and all class hierarchies", "why_tests_cant": "The search through subclasses depends on the whole hierarchy and on partial models.", "anchors": ["src/nagini_translation/models/converter.py:get_precise_type", "src/nagini_translation/models/converter.py:get_basic_type", "src/nagini_translation/models/converter.py:is_type"]}
{"id": "C85", "title": "Information flow mode keeps the control flow", "statement": "In the information flow modes, the extended-AST code generated for a method body ends as Python does: same outcome (normal, return, break, continue, exception), same state, the result variable holding the returned value and the error variable the raised exception.", "quantifier": "all statements built from assignments, raising calls, raise, return, loops with else, break, continue, try/except/else/finally and with; all states", "why_tests_cant": "Nesting of jumps, handlers and finally blocks gives infinitely many paths; the single error variable goes wrong only for particular nestings.", "anchors": ["src/nagini_translation/sif/translators/statement.py:translate_stmt_Try", "src/nagini_translation/sif/translators/statement.py:_create_try_handlers", "src/nagini_translation/sif/translators/statement.py:translate_stmt_Raise", "src/nagini_translation/sif/translators/expression.py:create_exception_catchers", "src/nagini_translation/translators/statement.py:_set_result_none"]}
{"id": "C86", "title": "Information flow mode: for loops visit every element once", "statement": "In the information flow modes a for loop executes its body once for every element, in order, also if the body uses continue, and then its else part.", "quantifier": "all iterables, bodies and states", "why_tests_cant": "A statement about loops of any length; the verifier never runs them.", "anchors": ["src/nagini_translation/translators/statement.py:translate_stmt_For", "src/nagini_translation/sif/translators/statement.py:translate_stmt_Continue", "src/nagini_translation/sif/lib/viper_ast_extended.py:Label"]}
{"id": "C87", "title": "Information flow mode: with statements follow PEP 343", "statement": "A with statement enters, runs its body and calls __exit__ exactly once, with the exception if there is one, which is raised again iff the result is false; returns, breaks and continues also call __exit__.", "quantifier": "all bodies, context managers, exceptions and states", "why_tests_cant": "Requires all ways of leaving an arbitrary body.", "anchors": ["src/nagini_translation/sif/translators/statement.py:translate_stmt_With", "src/nagini_translation/sif/translators/statement.py:_create_With_exception_handler", "src/nagini_translation/sif/translators/statement.py:translate_With_finally_block"]}
{"id": "C88", "title": "Contracts of builtin values are consistent", "statement": "The contracts of the builtin functions on ints, bools, strings, bytes, bytearrays, ranges, PSeq, PSet, PMultiset and PByteSeq do not contradict each other for any argument their preconditions admit, so that no program verifies because the background theory is false.", "quantifier": "all interpretations of the contracts, all arguments", "why_tests_cant": "A contradiction among trusted axioms never makes a test fail; it makes proofs succeed.", "anchors": ["src/nagini_translation/resources/byteseq.sil:PByteSeq_update", "src/nagini_translation/resources/bool.sil:__seq_ref_to_seq_int", "src/nagini_translation/resources/bytearray.sil:bytearray___initFromInt__", "src/nagini_translation/resources/str.sil:str___create__", "src/nagini_translation/resources/bytes.sil:bytes___create__", "src/nagini_translation/resources/seq.sil:PSeq___create__", "src/nagini_translation/resources/pset.sil:PSet___create__"]}
{"id": "C89", "title": "Equality of builtin values is Python's", "statement": "Under every interpretation of the contracts, the function called for v == w on None, ints, bools, strings and bytes returns what Python's == returns, also for values of different types.", "quantifier": "all interpretations of the contracts, all pairs of values", "why_tests_cant": "Quantifies over all models of uninterpreted functions and over infinite domains.", "anchors": ["src/nagini_translation/resources/bool.sil:object___eq__", "src/nagini_translation/resources/bool.sil:int___eq__", "src/nagini_translation/resources/bool.sil:bool___eq__", "src/nagini_translation/resources/str.sil:str___eq__", "src/nagini_translation/resources/bytes.sil:bytes___eq__", "src/nagini_translation/translators/expression.py:translate_string", "src/nagini_translation/translators/expression.py:translate_Bytes"]}
{"id": "C90", "title": "Pure collections are mathematical collections", "statement": "Every expression built from PSeq, PByteSeq, PSet and PMultiset operations has the length, elements, multiplicities and equality of the list, set or multiset it denotes.", "quantifier": "all interpretations of the contracts, all expressions", "why_tests_cant": "Requires induction on expressions under every interpretation of the abstract functions.", "anchors": ["src/nagini_translation/resources/seq.sil:PSeq___create__", "src/nagini_translation/resources/seq.sil:PSeq___eq__", "src/nagini_translation/resources/byteseq.sil:PByteSeq___create__", "src/nagini_translation/resources/pset.sil:PSet___create__", "src/nagini_translation/resources/pset.sil:PMultiset___create__"]}
{"id": "C91", "title": "Exceptional postconditions mean what the contract says", "statement": "A method verifies exactly if each execution ends with an outcome its contract allows: a normal return satisfies every Ensures, an exception is an instance of a declared class and satisfies the assertions of all Exsures for classes it is an instance of, and a method without Exsures raises nothing. Callers consider exactly these outcomes.", "quantifier": "all contracts, class hierarchies, method bodies and states", "why_tests_cant": "The equivalence quantifies over all contracts and all behaviours; tests show single error messages.", "anchors": ["src/nagini_translation/translators/method.py:_translate_posts", "src/nagini_translation/translators/method.py:_translate_exceptional_posts", "src/nagini_translation/translators/method.py:_create_single_result_post", "src/nagini_translation/translators/expression.py:create_exception_catchers", "src/nagini_translation/translators/call.py:_only_translate_method_call", "src/nagini_translation/analyzer.py:visit_Call"]}
{"id": "C92", "title": "Overriding methods raise only what the overridden method allows", "statement": "An overriding method is accepted exactly if it may be called wherever the overridden method may, every outcome it allows (normal or exceptional) is allowed by the overridden contract, and its declared exceptions are subclasses of declared exceptions of the overridden method.", "quantifier": "all pairs of contracts, class hierarchies and states", "why_tests_cant": "Soundness and completeness of a check over all pairs of contracts.", "anchors": ["src/nagini_translation/translators/program.py:create_override_check", "src/nagini_translation/translators/program.py:_create_override_check_body_impure", "src/nagini_translation/translators/program.py:_check_override_validity"]}
{"id": "C93", "title": "Permission amounts have the value that is written", "statement": "Every accepted permission amount, built from literals, variables, fields and calls with +, -, * and /, is translated to a well-typed Viper permission expression whose value is the rational number Python's exact arithmetic gives, and is undefined only where a divisor is zero.", "quantifier": "all amounts and all states", "why_tests_cant": "Amounts are an infinite grammar with typed, overloaded operators; the value must agree in all states.", "anchors": ["src/nagini_translation/translators/permission.py:translate_perm_BinOp", "src/nagini_translation/translators/permission.py:translate_perm_or_int", "src/nagini_translation/translators/permission.py:translate_perm_Num", "src/nagini_translation/translators/permission.py:translate_perm_Name"]}
{"id": "C94", "title": "Membership, sets and dictionaries behave as in Python", "statement": "`in` and `not in` on lists, tuples and ranges, and membership, length, truth value, lookup and iteration of sets and dictionaries after any sequence of operations, have the value they have in Python, and a failing lookup or removal is a failing precondition.", "quantifier": "all element values, all sequences of operations", "why_tests_cant": "Agreement depends on the equality of arbitrary element types and on unbounded histories of operations.", "anchors": ["src/nagini_translation/resources/set_dict.sil:set_add", "src/nagini_translation/resources/set_dict.sil:dict___setitem__", "src/nagini_translation/resources/list.sil:list___contains__", "src/nagini_translation/resources/range.sil:range___contains__", "src/nagini_translation/translators/expression.py:_translate_contains"]}
{"id": "C95", "title": "sum, sorted, max, min and abs have Python's result", "statement": "The contracts of `sum`, `sorted`, `abs`, `max` and `min` for lists of integers and for numbers allow exactly Python's results: the sum of the elements, the sorted lists with the same elements, the absolute value, the greatest and the least number.", "quantifier": "all lists of integers and booleans, all interpretations of the helper functions", "why_tests_cant": "The helper functions are only axiomatised; the axioms have to determine the results for lists of every length.", "anchors": ["src/nagini_translation/resources/bool.sil:max", "src/nagini_translation/resources/bool.sil:min", "src/nagini_translation/resources/bool.sil:abs", "src/nagini_translation/resources/bool.sil:sorted", "src/nagini_translation/resources/bool.sil:sum", "src/nagini_translation/resources/bool.sil:__seq_ref_to_seq_int", "src/nagini_translation/resources/bool.sil:__SumHelper"]}
{"id": "C96", "title": "Quantifiers in contracts mean what they say", "statement": "The translation of an assertion with `Forall`, `Forall2` to `Forall6`, `Exists`, `Let` and `Old`, nested in any way and with parameters that shadow each other, is true exactly if the assertion holds for the elements of the domains, and leaves the meaning of all names in the context unchanged.", "quantifier": "all nested assertions, all heaps and environments", "why_tests_cant": "Nesting, shadowing and domains in other heaps are unbounded, and truth quantifies over all values.", "anchors": ["src/nagini_translation/translators/contract.py:translate_forall", "src/nagini_translation/translators/contract.py:translate_exists", "src/nagini_translation/translators/contract.py:translate_let", "src/nagini_translation/translators/contract.py:_create_quantifier_contains_expr", "src/nagini_translation/translators/common.py:get_quantifier_lhs", "src/nagini_translation/lib/context.py:set_alias", "src/nagini_translation/lib/context.py:remove_alias"]}
{"id": "C97", "title": "Augmented assignments have Python's effect", "statement": "`t op= e` for a variable, field or item has the effect it has in Python: the receiver, index and old value are those before `e` is evaluated, objects that can be changed in place are changed in place and stay shared, and the result is stored at the place of the old value.", "quantifier": "all targets, right-hand sides with arbitrary effects, classes and heaps", "why_tests_cant": "The effect depends on aliasing and on what arbitrary calls in the right-hand side change.", "anchors": ["src/nagini_translation/translators/statement.py:translate_stmt_AugAssign", "src/nagini_translation/translators/statement.py:_assign_single_value", "src/nagini_translation/translators/statement.py:_assign_with_subscript", "src/nagini_translation/translators/expression.py:translate_operator", "src/nagini_translation/resources/list.sil:list___add__"]}
{"id": "C98", "title": "Final global variables have one value", "statement": "If the generated main method is verified, executing the module does not end with a NameError or a failing assertion: a variable that is treated as final (a constant function) has the value of its assignment whenever it is read, and the equations of the functions have a solution.", "quantifier": "all modules with assignments, conditionals, loops and assertions, all executions", "why_tests_cant": "Whether assumed equations are contradictory shows in no output: everything is then verified.", "anchors": ["src/nagini_translation/lib/program_nodes.py:PythonGlobalVar.is_final", "src/nagini_translation/translators/program.py:create_global_var_function", "src/nagini_translation/translators/statement.py:_assign_single_value", "src/nagini_translation/translators/expression.py:translate_global_var_reference", "src/nagini_translation/translators/method.py:translate_main_method", "src/nagini_translation/analyzer.py:visit_Name"]}
{"id": "C99", "title": "Class attributes have the values Python finds", "statement": "Reading a class attribute through a class or an object gives the value Python's lookup gives (own attributes of the object first, then the classes in order), this value is known to the verifier, and the receiver is evaluated.", "quantifier": "all class hierarchies with single inheritance, all objects and static types", "why_tests_cant": "The lookup depends on arbitrary hierarchies, and contradictory postconditions make everything verifiable.", "anchors": ["src/nagini_translation/translators/program.py:create_static_field_function", "src/nagini_translation/translators/expression.py:translate_static_field_access", "src/nagini_translation/translators/expression.py:_lookup_field", "src/nagini_translation/translators/expression.py:translate_Attribute", "src/nagini_translation/lib/program_nodes.py:add_field", "src/nagini_translation/lib/program_nodes.py:get_static_field", "src/nagini_translation/lib/program_nodes.py:PythonGlobalVar.process"]}
{"id": "C100", "title": "Mutable class attributes have different locations", "statement": "Class attributes that are written to have different locations, so that the permissions for them that the main method obtains are not contradictory.", "quantifier": "all class hierarchies and sets of written attributes", "why_tests_cant": "A contradiction in the permissions makes everything after it verifiable, which no test output shows.", "anchors": ["src/nagini_translation/translators/statement.py:translate_stmt_ClassDef", "src/nagini_translation/translators/program.py:create_static_field_function", "src/nagini_translation/translators/expression.py:translate_static_field_access"]}
{"id": "C101", "title": "Conditions have Python's truth values", "statement": "The truth value the translation gives to an expression used as a condition can be, under the contracts of the __bool__ functions, the one Python gives to the object it evaluates to.", "quantifier": "all class hierarchies, all objects, all static types (classes, optional types, unions), all interpretations of the contracts", "why_tests_cant": "The functions are uninterpreted, and the dynamic class of an object is not bounded by the program text.", "anchors": ["src/nagini_translation/translators/common.py:to_bool", "src/nagini_translation/translators/common.py:get_function_call", "src/nagini_translation/lib/program_nodes.py:get_function", "src/nagini_translation/lib/program_nodes.py:UnionType.cls", "src/nagini_translation/lib/program_nodes.py:chain_cond_exp", "src/nagini_translation/translators/program.py:translate_program", "src/nagini_translation/resources/bool.sil:object___bool__", "src/nagini_translation/resources/builtins.json:tuple"]}
{"id": "C102", "title": "Conversions between Viper types keep values", "statement": "Converting a translated expression to a reference, an integer or a boolean gives a value equal to the original object; converting back gives the same object; expressions with permissions are left alone.", "quantifier": "all expressions, all values of their variables", "why_tests_cant": "Conversions are composed in arbitrary nestings by all translators.", "anchors": ["src/nagini_translation/translators/common.py:to_ref", "src/nagini_translation/translators/common.py:to_int", "src/nagini_translation/translators/common.py:to_bool", "src/nagini_translation/translators/common.py:unwrap", "src/nagini_translation/translators/common.py:_is_pure"]}
{"id": "C103", "title": "Enumerations have exactly their members", "statement": "The functions generated for IntEnum classes are consistent; members are identical exactly if they belong to the same enumeration and have the same value; comparisons compare values; C(v) is verified exactly for the values of members and is the member with that value; every object of the enumeration is one of its members.", "quantifier": "all programs with any number of enumerations in any modules, all interpretations of the generated functions", "why_tests_cant": "Contradictory postconditions make everything verifiable, and the claim quantifies over all interpretations.", "anchors": ["src/nagini_translation/translators/program.py:_create_enum_func_box_and_unbox", "src/nagini_translation/translators/program.py:create_static_field_function", "src/nagini_translation/translators/call.py:translate_enum_cons", "src/nagini_translation/translators/common.py:to_int", "src/nagini_translation/translators/expression.py:_translate_comparison", "src/nagini_translation/analyzer.py:visit_ClassDef"]}
{"id": "C104", "title": "Inlined calls do what calls do", "statement": "For every accepted method, the Viper method generated with all inlined calls (functions marked Inline, calls bound statically, super calls) makes the same assignments to fields and the same assertions, and returns or raises the same, as Python's call of the method, in which every call has its own variables and Old refers to the beginning of the call.", "quantifier": "all programs, all nestings of inlined calls, try blocks and returns, all arguments and heaps", "why_tests_cant": "Programs and the nesting of inlined calls are unbounded, and tests only show verification results.", "anchors": ["src/nagini_translation/translators/call.py:_inline_call", "src/nagini_translation/translators/call.py:inline_method", "src/nagini_translation/translators/common.py:add_handlers_for_inlines", "src/nagini_translation/translators/method.py:translate_handler", "src/nagini_translation/translators/method.py:translate_finally", "src/nagini_translation/translators/statement.py:translate_stmt_Try", "src/nagini_translation/translators/statement.py:translate_stmt_Return"]}
{"id": "C105", "title": "Accesses to attributes denote what they denote in Python", "statement": "For every accepted class, every access o.n in the code of any class that is translated to a getter uses the same property in Python; every access translated to a Viper field uses no property, and its field is created with the object exactly once; two accesses to one object denote the same Viper field exactly if Python's (mangled) names of the attribute are equal.", "quantifier": "all class hierarchies, all sets of attributes and properties, all names, all receiver types and enclosing classes", "why_tests_cant": "Class hierarchies and names are unbounded; tests compare verification results for a few classes only.", "anchors": ["src/nagini_translation/lib/program_nodes.py:get_field", "src/nagini_translation/lib/program_nodes.py:all_fields", "src/nagini_translation/lib/program_nodes.py:actual_field", "src/nagini_translation/lib/program_nodes.py:is_mangled", "src/nagini_translation/translators/expression.py:_lookup_field", "src/nagini_translation/translators/program.py:translate_class"]}
{"id": "C106", "title": "Verified accesses to attributes succeed", "statement": "In every execution, if an object's field may be read according to Viper, then the attribute exists in Python and has the value the Viper heap has; del statements that are verified delete an attribute that exists; permissions to an attribute and to its creation are never duplicated.", "quantifier": "all programs, all executions with any number of threads that exchange permissions, all objects and classes", "why_tests_cant": "Executions and the ways permissions are split and transferred are unbounded.", "anchors": ["src/nagini_translation/translators/statement.py:create_new_field_permission", "src/nagini_translation/translators/statement.py:translate_stmt_Delete", "src/nagini_translation/translators/common.py:get_may_set_predicate", "src/nagini_translation/translators/contract.py:translate_may_create", "src/nagini_translation/lib/program_nodes.py:all_fields"]}
{"id": "C107", "title": "Calls on unions follow the contract of the smallest matching option", "statement": "For every call x.f(..) on a receiver whose static type is a union, and every class the receiver may have, the generated code evaluates the arguments once and then has exactly the effects and results that the contract of f in the smallest option of the union containing the receiver admits.", "quantifier": "all unions, all class hierarchies with single inheritance, all combinations of pure, impure and static methods, all argument statements, heaps and contracts", "why_tests_cant": "Unions, hierarchies and combinations of methods are unbounded; tests of verification results cover a few.", "anchors": ["src/nagini_translation/translators/call.py:translate_call_in_union", "src/nagini_translation/translators/call.py:translate_normal_call", "src/nagini_translation/translators/call.py:_translate_method_call", "src/nagini_translation/translators/call.py:_translate_function_call", "src/nagini_translation/translators/common.py:get_method_call", "src/nagini_translation/lib/program_nodes.py:chain_if_stmts", "src/nagini_translation/lib/program_nodes.py:chain_cond_exp"]}
{"id": "C108", "title": "Arguments of calls on unions are bound as in Python", "statement": "If the call generated for a call on a receiver of union type is well-formed, every parameter of the method gets the value Python gives it.", "quantifier": "all signatures, all positional and keyword arguments", "why_tests_cant": "Signatures and calls are unbounded.", "anchors": ["src/nagini_translation/translators/call.py:translate_args", "src/nagini_translation/translators/call.py:_translate_call_args", "src/nagini_translation/translators/call.py:translate_normal_call"]}
{"id": "C109", "title": "Constructors of data classes set the fields Python sets", "statement": "If Python can create a data class with generated __init__ and accepts a constructor call, then every value of an attribute of the new object that the verifier assumes after the call is the value the attribute has in Python.", "quantifier": "all class bodies (annotated fields, class variables, plain assignments, properties, attribute accesses), all chains of superclasses, frozen or not, all positional and keyword arguments and defaults", "why_tests_cant": "Class bodies, hierarchies and calls are unbounded; the tests contain a few data classes without inheritance.", "anchors": ["src/nagini_translation/analyzer.py:_add_dataclass_init_method", "src/nagini_translation/analyzer.py:visit_Name", "src/nagini_translation/analyzer.py:visit_Attribute", "src/nagini_translation/analyzer.py:visit_FunctionDef", "src/nagini_translation/analyzer.py:visit_arguments", "src/nagini_translation/lib/program_nodes.py:PythonClass.add_field", "src/nagini_translation/translators/call.py:translate_args"]}
{"id": "C110", "title": "Constructor calls run the __post_init__ method Python runs", "statement": "A constructor call is followed by a call of __post_init__ exactly if Python's __init__ method makes that call, and the called definitions are the same.", "quantifier": "all chains of classes, decorated as data classes or not, with or without __init__ and __post_init__", "why_tests_cant": "Class hierarchies are unbounded.", "anchors": ["src/nagini_translation/translators/call.py:translate_constructor_call", "src/nagini_translation/translators/call.py:_translate_init_call", "src/nagini_translation/analyzer.py:visit_ClassDef", "src/nagini_translation/analyzer.py:_add_dataclass_init_method"]}
{"id": "C111", "title": "Assignment statements store the values Python stores, in Python's order", "statement": "After the translation of a list of assignments (with any number of targets: names, attributes, properties, subscripts), expression statements and conditionals, variables and heap are as after Python's execution: the right-hand side is evaluated once, then each target's parts and the store.", "quantifier": "all expressions, targets, statement lists, states and all meanings of calls, setters and __setitem__", "why_tests_cant": "Statements and the interleaving of calls and stores are unbounded; tests verify single programs and never compare the order of evaluation.", "anchors": ["src/nagini_translation/translators/statement.py:_assign_single_value", "src/nagini_translation/translators/statement.py:_assign_with_subscript", "src/nagini_translation/translators/statement.py:translate_stmt_Assign", "src/nagini_translation/translators/statement.py:translate_stmt_AnnAssign", "src/nagini_translation/translators/statement.py:translate_stmt_If", "src/nagini_translation/translators/statement.py:translate_stmt_Expr"]}
{"id": "C112", "title": "Objects created by class methods are initialised as assumed", "statement": "In an accepted program, whatever class a class method is called on, what Python runs to create an object for `cls(...)` may be run wherever the contract used for that call holds, and has only the effects that contract states.", "quantifier": "all class hierarchies, all placements and contracts of __init__, __post_init__ and class methods, all states", "why_tests_cant": "A class method runs for every present and future subclass; a test covers single hierarchies.", "anchors": ["src/nagini_translation/translators/call.py:_translate_cls_call", "src/nagini_translation/translators/program.py:create_override_check", "src/nagini_translation/translators/program.py:translate_program", "src/nagini_translation/lib/program_nodes.py:has_classmethod", "src/nagini_translation/lib/program_nodes.py:process"]}
{"id": "C113", "title": "What is assumed about pure functions is consistent and they terminate", "statement": "If the translated pure functions verify, there are values for all of them that satisfy their definitions and postconditions, these values are unique up to functions without implementation, and Python's evaluation of every call allowed by a precondition terminates with them.", "quantifier": "all sets of (mutually) recursive pure functions, measures, conditions, states and all well-founded nestings of predicate instances", "why_tests_cant": "Consistency of recursive definitions concerns all arguments and call chains of any length; a test can only run a function or verify a single program.", "anchors": ["src/nagini_translation/translators/method.py:_translate_decreases", "src/nagini_translation/translators/method.py:translate_function", "src/nagini_translation/analyzer.py:visit_Call"]}
{"id": "C114", "title": "isinstance has the value it has in Python", "statement": "For every object and every class, or variable holding a class, the expression generated for isinstance is true exactly if Python's isinstance returns True.", "quantifier": "all class hierarchies, objects, classes and values of class variables", "why_tests_cant": "Every present and future class hierarchy is concerned; a test checks single classes.", "anchors": ["src/nagini_translation/translators/call.py:_translate_isinstance", "src/nagini_translation/translators/type.py:type_check", "src/nagini_translation/translators/type_domain_factory.py:subtype_check", "src/nagini_translation/translators/type_domain_factory.py:dynamic_type_check"]}
{"id": "C115", "title": "A name stands for what it stands for in Python", "statement": "What Python finds for a name that is read or called (local, global, imported or built-in) is what the translator uses for it.", "quantifier": "all modules, from-imports with and without renaming of any depth, classes, functions and names", "why_tests_cant": "Whether names clash depends on all modules that are imported, directly or not; tests contain fixed modules with few names.", "anchors": ["src/nagini_translation/lib/resolver.py:get_target", "src/nagini_translation/lib/resolver.py:find_entry", "src/nagini_translation/lib/views.py:CombinedDict", "src/nagini_translation/lib/views.py:PythonModuleView", "src/nagini_translation/lib/program_nodes.py:get_included_modules", "src/nagini_translation/translators/common.py:get_target", "src/nagini_translation/translators/call.py:translate_Call"]}
{"id": "C116", "title": "With statements follow PEP 343", "statement": "A with statement evaluates its expression, calls __enter__, binds the result, runs its body and calls __exit__ with the exception or with None; the exception goes on iff the result of __exit__ is false; returns, breaks and continues go on.", "quantifier": "all context managers, bodies, ways to leave the body and states, all previous values of auxiliary variables", "why_tests_cant": "Requires all ways of leaving an arbitrary body and all results of __exit__; the verifier never runs them.", "anchors": ["src/nagini_translation/translators/statement.py:translate_stmt_With", "src/nagini_translation/translators/method.py:_assign_exit_vars", "src/nagini_translation/translators/method.py:translate_finally"]}
{"id": "C117", "title": "Probabilistic information flow mode: control flow does not depend on secrets", "statement": "If a program is verified with --sif=prob, two executions whose low inputs agree take the same decisions: the same branches, the same number of iterations, the same methods.", "quantifier": "all programs of the modelled statements, all pairs of initial states, all lengths of execution", "why_tests_cant": "The claim relates pairs of executions for all values of the secrets; a test runs the verifier on a few programs and never executes them.", "anchors": ["src/nagini_translation/translators/statement.py:translate_stmt_While", "src/nagini_translation/translators/statement.py:translate_stmt_For", "src/nagini_translation/translators/statement.py:translate_stmt_Match", "src/nagini_translation/translators/expression.py:translate_IfExp", "src/nagini_translation/translators/expression.py:translate_BoolOp", "src/nagini_translation/translators/expression.py:_create_filtered_list_comp_inhale", "src/nagini_translation/translators/call.py:translate_call_in_union", "src/nagini_translation/translators/call.py:translate_normal_call"]}
{"id": "C118", "title": "The sequential information flow mode rejects concurrency", "statement": "With --sif (or --sif=true), whose encoding is only sound for sequential programs, every program that acquires or releases locks or creates, starts or joins threads is rejected; otherwise none is rejected for that reason.", "quantifier": "all values of the option and all programs", "why_tests_cant": "The tests call the translator with the Python value True, not through the command line.", "anchors": ["src/nagini_translation/main.py:main", "src/nagini_translation/translators/call.py:_translate_method_call", "src/nagini_translation/translators/call.py:_translate_thread_creation", "src/nagini_translation/translators/call.py:_translate_thread_start", "src/nagini_translation/translators/call.py:_translate_thread_join"]}
{"id": "C119", "title": "The type of a field is the declared one, in whatever order it is used", "statement": "The type that Acc(x.f) checks and assumes for a field has exactly the values that the declared type allows for that receiver; it does not depend on the order of methods, functions and files, nor on narrowed types at the first use.", "quantifier": "all well-typed programs of the modelled statements, all orders of files, all interpretations of classes", "why_tests_cant": "The type is taken from whichever access is visited first; tests have few orders of uses, files and instantiations.", "anchors": ["src/nagini_translation/lib/typeinfo.py:TypeVisitor.visit_member_expr", "src/nagini_translation/lib/typeinfo.py:TypeVisitor.set_type", "src/nagini_translation/lib/typeinfo.py:TypeInfo.check", "src/nagini_translation/analyzer.py:visit_Attribute", "src/nagini_translation/analyzer.py:typeof", "src/nagini_translation/lib/program_nodes.py:PythonClass.add_field", "src/nagini_translation/translators/contract.py:translate_acc_field"]}
{"id": "C120", "title": "The type of a member is its declared type with the type arguments of the receiver", "statement": "For a field or a method result declared in a generic class and a receiver whose type instantiates this class directly or by its base classes, the type of the access is the declared type with the corresponding arguments for the type variables.", "quantifier": "all class hierarchies, declared types and receivers", "why_tests_cant": "Hierarchies and types are unbounded; tests have a few generic classes.", "anchors": ["src/nagini_translation/lib/program_nodes.py:GenericType.get_bound_type_vars", "src/nagini_translation/lib/program_nodes.py:GenericType.substitute", "src/nagini_translation/lib/program_nodes.py:GenericType.superclass", "src/nagini_translation/lib/resolver.py:_do_get_type"]}
{"id": "C121", "title": "Every expression has a value of its static type", "statement": "Whenever an expression built from constants, variables, displays, subscripts, slices, conditional and boolean expressions, comparisons, calls, enumerate and ToSeq evaluates to a value, the value belongs to the type that Nagini computes for the expression.", "quantifier": "all expressions, class hierarchies, typed environments and results of calls", "why_tests_cant": "Expressions nest without bound; tests use each form with a few element types.", "anchors": ["src/nagini_translation/lib/resolver.py:_do_get_type", "src/nagini_translation/lib/resolver.py:_get_collection_literal_type", "src/nagini_translation/lib/resolver.py:_get_call_type", "src/nagini_translation/lib/resolver.py:get_subscript_type", "src/nagini_translation/lib/resolver.py:_get_subscript_type", "src/nagini_translation/lib/resolver.py:_get_iteration_type"]}
{"id": "C122", "title": "The types assumed for the elements of enumerate(...) are correct", "statement": "The type that the encoding of `enumerate(e)` assumes (without a check) for every element of `e` is a type of every element of the value of `e`.", "quantifier": "all iterables built from the modelled expressions, all typed environments", "why_tests_cant": "The assumption is wrong only for particular forms of iterables, and a wrong assumption makes everything verify instead of failing.", "anchors": ["src/nagini_translation/translators/call.py:_translate_enumerate", "src/nagini_translation/lib/resolver.py:_get_call_type", "src/nagini_translation/lib/resolver.py:_get_iteration_type", "src/nagini_translation/lib/resolver.py:_get_subscript_type"]}
{"id": "C123", "title": "Default arguments have the value computed at the definition", "statement": "If the main method of a module verifies, executing the module computes all default values of parameters without raising an exception, and every call that leaves out an argument passes, in the encoding, the value that the default expression had when the function was defined.", "quantifier": "all straight-line modules of assignments, definitions and calls; all interpretations and initial heaps of the encoding", "why_tests_cant": "The difference only shows for default values that read variables, with assignments between the definition and the call; there are unboundedly many such programs.", "anchors": ["src/nagini_translation/translators/program.py:translate_default_args", "src/nagini_translation/translators/call.py:translate_args", "src/nagini_translation/translators/expression.py:translate_global_var_reference", "src/nagini_translation/translators/statement.py:translate_stmt_FunctionDef", "src/nagini_translation/lib/program_nodes.py:is_final"]}
{"id": "C124", "title": "Everything that has to be checked is given to Viper", "statement": "If all modules of a program are verified, one after the other, then the body of every method, function, property and predicate that is not contract-only, the body of every inherited method for every class that inherits it, the compatibility of every overriding method and the code of every module have been checked.", "quantifier": "all programs: any number of modules, classes, members and names, any import relation", "why_tests_cant": "Whether a check is dropped depends on all names of the program and on where its classes are defined; a dropped check shows as a successful verification.", "anchors": ["src/nagini_translation/translators/program.py:translate_program", "src/nagini_translation/translators/program.py:create_inherit_check", "src/nagini_translation/translators/method.py:translate_main_method", "src/nagini_translation/analyzer.py:analyze_import", "src/nagini_translation/lib/program_nodes.py:get_fresh_name"]}
{"id": "C125", "title": "A selection of members is verified, and nothing else", "statement": "With --select, exactly the checks are done that belong to the members and classes that are named: their bodies, the override checks and the checks of inherited methods; the module code if __main__ is named.", "quantifier": "all programs and all nonempty selections of names", "why_tests_cant": "A test can only look at a few selections, and what is not checked does not show in the result.", "anchors": ["src/nagini_translation/translators/program.py:track_dependencies", "src/nagini_translation/translators/program.py:translate_program", "src/nagini_translation/translators/program.py:_translate_fields", "src/nagini_translation/analyzer.py:is_contract_only"]}
{"id": "C126", "title": "Verified module code does not use undefined global names", "statement": "If the code of a module is verified (and accepted by mypy), running it never looks up a function, class or global variable, directly or in anything it calls, before the name is defined.", "quantifier": "all modules: any functions, classes and methods, any call graph including recursion, any order of definitions", "why_tests_cant": "What a call needs depends on the whole call graph and all subclasses; a test sees single modules, and undefined names in rarely executed branches do not show.", "anchors": ["src/nagini_translation/translators/common.py:_get_global_definedness_conditions", "src/nagini_translation/translators/call.py:_add_dependencies", "src/nagini_translation/translators/call.py:_only_translate_method_call", "src/nagini_translation/translators/statement.py:translate_stmt_ClassDef", "src/nagini_translation/lib/program_nodes.py:add_all_call_deps"]}
{"id": "C127", "title": "Names defined before they are needed are accepted", "statement": "If no execution of the module's code looks up a name before it is defined, the assertions that names are defined hold.", "quantifier": "all modules: any functions, classes and methods, any call graph including recursion, any order of definitions", "why_tests_cant": "A test shows that single modules are accepted, not that the recorded dependencies are never too many.", "anchors": ["src/nagini_translation/translators/common.py:_get_global_definedness_conditions", "src/nagini_translation/translators/common.py:extract_identifiers", "src/nagini_translation/translators/call.py:_add_dependencies", "src/nagini_translation/translators/statement.py:translate_stmt_FunctionDef"]}
{"id": "C128", "title": "The expression for a type variable of a method denotes its type", "statement": "For a method with a type variable that occurs as a type argument in the type of a parameter, the type expression that the encoding uses for the variable denotes the type that the variable stands for in the call, for every argument that fits the parameter.", "quantifier": "all types of parameters, all interpretations of the type domain, all arguments and types of the variables", "why_tests_cant": "Type expressions are terms over an axiomatised domain; a wrong one shows only as failed preconditions of some calls.", "anchors": ["src/nagini_translation/analyzer.py:create_type_var_definition", "src/nagini_translation/analyzer.py:visit_arg", "src/nagini_translation/translators/method.py:bind_type_vars", "src/nagini_translation/translators/type_domain_factory.py:get_type_arg"]}
{"id": "C129", "title": "Well-typed calls meet the type preconditions", "statement": "A call of a method with type variables that is well-typed for some types of the variables meets the type preconditions that the encoding gives to the method.", "quantifier": "all methods, all interpretations of the type domain, all calls", "why_tests_cant": "There are infinitely many types and ways to use type variables; tests show a few that work.", "anchors": ["src/nagini_translation/translators/method.py:_create_typeof_pres", "src/nagini_translation/translators/method.py:bind_type_vars", "src/nagini_translation/analyzer.py:visit_arg"]}
{"id": "C130", "title": "Results of calls have the type that mypy gives them", "statement": "The type that the encoding gives to the result of a well-typed call of a method with type variables is a subtype of the static type of the call.", "quantifier": "all methods, all interpretations of the type domain, all calls and results", "why_tests_cant": "There are infinitely many types and ways to use type variables; tests show a few that work.", "anchors": ["src/nagini_translation/translators/method.py:_create_single_result_post", "src/nagini_translation/translators/method.py:bind_type_vars"]}
{"id": "C131", "title": "Verified starts of threads are safe", "statement": "If the creation of a thread, its start and an assertion after it verify, then for all values the arguments have the types of the parameters of the target, the precondition of the target holds, the thread is not started twice, and the assertion holds.", "quantifier": "all target methods, arguments, lists of start options, assertions and values", "why_tests_cant": "The checks are formulas over uninterpreted functions that are assumed elsewhere; tests try one wrong argument at a time.", "anchors": ["src/nagini_translation/translators/call.py:_translate_thread_creation", "src/nagini_translation/translators/call.py:_translate_thread_start", "src/nagini_translation/translators/obligation/fork.py:_set_parameter_aliases", "src/nagini_translation/translators/obligation/fork.py:_add_precondition_exhales"]}
{"id": "C132", "title": "A started thread gives one permission to its postcondition", "statement": "After a thread was started, at most one full ThreadPost permission is held for it, so that its postcondition can be obtained at most once.", "quantifier": "all target methods, arguments and lists of start options", "why_tests_cant": "A doubled permission shows only as a contradiction after the join, which makes later checks pass.", "anchors": ["src/nagini_translation/translators/obligation/fork.py:_add_precondition_exhales", "src/nagini_translation/translators/obligation/fork.py:_create_join_permission", "src/nagini_translation/translators/call.py:_translate_thread_start"]}
{"id": "C133", "title": "Arguments of the Thread constructor are used as in Python", "statement": "If a call of the Thread constructor is accepted, the expressions taken for group, target and args are those that Python binds to these parameters, and kwargs and daemon are not given.", "quantifier": "all positional and keyword arguments", "why_tests_cant": "The ways to mix positional and keyword arguments are many; ignored arguments show only at run time.", "anchors": ["src/nagini_translation/translators/call.py:_handle_thread_constructor_args", "src/nagini_translation/translators/call.py:_get_arg"]}
{"id": "C134", "title": "Earlier requests do not change a verdict", "statement": "Whether a program is accepted depends on the program and the settings of the user, not on the programs that the same process (the server or the service) verified before.", "quantifier": "all settings, histories of requests and programs", "why_tests_cant": "The state that is kept between requests matters only for certain sequences of programs; tests start with a fresh configuration.", "anchors": ["src/nagini_translation/main.py:translate", "src/nagini_translation/main.py:main", "src/nagini_translation/service.py:_reset_obligations", "src/nagini_translation/lib/config.py:ObligationConfig"]}
{"id": "C135", "title": "Obligations are turned off automatically only for programs that do not use them", "statement": "If a program calls a contract function about obligations, an operation of threads or of locks, or has ghost statements that must terminate, then the checks of obligations are encoded unless the user turned them off.", "quantifier": "all programs, class hierarchies, types of receivers and settings", "why_tests_cant": "The detection works on incomplete types and must recognise every operation that later needs obligations; a missing one only shows as a missing error.", "anchors": ["src/nagini_translation/analyzer.py:_requires_obligations", "src/nagini_translation/analyzer.py:visit_Call", "src/nagini_translation/main.py:translate"]}
{"id": "C136", "title": "Contracts stand where they belong, or are reported", "statement": "In an accepted program, method contracts stand in front of the code of a method (postconditions possibly behind it) and invariants in front of the code of a loop; a contract anywhere else, for example in a branch or in an expression, is reported. Conversely, methods whose contracts are in these places and in the documented order are accepted.", "quantifier": "all methods and modules with arbitrarily nested statements and expressions", "why_tests_cant": "Contracts are collected by one traversal and rejected by another one; a place that the second one skips is only seen in programs that have a contract there.", "anchors": ["src/nagini_translation/analyzer.py:visit_Call", "src/nagini_translation/analyzer.py:visit_loop", "src/nagini_translation/lib/util.py:get_body_indices", "src/nagini_translation/translators/call.py:translate_Call", "src/nagini_translation/translators/statement.py:translate_stmt_While"]}
{"id": "C137", "title": "The contracts in use are the written ones", "statement": "Every contract that occurs in an accepted program is translated to a condition that Viper checks, and the contracts of a method and the invariants of a loop are exactly those stated by its statements, in the order of the text.", "quantifier": "all methods and modules with arbitrarily nested statements and expressions", "why_tests_cant": "A contract that is dropped or attached to the wrong loop makes verification succeed more often; tests only see it if the contract is violated.", "anchors": ["src/nagini_translation/analyzer.py:visit_Call", "src/nagini_translation/analyzer.py:visit_loop", "src/nagini_translation/translators/method.py:translate_main_method", "src/nagini_translation/translators/method.py:_translate_method_body"]}
{"id": "C138", "title": "The contracts of float operations are not contradictory", "statement": "For each interpreted float encoding there are functions that meet all contracts of its float operations, so using an operation within its precondition never lets the verifier assume a contradiction.", "quantifier": "all interpretations of the abstract functions, all float values including NaN and infinities, all pairs of arguments", "why_tests_cant": "A contradictory postcondition makes every assertion provable, so a test that should fail there is the only way to see it, and only for the pair of arguments concerned.", "anchors": ["src/nagini_translation/resources/float_real.sil:float___ge__", "src/nagini_translation/resources/float_real.sil:float___le__", "src/nagini_translation/resources/float_ieee32.sil:float___create__"]}
{"id": "C139", "title": "The real encoding computes with exact numbers", "statement": "With --float-encoding=real, literals, integers, arithmetic, comparisons, conditions and conversions to int mean what they mean for exact numbers with NaN and infinities, and divisions and conversions are accepted exactly if they raise no exception.", "quantifier": "all interpretations that meet the contracts, all float values and pairs of them", "why_tests_cant": "Infinitely many numbers and four kinds of values for each argument; abstract functions are described by overlapping cases, and a missing or wrong case only shows for its arguments.", "anchors": ["src/nagini_translation/resources/float_real.sil:float___add__", "src/nagini_translation/resources/float_real.sil:float___mul__", "src/nagini_translation/resources/float_real.sil:float___truediv__", "src/nagini_translation/resources/float_real.sil:float___int__", "src/nagini_translation/translators/expression.py:translate_float_literal"]}
{"id": "C140", "title": "The 32 bit encoding follows Python's rules for floats", "statement": "With --float-encoding=ieee32, conditions, comparisons, zero checks of divisors and conversions to int agree with Python's rules on the values of SMT-LIB's floating point numbers, and arithmetic is SMT-LIB's.", "quantifier": "all interpretations that meet the contracts, all SMT-LIB floating point values, arbitrary rounding", "why_tests_cant": "Special values such as -0.0, NaN and infinities have to be tried for every operation, and tests compare only values that were thought of.", "anchors": ["src/nagini_translation/resources/float_ieee32.sil:float___bool__", "src/nagini_translation/resources/float_ieee32.sil:float___truediv__", "src/nagini_translation/resources/float_ieee32.sil:float___int__", "src/nagini_translation/resources/float_ieee32.sil:float___eq__", "src/nagini_translation/translators/expression.py:translate_float_literal"]}
{"id": "C141", "title": "Pure collections are created with a type of their elements", "statement": "PSeq, PSet and PMultiset displays, ToSeq and ToMS create a collection with an element type that each of its elements has; the contracts of element access and membership promise this type, so a wrong one lets the verifier assume a contradiction.", "quantifier": "all programs (class hierarchies, static types of variables), all values of the variables, all displays and conversions", "why_tests_cant": "The element type is only visible in what is assumed about elements; a test would have to convert each kind of collection with elements of different types and expect a later assertion to fail.", "anchors": ["src/nagini_translation/translators/contract.py:translate_to_sequence", "src/nagini_translation/translators/contract.py:translate_to_multiset", "src/nagini_translation/translators/contract.py:translate_sequence", "src/nagini_translation/translators/contract.py:translate_pset", "src/nagini_translation/translators/contract.py:translate_mset", "src/nagini_translation/resources/seq.sil:PSeq___create__"]}
{"id": "C142", "title": "Pure collections have their static type", "statement": "The element type with which a pure collection is created is the one that the static type of the expression says, so later type checks and operations that require equal element types agree with the analysis.", "quantifier": "all programs, all displays and conversions of all static types", "why_tests_cant": "Two functions in different files compute the type in different ways; tests only compare them for the collections that they happen to use.", "anchors": ["src/nagini_translation/translators/contract.py:translate_to_sequence", "src/nagini_translation/translators/contract.py:translate_to_multiset", "src/nagini_translation/lib/resolver.py:_get_call_type", "src/nagini_translation/lib/resolver.py:_get_iteration_type"]}
{"id": "C143", "title": "In possibilistic mode termination does not depend on secrets", "statement": "If a program is accepted with --sif=poss for two initial states that differ in secrets, then it terminates from one of them iff it terminates from the other.", "quantifier": "all programs with branches, loops without TerminatesSif and (recursive) method calls over arbitrary states, all pairs of initial states, all numbers of steps", "why_tests_cant": "Nontermination cannot be observed by a test, and the property relates two executions; the tests of the repository only contain loops whose invariants already say that the condition is low.", "anchors": ["src/nagini_translation/translators/statement.py:_translate_while_invariants", "src/nagini_translation/translators/statement.py:translate_stmt_While", "src/nagini_translation/translators/statement.py:translate_stmt_For", "src/nagini_translation/sif/translators/contract.py:translate_lowevent", "src/nagini_translation/lib/errors/messages.py:missing.termination.annotation"]}
{"id": "C144", "title": "Names in annotations are defined when they are evaluated", "statement": "If a module is accepted, then no annotation of its functions, of the methods of its classes and of its variables uses a name that is not defined yet when Python evaluates the annotation (a NameError).", "quantifier": "all modules (sequences of function, class and variable definitions), all annotations built from names, qualified names, strings, None and nested subscripts, all class hierarchies", "why_tests_cant": "The tests check a forward reference to a plain class only; which annotations record a dependency depends on the type that the annotation resolves to, down to the common superclass of unions.", "anchors": ["src/nagini_translation/translators/program.py:translate_default_args", "src/nagini_translation/translators/common.py:extract_identifiers", "src/nagini_translation/translators/common.py:_get_name_parts", "src/nagini_translation/translators/statement.py:_check_dependencies_defined", "src/nagini_translation/translators/statement.py:translate_stmt_AnnAssign", "src/nagini_translation/lib/resolver.py:get_target", "src/nagini_translation/lib/program_nodes.py:UnionType"]}
{"id": "C145", "title": "Every module imported with from is verified", "statement": "For every import 'from m import ...' of a module, the statements that are executed and verified are those of the module whose name is m.", "quantifier": "all lists of imported modules with distinct names, all names and paths of their files", "why_tests_cant": "The tests import modules whose names are not prefixes of each other; the search accepts any earlier imported module whose file name starts with the name.", "anchors": ["src/nagini_translation/translators/statement.py:translate_stmt_ImportFrom", "src/nagini_translation/analyzer.py:add_module", "src/nagini_translation/analyzer.py:collect_imports"]}
{"id": "C146", "title": "Names known after imports are exactly the defined ones", "statement": "If a program is accepted, in which no name is bound both to a module and to another value (mypy reports such programs), then every (qualified) name that it uses refers to a value when it is looked up, after any combination of import, import as, from import, from import * and definitions. Conversely, such a program is accepted if its names are defined and it imports no modules from other modules.", "quantifier": "all programs (lists of modules with definitions, imports of arbitrary dotted paths and uses of qualified names), all interpretations of the domain of names that satisfy its axioms", "why_tests_cant": "Tests import a few modules one level deep; that the quantified assumption about the new set neither adds nor loses names, and that qualified names are encoded injectively, depends on the domain axioms for all names.", "anchors": ["src/nagini_translation/translators/statement.py:translate_stmt_Import", "src/nagini_translation/translators/statement.py:translate_stmt_ImportFrom", "src/nagini_translation/translators/common.py:_combine_names", "src/nagini_translation/translators/common.py:extract_identifiers", "src/nagini_translation/translators/method.py:_initialize_main_state", "src/nagini_translation/resources/name_domain.sil"]}
{"id": "C147", "title": "Dotted names refer to the imported modules", "statement": "After 'import a.b.x' (in any module of the program) the name a.b.x refers to the module that was imported, whatever else the program imports.", "quantifier": "all lists of imports (importing module, dotted name, file) that use no name for two modules", "why_tests_cant": "The tests import from one directory; the directories of dotted names are dummy modules that are identified by their last name only, so the result depends on all imports of the program together.", "anchors": ["src/nagini_translation/analyzer.py:add_module", "src/nagini_translation/analyzer.py:collect_imports", "src/nagini_translation/translators/statement.py:translate_stmt_Import"]}
{"id": "C148", "title": "Relative imports import the module that Python imports", "statement": "If Python resolves 'from ..m import x' in a module to a file, then nagini uses the same file.", "quantifier": "all module names, packages or not, all levels and names, all sets of files", "why_tests_cant": "One relative import is tested, in a module that is not a package.", "anchors": ["src/nagini_translation/lib/program_nodes.py:get_relative_import_name", "src/nagini_translation/analyzer.py:collect_imports"]}
{"id": "C149", "title": "Importing a module executes its packages", "statement": "The files whose statements are executed and verified for an import are those that Python executes, including the __init__.py of every package of the module.", "quantifier": "all dotted names, all sets of files", "why_tests_cant": "The __init__.py files in the tests are empty.", "anchors": ["src/nagini_translation/analyzer.py:add_module", "src/nagini_translation/translators/statement.py:translate_stmt_Import", "src/nagini_translation/translators/statement.py:translate_stmt_ImportFrom"]}
{"id": "C150", "title": "A call is translated as a call of what its name refers to", "statement": "If a call f(...) is translated as a call of a built-in function, of a contract function or of a function of the program, then f refers to that function in Python.", "quantifier": "all sets of global names (definitions and imports under any name), all function names", "why_tests_cant": "The tests define no functions with the names of built-in or contract functions.", "anchors": ["src/nagini_translation/translators/call.py:translate_Call", "src/nagini_translation/translators/call.py:_get_call_target", "src/nagini_translation/translators/call.py:_translate_builtin_func", "src/nagini_translation/lib/constants.py:BUILTINS"]}
{"id": "C151", "title": "The parameters of a called method get the values that Python passes", "statement": "If a call f(..), m.f(..), C.f(..), super().f(..) or e.f(..) is accepted, every parameter of the called function, class method, static method or method (including the receiver and *args) has the value in the generated code that Python passes to it, whether the call is translated to a Viper call or inlined.", "quantifier": "all forms of calls, all kinds of methods with any number of parameters, all argument lists, all variables of the calling method", "why_tests_cant": "The tests call only methods of the program with super(), and inline no methods with *args.", "anchors": ["src/nagini_translation/translators/call.py:_has_implicit_receiver_arg", "src/nagini_translation/translators/call.py:translate_args", "src/nagini_translation/translators/call.py:translate_normal_call", "src/nagini_translation/translators/call.py:_inline_call", "src/nagini_translation/translators/call.py:inline_method"]}
{"id": "C152", "title": "Different classes of a program are different classes in the encoding", "statement": "If a program is accepted, every class definition creates the class that Python creates, and every type that mypy infers is translated to the class that it stands for; in particular, equally named classes of different modules are different types.", "quantifier": "all modules with all from-imports, all sequences of class definitions and uses of types, all names", "why_tests_cant": "The tests have few programs with several modules, and no equally named classes in them.", "anchors": ["src/nagini_translation/analyzer.py:find_or_create_class", "src/nagini_translation/analyzer.py:define_new", "src/nagini_translation/analyzer.py:visit_ClassDef", "src/nagini_translation/analyzer.py:_convert_normal_type", "src/nagini_translation/lib/program_nodes.py:PythonModule.get_included_modules", "src/nagini_translation/lib/views.py:PythonModuleView"]}
{"id": "C153", "title": "Loop invariants contain the types of exactly the changed variables", "statement": "The generated invariant of a loop contains the type of a local variable exactly if the variable is assigned in the body of the loop and existed before: otherwise its type is unknown in and after the loop, or the invariant cannot be established.", "quantifier": "all loop bodies with nested loops, with and match statements and unpacking targets; all functions around them", "why_tests_cant": "Only few tests reassign parameters in loops, and none with nested for loops or patterns.", "anchors": ["src/nagini_translation/translators/statement.py:_get_havocked_vars", "src/nagini_translation/translators/statement.py:_get_havocked_var_type_info", "src/nagini_translation/lib/util.py:AssignCollector", "src/nagini_translation/lib/util.py:contains_stmt", "src/nagini_translation/analyzer.py:visit_Match", "src/nagini_translation/analyzer.py:track_access"]}
{"id": "C154", "title": "Previous(x) contains the values of x in the previous iterations", "statement": "If Previous(x) is accepted in the invariant of a for loop, it is the sequence of the values that x had in the previous iterations of the innermost enclosing loop that assigns x.", "quantifier": "all nestings of for loops with all targets, all elements of previous iterations", "why_tests_cant": "The tests use Previous only in loops whose target is a single variable.", "anchors": ["src/nagini_translation/lib/util.py:find_loop_for_previous", "src/nagini_translation/translators/contract.py:translate_previous", "src/nagini_translation/resources/seq.sil:PSeq___getitem__"]}
