{
 "claims": [
  {
   "property": "C01",
   "status": "partial",
   "theorems": [
    "Nagini.Hoist.C01_evaluation_order_fails",
    "Nagini.Hoist.C01_witness_values",
    "Nagini.Hoist.C01_unary_operand_dropped",
    "Nagini.Hoist.C01_evaluation_order_partial"
   ],
   "note": "False in general: `x.f + x.m()` and `-x.m()` are witnesses. Proved for every expression in which no heap-reading operand precedes a calling sibling and unary operands do not call."
  },
  {
   "property": "C02",
   "status": "partial",
   "theorems": [
    "Nagini.Hoist.C02_short_circuit_fails",
    "Nagini.Hoist.C02_short_circuit_partial",
    "Nagini.Hoist.C02_pure_operands"
   ],
   "note": "False when a guard operand reads the heap and a later operand calls (witness); proved for all other operand lists of any length."
  },
  {
   "property": "C03",
   "status": "partial",
   "theorems": [
    "Nagini.Hoist.C03_conditional_fails",
    "Nagini.Hoist.C03_conditional_partial"
   ],
   "note": "False when the condition reads the heap and a branch calls (witness); proved otherwise."
  },
  {
   "property": "C04",
   "status": "partial",
   "theorems": [
    "Nagini.Hoist.C04_chain_short_circuit_fails",
    "Nagini.Hoist.C04_chain_partial"
   ],
   "note": "Operands are evaluated eagerly, so a call in the third or later operand is run although Python would not (witness); proved for chains without such calls."
  },
  {
   "property": "C05",
   "status": "partial",
   "theorems": [
    "Nagini.Unpack.C05_swap_fails",
    "Nagini.Unpack.C05_chained_targets_fail",
    "Nagini.Unpack.C05_assignment_partial",
    "Nagini.Unpack.C05_single_target"
   ],
   "note": "False for `a, b = b, a` and `a = b = (a, a)` (witnesses): the right-hand side expression is not stored in a temporary. Proved for arbitrarily nested star-free targets when no assigned variable is read by the right-hand side, and for a single variable target without guard."
  },
  {
   "property": "C06",
   "status": "partial",
   "theorems": [
    "Nagini.Unpack.C06_starred_fails",
    "Nagini.Unpack.C06_spurious_failure",
    "Nagini.Unpack.C06_starred_partial",
    "Nagini.Unpack.C06_length_check",
    "Nagini.Unpack.C06_prefix_and_star_partial"
   ],
   "note": "Targets after a star are read at their index in the target list instead of from the end (wrong value / spurious failure proved). Proved: star last or exact length, length check, and the values of all targets up to and including the star."
  },
  {
   "property": "C07",
   "status": "proved",
   "theorems": [
    "Nagini.Classes.C07_dispatch_most_specific",
    "Nagini.Classes.C07_no_instance_no_call"
   ],
   "note": "The set iteration order of toposort is a parameter; all_subclasses is modelled as the inverse of issubtype."
  },
  {
   "property": "C08",
   "status": "partial",
   "theorems": [
    "Nagini.Unwind.C08_exceptions_fail",
    "Nagini.Unwind.C08_violations",
    "Nagini.Unwind.C08_target_partial",
    "Nagini.Unwind.C08_value_partial",
    "Nagini.Unwind.C08_finally_chain_partial",
    "Nagini.Unwind.C08_uncaught",
    "Nagini.Unwind.C08_with_partial"
   ],
   "note": "Full claim (ExceptionsFaithful) is false: __exit__ of an inner with is skipped when an outer handler matches, outer handlers see a stale exception variable, raising in an except clause skips finally. Proved: target, clean-ups and value when only the innermost try has clean-up code; any number of nested finally suites without handlers; exceptions that leave a with statement uncaught (C08_with_partial)."
  },
  {
   "property": "C09",
   "status": "partial",
   "theorems": [
    "Nagini.Unwind.C09_jumps_fail",
    "Nagini.Unwind.C09_violations",
    "Nagini.Unwind.C09_return_iff_partial",
    "Nagini.Unwind.C09_loop_jump_partial",
    "Nagini.Unwind.C09_blocks_inner_to_outer"
   ],
   "note": "Full claim (JumpsFaithful) is false (return in except clause skips finally; break in a loop inside try/finally; nested with; break in a loop's else). Exact characterisation for return, sufficient guard for break/continue."
  },
  {
   "property": "C10",
   "status": "partial",
   "theorems": [
    "Nagini.Pure.C10_exact_partial",
    "Nagini.Pure.C10_sound_partial",
    "Nagini.Pure.C10_no_fallthrough_partial",
    "Nagini.Pure.C10_fails",
    "Nagini.Pure.C10_guard_fails",
    "Nagini.Pure.C10_or_fails",
    "Nagini.Pure.C10_leak_fails",
    "Nagini.Pure.C10_truthiness_fails",
    "Nagini.Pure.C10_abstract"
   ],
   "note": "The emitted expression is well-defined exactly if the body run by the verifier's rules returns, and then has the returned value; proved for all bodies in which parameters are first assigned to outside of branches, names bound by a failing case are not used, and alternatives bind no names, provided that called functions have no local variable of the same name. The full claim is false without each of these conditions (witnesses given)."
  },
  {
   "property": "C11",
   "status": "partial",
   "theorems": [
    "Nagini.Match.C11_sound_partial",
    "Nagini.Match.C11_exact_partial",
    "Nagini.Match.C11_unguarded_partial",
    "Nagini.Match.C11_fails",
    "Nagini.Match.C11_or_fails",
    "Nagini.Match.C11_guard_fails",
    "Nagini.Match.C11_unset_fails",
    "Nagini.Match.C11_parameter",
    "Nagini.Match.C11_body_last"
   ],
   "note": "The Viper code reaches the body Python reaches with the same variables, except for names bound by cases whose guard failed. False (with witnesses) for those names, for alternatives that bind names, for guards that read names bound in attributes, and for attributes that have not been assigned to."
  },
  {
   "property": "C12",
   "status": "partial",
   "theorems": [
    "Nagini.Comp.C12_list_partial",
    "Nagini.Comp.C12_filtered_partial",
    "Nagini.Comp.C12_filtered_contains",
    "Nagini.Comp.C12_set_partial",
    "Nagini.Comp.C12_dict_partial",
    "Nagini.Comp.C12_dict_accepts",
    "Nagini.Comp.C12_dict_key_incomplete",
    "Nagini.Comp.C12_sources",
    "Nagini.Comp.C12_fails",
    "Nagini.Comp.C12_value_fails",
    "Nagini.Comp.C12_equal_fails"
   ],
   "note": "lists are exact, filtered lists, sets and dicts sound; false for dicts as sources, for values of overwritten keys that raise, and for equal values that are not identical (witnesses proved)"
  },
  {
   "property": "C13",
   "status": "partial",
   "theorems": [
    "Nagini.For.C13_runs_partial",
    "Nagini.For.C13_elements",
    "Nagini.For.C13_invariant_exact",
    "Nagini.For.C13_invariant_defined",
    "Nagini.For.C13_invariant_partial",
    "Nagini.For.C13_invariant_step",
    "Nagini.For.C13_permission_partial",
    "Nagini.For.C13_next",
    "Nagini.For.C13_next_unique",
    "Nagini.For.C13_accepted",
    "Nagini.For.C13_fails",
    "Nagini.For.C13_break_fails"
   ],
   "note": "For arbitrary bodies and targets: the runs of the generated code under the contracts of the iterator are exactly the runs of the Python loop, with the visited elements as Previous; exact meaning, well-definedness and preservation of the generated invariant. The full claim is false: a body that assigns to the loop variable breaks the invariant in the last iteration, and break loses the permission share of the iterator."
  },
  {
   "property": "C14",
   "status": "partial",
   "theorems": [
    "Nagini.Args.C14_fails",
    "Nagini.Args.C14_unpack_fails",
    "Nagini.Args.C14_posonly_fails",
    "Nagini.Args.C14_bind_iff_partial",
    "Nagini.Args.C14_bind_partial",
    "Nagini.Args.C14_total",
    "Nagini.Args.C14_kwonly_default_wrong",
    "Nagini.Args.C14_order_fails",
    "Nagini.Args.C14_order_partial"
   ],
   "note": "Full claim is the definition C14; it is false of the code: keyword-only defaults (analyzer.py aligns `defaults` with the end of all parameters and never reads kw_defaults), `**e` arguments and positional-only parameters are bound wrongly. Proved: an exact characterisation of when a translated call binds like Python, binding for signatures without those features, totality, and evaluation order up to surplus keywords."
  },
  {
   "property": "C15",
   "status": "partial",
   "theorems": [
    "Nagini.IntOps.C15_division_fails",
    "Nagini.IntOps.C15_division_iff_partial",
    "Nagini.IntOps.C15_spec_unique"
   ],
   "note": "The full claim is false (7 // -2): negation proved. Proved exactly when it holds: positive divisor or exact division."
  },
  {
   "property": "C16",
   "status": "partial",
   "theorems": [
    "Nagini.IntOps.C16_bitops_fail",
    "Nagini.IntOps.C16_and_iff_partial",
    "Nagini.IntOps.C16_or_iff_partial",
    "Nagini.IntOps.C16_xor_iff_partial",
    "Nagini.IntOps.C16_witness",
    "Nagini.IntOps.C16_shifts_fail",
    "Nagini.IntOps.C16_shl_iff_partial",
    "Nagini.IntOps.C16_shr_iff_partial",
    "Nagini.IntOps.C16_rshift_negative_fails"
   ],
   "note": "The full claim is false for negative operands and for shifts by more than 64: negations proved, with an exact characterisation (iff) of when each operator is right."
  },
  {
   "property": "C17",
   "status": "proved",
   "theorems": [
    "Nagini.Seqs.C17_list_slice"
   ],
   "note": "list and bytearray slices are Python's for all lists and indices (step is rejected by the translator)"
  },
  {
   "property": "C18",
   "status": "partial",
   "theorems": [
    "Nagini.Seqs.C18_imm_slice_iff_partial",
    "Nagini.Seqs.C18_tuple_slice_iff_partial",
    "Nagini.Seqs.C18_imm_slice_fails",
    "Nagini.Seqs.C18_getitem"
   ],
   "note": "violated: a slice with start > stop of a tuple, bytes or range object is accepted but its contract is unsatisfiable (C18_imm_slice_fails); the iff theorems give the exact condition; subscripts proved exact"
  },
  {
   "property": "C19",
   "status": "partial",
   "theorems": [
    "Nagini.Seqs.C19_tuple_create_iff_partial",
    "Nagini.Seqs.C19_tuple_create_fails"
   ],
   "note": "violated: tuple___create7/8/9__ ensure length 6, contradicting tuple___len__; satisfiable and right iff at most 6 components"
  },
  {
   "property": "C20",
   "status": "partial",
   "theorems": [
    "Nagini.Seqs.C20_range",
    "Nagini.Seqs.C20_range_step",
    "Nagini.Seqs.C20_range_unique",
    "Nagini.Seqs.C20_range_contains_fails",
    "Nagini.Seqs.C20_range_contains_iff_partial",
    "Nagini.Seqs.C20_bytearray_contains",
    "Nagini.Seqs.C20_enumerate"
   ],
   "note": "construction exact; membership of a bool in a range is wrong (True in range(3)), exact condition proved"
  },
  {
   "property": "C21",
   "status": "partial",
   "theorems": [
    "Nagini.Seqs.C21_insert",
    "Nagini.Seqs.C21_insert_position",
    "Nagini.Seqs.C21_setitem",
    "Nagini.Seqs.C21_append_extend",
    "Nagini.Seqs.C21_mul",
    "Nagini.Seqs.C21_bytes",
    "Nagini.Seqs.C21_reverse_fails",
    "Nagini.Seqs.C21_reverse_iff_partial",
    "Nagini.Seqs.C21_bytearray_reverse",
    "Nagini.Seqs.C21_search_fails",
    "Nagini.Seqs.C21_contains_fails",
    "Nagini.Seqs.C21_search_partial",
    "Nagini.Seqs.C21_bytearray_init_fails",
    "Nagini.Seqs.C21_bytearray_init_iff_partial"
   ],
   "note": "violated: list.reverse leaves the receiver unchanged, in/index/remove use identity instead of ==, bytearray(negative) is contradictory; everything else proved for all inputs"
  },
  {
   "property": "C22",
   "status": "partial",
   "theorems": [
    "Nagini.Names.C22_identities_unique_fails",
    "Nagini.Names.C22_trailing_nul_fails",
    "Nagini.Names.C22_identities_unique_partial",
    "Nagini.Names.C22_prefix_distinct_partial"
   ],
   "note": "The claim is false for code points >= 256 and NUL (witnesses proved); proved for strings over code points 1..255."
  },
  {
   "property": "C23",
   "status": "partial",
   "theorems": [
    "Nagini.Names.C23_decode_encode_fails",
    "Nagini.Names.C23_decode_encode_iff_partial",
    "Nagini.Names.C23_encode_decode"
   ],
   "note": "The claim is false in general; an exact iff characterisation of the strings that round-trip is proved, and the reverse round trip for all numbers."
  },
  {
   "property": "C24",
   "status": "partial",
   "theorems": [
    "Nagini.TypeDomain.C24_union_contradiction",
    "Nagini.TypeDomain.C24_union_fails",
    "Nagini.TypeDomain.C24_tuple_fails",
    "Nagini.TypeDomain.C24_consistent_fails",
    "Nagini.TypeDomain.C24_consistent_partial"
   ],
   "note": "violated for every program: union_basic_n contradicts union_subtype/subtype_union/exclusion_2 (a union of a class with its own subtypes equals the class), and tuple_args_subtype_2 contradicts tuple_args_def; without union_basic_n and the tuple domain a model exists for every well-formed table of (generic) classes"
  },
  {
   "property": "C25",
   "status": "partial",
   "theorems": [
    "Nagini.TypeDomain.C25_nominal_partial",
    "Nagini.TypeDomain.C25_isinstance_partial",
    "Nagini.TypeDomain.C25_not_provable",
    "Nagini.TypeDomain.C25_builtins_fails",
    "Nagini.TypeDomain.C25_builtins_iff_partial"
   ],
   "note": "exact for the consistent subset of the axioms (all programs, generic classes, all models); builtins table disagrees with Python: int extends float"
  },
  {
   "property": "C26",
   "status": "proved",
   "theorems": [
    "Nagini.Classes.C26_least_common_superclass",
    "Nagini.Classes.C26_union_class",
    "Nagini.Classes.C26_issubtype_nominal"
   ],
   "note": "Finite single-inheritance hierarchies (depth function)."
  },
  {
   "property": "C27",
   "status": "partial",
   "theorems": [
    "Nagini.Classes.C27_lookup_nearest",
    "Nagini.Classes.C27_nearest_unique",
    "Nagini.Classes.C27_has_function",
    "Nagini.Classes.C27_func_or_method_fails",
    "Nagini.Classes.C27_func_or_method_partial",
    "Nagini.Classes.C27_method_nearest"
   ],
   "note": "get_func_or_method prefers a function of a superclass to a nearer method: negation proved; the rest holds."
  },
  {
   "property": "C28",
   "status": "partial",
   "theorems": [
    "Nagini.Generics.C28_class_partial",
    "Nagini.Generics.C28_exact_partial",
    "Nagini.Generics.C28_superclass_partial",
    "Nagini.Generics.C28_nested_fails",
    "Nagini.Generics.C28_skipped_fails",
    "Nagini.Generics.C28_fails"
   ],
   "note": "issubtype follows the declared superclasses exactly for hierarchies in which generic classes hand on their type variables unchanged or have no generic superclass (equivalence proved); it is always right if the second type is not generic. The full claim is false for all other hierarchies."
  },
  {
   "property": "C29",
   "status": "partial",
   "theorems": [
    "Nagini.Ops.C29_fails",
    "Nagini.Ops.C29_iff_partial",
    "Nagini.Ops.C29_defined"
   ],
   "note": "Full claim is the definition C29; it is false of the code: if both the left method and the reflected right method are applicable without priority, the left one is called but the type of the right one is used. Proved: exactly when the two choices agree, and that typing succeeds iff the translation finds a method. Operand types are classes; __pow_unrolled__ is not modelled."
  },
  {
   "property": "C30",
   "status": "proved",
   "theorems": [
    "Nagini.SilNodes.C30_translation_preserves",
    "Nagini.SilNodes.C30_int_preserves",
    "Nagini.SilNodes.C30_perm_preserves",
    "Nagini.SilNodes.C30_static",
    "Nagini.SilNodes.C30_static_consistent",
    "Nagini.SilNodes.C30_condInc"
   ],
   "note": "Translation with all simplifications preserves truth value and permission amounts of every node in every valuation. Wildcard permissions are not modelled."
  },
  {
   "property": "C31",
   "status": "proved",
   "theorems": [
    "Nagini.Guards.C31_guards_exact",
    "Nagini.Guards.C31_guards_inhale",
    "Nagini.Guards.C31_occurrence",
    "Nagini.Guards.C31_collected",
    "Nagini.Guards.C31_some_active"
   ],
   "note": "For assertions built from conjunction, implication, conditional and unfolding. Obligations inside conditions are not collected by the code (the later lookup raises KeyError); quantifier bodies are not modelled."
  },
  {
   "property": "C32",
   "status": "partial",
   "theorems": [
    "Nagini.Termination.C32_recursion_fails",
    "Nagini.Termination.C32_recursion_partial",
    "Nagini.Termination.C32_no_inherited_bodies",
    "Nagini.Termination.C32_depth",
    "Nagini.Termination.C32_promise_propagates",
    "Nagini.Termination.C32_builtins"
   ],
   "note": "The full claim is false: inherited bodies are checked with measures increased by one (create_inherit_check passes overriding_check=True), so a method can call itself with the same measure. Proved: no infinite chain of calls when from some point on no frame executes an inherited body; promises propagate along all calls."
  },
  {
   "property": "C33",
   "status": "proved",
   "theorems": [
    "Nagini.Termination.C33_loop_terminates",
    "Nagini.Termination.C33_promise_demanded",
    "Nagini.Termination.C33_iterations",
    "Nagini.Termination.C33_amount_restored"
   ],
   "note": "Loops with an active MustTerminate do not run forever; the number of iterations is bounded by the initial measure."
  },
  {
   "property": "C34",
   "status": "partial",
   "theorems": [
    "Nagini.WaitLevel.C34_fails",
    "Nagini.WaitLevel.C34_fails_always",
    "Nagini.WaitLevel.C34_loop_fails",
    "Nagini.WaitLevel.C34_deadlock_partial",
    "Nagini.WaitLevel.C34_locks",
    "Nagini.WaitLevel.C34_owned_below",
    "Nagini.WaitLevel.C34_precondition_sound",
    "Nagini.WaitLevel.C34_postcondition_sound",
    "Nagini.WaitLevel.C34_lock_level_exists",
    "Nagini.WaitLevel.C34_lock_level_exact"
   ],
   "note": "The full claim is false of the code: a started thread may acquire a lock its starter holds while joining it, and join inside a loop uses the method's residue. Deadlock freedom is proved for schedules without those two cases."
  },
  {
   "property": "C35",
   "status": "partial",
   "theorems": [
    "Nagini.Ghost.C35_erases_partial",
    "Nagini.Ghost.C35_reflects_partial",
    "Nagini.Ghost.C35_ghost_functions_partial",
    "Nagini.Ghost.C35_deterministic",
    "Nagini.Ghost.C35_failing_code",
    "Nagini.Ghost.C35_endless_loop",
    "Nagini.Ghost.C35_fails",
    "Nagini.Ghost.C35_call_statement_fails",
    "Nagini.Ghost.C35_if_fails",
    "Nagini.Ghost.C35_augmented_assignment_fails",
    "Nagini.Ghost.C35_builtin_fails",
    "Nagini.Ghost.C35_receiver_fails",
    "Nagini.Ghost.C35_receiver_effect_fails",
    "Nagini.Ghost.C35_loop_variable_fails",
    "Nagini.Ghost.C35_ghost_loop_fails",
    "Nagini.Ghost.C35_extraction_fails",
    "Nagini.Ghost.C35_nested_call_fails",
    "Nagini.Ghost.C35_return_fails",
    "Nagini.Ghost.C35_chained_call_fails",
    "Nagini.Ghost.C35_mixed_return_fails",
    "Nagini.Ghost.C35_single_target_fails"
   ],
   "note": "Proved for accepted programs that avoid the listed constructs (Clean): extraction succeeds, whenever a function terminates the extracted function terminates with the same effects, regular result and regular variables, and conversely whenever the extracted function terminates the original does, unless code without effects gets stuck or diverges (C35_endless_loop shows that this exception is needed; Nagini checks termination of ghost statements separately with obligations). The claim for all accepted programs is false; each _fails theorem is a program that is accepted but extracted wrongly."
  },
  {
   "property": "C36",
   "status": "proved",
   "theorems": [
    "Nagini.Names.C36_request_terminates",
    "Nagini.Names.C36_names_unique",
    "Nagini.Names.C36_history_terminates"
   ],
   "note": "All histories of requests from arbitrary nested scopes; termination with explicit bound."
  },
  {
   "property": "C37",
   "status": "partial",
   "theorems": [
    "Nagini.Alias.C37_aliases_fails",
    "Nagini.Alias.C37_block_effect",
    "Nagini.Alias.C37_restored_iff_partial",
    "Nagini.Alias.C37_reachable_inv",
    "Nagini.Alias.C37_lookup_partial"
   ],
   "note": "The code violates the claim: additional_aliases inside aliases_context pops an outer alias of the same name (witness). Proved: the exact effect of every block on every name, an iff for restoration, and lexical lookups whenever no additional_aliases occurs inside an aliases_context."
  },
  {
   "property": "C38",
   "status": "partial",
   "theorems": [
    "Nagini.Imports.C38_included_fails",
    "Nagini.Imports.C38_terminates_iff",
    "Nagini.Imports.C38_contents_partial"
   ],
   "note": "The code violates the claim: cyclic `from m import *` recurses forever (witness). Proved: termination iff no reachable cycle of star imports; contents are exactly the reachable modules whenever it terminates."
  },
  {
   "property": "C39",
   "status": "partial",
   "theorems": [
    "Nagini.Imports.C39_globals_fails",
    "Nagini.Imports.C39_globals_partial",
    "Nagini.Imports.C39_python_total",
    "Nagini.Imports.C39_translation_terminates",
    "Nagini.Imports.C39_at_most_once"
   ],
   "note": "The code violates the claim when a module imports the file started as a script (Python runs it twice). Proved otherwise: exact refinement to Python's import semantics incl. name checks; at most once and termination without restriction. Combined names of plain `import m` and packages are not modelled."
  },
  {
   "property": "C40",
   "status": "partial",
   "theorems": [
    "Nagini.Deps.C40_recursive_methods_diverge",
    "Nagini.Deps.C40_deps_fails",
    "Nagini.Deps.C40_check_partial",
    "Nagini.Deps.C40_terminates_partial"
   ],
   "note": "The full claim is false: recursive instance methods make the computation diverge (C40_deps_fails). Proved: exactness of the generated check whenever the computation ends, termination without cycles below method calls."
  },
  {
   "property": "C41",
   "status": "partial",
   "theorems": [
    "Nagini.Body.C41_body_fails",
    "Nagini.Body.C41_window",
    "Nagini.Body.C41_body_partial",
    "Nagini.Body.C41_canonical"
   ],
   "note": "The full claim is false: x.Ensures(...) at the end of a body is dropped. Proved for all bodies without calls that merely end in the name of a contract function; window shape for all bodies."
  },
  {
   "property": "C42",
   "status": "proved",
   "theorems": [
    "Nagini.Deps.C42_inlining_terminates",
    "Nagini.Deps.C42_rejected_iff",
    "Nagini.Deps.C42_reported",
    "Nagini.Deps.C42_all_inlined"
   ],
   "note": ""
  },
  {
   "property": "C43",
   "status": "partial",
   "theorems": [
    "Nagini.Errors.C43_converts_iff_partial",
    "Nagini.Errors.C43_prints_iff_partial",
    "Nagini.Errors.C43_diagnostic_iff_partial",
    "Nagini.Errors.C43_rules_partial",
    "Nagini.Errors.C43_known_partial",
    "Nagini.Errors.C43_timeout_fails",
    "Nagini.Errors.C43_unquoted_fails",
    "Nagini.Errors.C43_module_level_fails"
   ],
   "note": "Exact conditions under which an error can be converted, printed and turned into a diagnostic; they hold for errors of known kinds with registered positions inside functions, after any of the rules. The full claim fails for timeouts in the service, for rules at positions whose condition has none, and for contracts outside of functions."
  },
  {
   "property": "C44",
   "status": "proved",
   "theorems": [
    "Nagini.Service.C44_own_diagnostics",
    "Nagini.Service.C44_own_success"
   ],
   "note": "All schedules of the transition system in Verif/Model/Service.lean, with any number of requests, cancellations and reconfigurations. Translation and conversion are arbitrary functions."
  },
  {
   "property": "C45",
   "status": "partial",
   "theorems": [
    "Nagini.History.C45_service_partial",
    "Nagini.History.C45_setting_partial",
    "Nagini.History.C45_server_iff_partial",
    "Nagini.History.C45_server_fails",
    "Nagini.History.C45_termination_fails",
    "Nagini.History.C45_args_partial"
   ],
   "note": "Holds for the verification service for every history. Fails for the server loop of main.py, where a program without obligations switches the checks off for all later programs; exact characterisation proved."
  },
  {
   "property": "C46",
   "status": "partial",
   "theorems": [
    "Nagini.Service.C46_precise_partial",
    "Nagini.Service.C46_no_leak_partial",
    "Nagini.Service.C46_stops_iff_partial",
    "Nagini.Service.C46_stops_partial",
    "Nagini.Service.C46_unregistered_fails",
    "Nagini.Service.C46_order_fails",
    "Nagini.Service.C46_server_fails"
   ],
   "note": "Precision and absence of leaks hold for all schedules. Stopping the newest job fails between submission and registration, when registrations are reordered, and after the server has been switched off; proved for the request registered last."
  },
  {
   "property": "C47",
   "status": "partial",
   "theorems": [
    "Nagini.Service.C47_consistent_partial",
    "Nagini.Service.C47_reconfigure_partial",
    "Nagini.Service.C47_backend_fails",
    "Nagini.Service.C47_sif_fails"
   ],
   "note": "The claim fails: the backend and the sif mode are read again without the lock or after submission. Proved for requests whose reads find one configuration."
  },
  {
   "property": "C48",
   "status": "partial",
   "theorems": [
    "Nagini.Lsp.C48_timely_partial",
    "Nagini.Lsp.C48_early_fails",
    "Nagini.Lsp.C48_converting_fails"
   ],
   "note": "Fails when a run is started while an older run of the document is not yet registered or no longer running: the older result is published later. Proved for all schedules in which older runs are delivered, cancelled, or waiting for a registered job."
  },
  {
   "property": "C49",
   "status": "proved",
   "theorems": [
    "Nagini.TestCheck.C49_passes_iff"
   ],
   "note": "For every back-end, annotations, labels, errors and every order in which sets are iterated: the test passes iff missing annotations are included in the expected ones and the errors are, as a multiset of (id, line, vias), the expected minus the missing plus the unexpected ones."
  },
  {
   "property": "C50",
   "status": "proved",
   "theorems": [
    "Nagini.TestCheck.C50_half",
    "Nagini.TestCheck.C50_not_lost"
   ],
   "note": "Of n errors with the same representation exactly (n+1)/2 are kept, in order; every kind of error survives."
  },
  {
   "property": "C51",
   "status": "proved",
   "theorems": [
    "Nagini.IntOps.C51_power",
    "Nagini.IntOps.C51_bit_length",
    "Nagini.IntOps.C51_invert"
   ],
   "note": ""
  },
  {
   "property": "C52",
   "status": "partial",
   "theorems": [
    "Nagini.IntOps.C52_truediv_fails",
    "Nagini.IntOps.C52_truediv_iff_partial"
   ],
   "note": "False for exact divisions (4 / 2 is given type int): negation proved; exact characterisation proved."
  },
  {
   "property": "C53",
   "status": "partial",
   "theorems": [
    "Nagini.Imports.C53_resolve_fails",
    "Nagini.Imports.C53_resolve_iff_partial"
   ],
   "note": "The code violates the claim: file names are compared by prefix (from ab ..., then from a ...). Proved: exact condition under which the right module is found."
  },
  {
   "property": "C54",
   "status": "partial",
   "theorems": [
    "Nagini.WaitLevel.C54_fails",
    "Nagini.WaitLevel.C54_emitted_partial",
    "Nagini.WaitLevel.C54_no_inlining"
   ],
   "note": "The full claim is false of the code: inline_method sets ignore_waitlevel_constraints and does not reset it. The exact set of generated constraints is characterised."
  },
  {
   "property": "C55",
   "status": "partial",
   "theorems": [
    "Nagini.Args.C55_fails",
    "Nagini.Args.C55_parity_partial",
    "Nagini.Args.C55_single_partial"
   ],
   "note": "Full claim is the definition C55; it is false of the code: the checks are combined with EqCmp, so an even number of ill-typed arguments passes. Proved: exactly that parity condition."
  },
  {
   "property": "C56",
   "status": "partial",
   "theorems": [
    "Nagini.Ops.C56_fails",
    "Nagini.Ops.C56_skipped_fails",
    "Nagini.Ops.C56_iff_partial",
    "Nagini.Ops.C56_unrelated_partial",
    "Nagini.Ops.C56_direct_partial"
   ],
   "note": "Full claim is the definition C56; it is false of the code in both directions (reflected method inherited by both classes gets priority; reflected method redefined below an intermediate class does not). Proved: an exact characterisation and two sufficient conditions, for hierarchies that do not mix functions and methods of one name (C27)."
  },
  {
   "property": "C57",
   "status": "partial",
   "theorems": [
    "Nagini.Overrides.C57_sound_partial",
    "Nagini.Overrides.C57_iff_partial",
    "Nagini.Overrides.C57_fails",
    "Nagini.Overrides.C57_function_fails"
   ],
   "note": "The claim is false: only the direct superclass is searched, so redefining a grandparent's method below a class without it generates no check, and redefining a pure function that way is accepted. Proved: dispatch is sound when no class redefines an inherited member without the direct superclass containing one, and exactly then. Not modelled: parameter names, default values, declared exceptions, __init__ with class methods."
  },
  {
   "property": "C58",
   "status": "partial",
   "theorems": [
    "Nagini.Errors.C58_found_partial",
    "Nagini.Errors.C58_some_partial",
    "Nagini.Errors.C58_unique_partial",
    "Nagini.Errors.C58_conjunction_fails"
   ],
   "note": "The rules used belong to some part of the reported expression, some are found if there are any, and they are the right ones if only one set occurs. If two conjuncts carry different rules, those of the first one are used."
  },
  {
   "property": "C59",
   "status": "partial",
   "theorems": [
    "Nagini.Errors.C59_negate_iff_partial",
    "Nagini.Errors.C59_parentheses_fails"
   ],
   "note": "Holds unless the condition starts with \"(not \" and ends with \")\" without these parentheses belonging together, as in (not a) == (not b)."
  },
  {
   "property": "C60",
   "status": "partial",
   "theorems": [
    "Nagini.Errors.C60_printed_partial",
    "Nagini.Errors.C60_service_partial",
    "Nagini.Errors.C60_reason_fails"
   ],
   "note": "The command line prints each distinct error once. The service compares position, code and message only: an error with another reason is lost."
  },
  {
   "property": "C61",
   "status": "partial",
   "theorems": [
    "Nagini.Generics.C61_pairwise_partial",
    "Nagini.Generics.C61_common_partial",
    "Nagini.Generics.C61_order_partial",
    "Nagini.Generics.C61_fails"
   ],
   "note": "Least common supertype for all hierarchies for which issubtype is right (C28); false in general."
  },
  {
   "property": "C62",
   "status": "partial",
   "theorems": [
    "Nagini.Result.C62_control",
    "Nagini.Result.C62_return_partial",
    "Nagini.Result.C62_end_partial",
    "Nagini.Result.C62_partial",
    "Nagini.Result.C62_loop_in_finally",
    "Nagini.Result.C62_fails",
    "Nagini.Result.C62_stale_fails",
    "Nagini.Result.C62_loop_exception_fails",
    "Nagini.Result.C62_inlined_fails"
   ],
   "note": "Proved for programs whose finally blocks contain no loops and no returns in nested try/finally, and whose try/except bodies do not either. The full claim is false: loops in finally blocks reset the result variable, and the value of a return replaced by a caught exception is returned at the end of the body."
  },
  {
   "property": "C63",
   "status": "partial",
   "theorems": [
    "Nagini.Adt.C63_class_field_contradiction",
    "Nagini.Adt.C63_consistent_fails",
    "Nagini.Adt.C63_consistent_partial"
   ],
   "note": "The claim is false as stated: a field whose type is a class other than the ADT and object makes the axioms contradictory (C63_class_field_contradiction, for all such hierarchies). C63_consistent_partial: an interpretation exists exactly if there is no such field. Generic, union and collection field types and triggers are not modelled."
  },
  {
   "property": "C64",
   "status": "partial",
   "theorems": [
    "Nagini.Adt.C64_expressions",
    "Nagini.Adt.C64_field_of_constructor",
    "Nagini.Adt.C64_eq_partial",
    "Nagini.Adt.C64_is_partial",
    "Nagini.Adt.C64_isinstance",
    "Nagini.Adt.C64_exhaustive",
    "Nagini.Adt.C64_eta_partial",
    "Nagini.Adt.C64_nullary_incomplete",
    "Nagini.Adt.C64_eq_fails",
    "Nagini.Adt.C64_is_fails",
    "Nagini.Adt.C64_eta_fails"
   ],
   "note": "Constructor calls, field accesses and isinstance agree with Python in every interpretation; == is Python's equality together with equality of classes (Python ignores the class), is is the same as == (Python creates new objects); case analysis is exhaustive; instances of constructors with fields equal the constructor applied to the fields, for constructors without fields this does not follow from the axioms."
  },
  {
   "property": "C65",
   "status": "partial",
   "theorems": [
    "Nagini.Adt.C65_names_partial",
    "Nagini.Adt.C65_typed_partial",
    "Nagini.Adt.C65_expressions_partial",
    "Nagini.Adt.C65_type_field_fails",
    "Nagini.Adt.C65_underscore_fails",
    "Nagini.Adt.C65_cons_fails",
    "Nagini.Adt.C65_same_name_fails",
    "Nagini.Adt.C65_wellformed_fails"
   ],
   "note": "Proved for constructors without underscore and not called cons, fields not called type, and no other class with the name of the ADT; each condition has a counterexample."
  },
  {
   "property": "C66",
   "status": "partial",
   "theorems": [
    "Nagini.Threads.C66_joins_conserve_permissions_partial",
    "Nagini.Threads.C66_full_join_partial",
    "Nagini.Threads.C66_partial_join_partial",
    "Nagini.Threads.C66_unscaled_fails",
    "Nagini.Threads.C66_fails",
    "Nagini.Threads.C66_exceptions_fail"
   ],
   "note": "Full claim Conserves (fun _ => True) is false: global variables, MayStart, ThreadPost, MayCreate are not scaled (C66_unscaled_fails), and targets may raise (C66_exceptions_fail). Proved for all interleavings if postconditions have only field and predicate permissions, targets declare no exceptions and Old is plain."
  },
  {
   "property": "C67",
   "status": "partial",
   "theorems": [
    "Nagini.Threads.C67_join_assumes_truth_partial",
    "Nagini.Threads.C67_join_assumes_all_partial",
    "Nagini.Threads.C67_start_consistent",
    "Nagini.Threads.C67_fails",
    "Nagini.Threads.C67_exceptions_fail",
    "Nagini.Threads.C67_bound_fails",
    "Nagini.Threads.C67_nested_fails",
    "Nagini.Threads.C67_result_fails"
   ],
   "note": "Full claim JoinAssumesTruth (fun _ => True) is false for declared exceptions, Old around bound variables, Old(Old(e)) and Result() inside Old. Proved for all other targets, in both directions; consistency of the equations at a start is proved without conditions."
  },
  {
   "property": "C68",
   "status": "partial",
   "theorems": [
    "Nagini.IO.C68_io_operations_terminate_partial",
    "Nagini.IO.C68_fails",
    "Nagini.IO.C68_hiding_fails",
    "Nagini.IO.C68_conditional_fails"
   ],
   "note": "Proved for all programs whose bodies are well-formed (no bound variable hides another name, existentials are defined outside of conditions in their scope). The unrestricted claim fails for both kinds of excluded bodies, with witnesses."
  },
  {
   "property": "C69",
   "status": "partial",
   "theorems": [
    "Nagini.IO.C69_open_is_body_partial",
    "Nagini.IO.C69_conditional_fails"
   ],
   "note": "Proved for all well-formed bodies, all orders of elimination and all arguments. Fails for existentials defined below a condition, with a witness."
  },
  {
   "property": "C70",
   "status": "partial",
   "theorems": [
    "Nagini.Cfg.C70_cfg_faithful_partial",
    "Nagini.Cfg.C70_cfg_end_partial",
    "Nagini.Cfg.C70_cfg_faithful_fails",
    "Nagini.Cfg.C70_return_in_except_fails",
    "Nagini.Cfg.C70_raise_in_except_fails",
    "Nagini.Cfg.C70_with_in_try_fails",
    "Nagini.Cfg.C70_break_in_with_fails",
    "Nagini.Cfg.C70_loop_in_try_fails",
    "Nagini.Cfg.C70_return_in_finally_fails",
    "Nagini.Cfg.C70_nested_finally_fails",
    "Nagini.Cfg.C70_named_outer_fails"
   ],
   "note": "The full claim CfgFaithful is false for the code; eight kinds of bodies that are not simulated are given as witnesses. Proved for all bodies that satisfy the syntactic condition ok, which excludes these kinds; all executions, all initial values of auxiliary variables."
  },
  {
   "property": "C71",
   "status": "proved",
   "theorems": [
    "Nagini.Cfg.C71_jump_targets",
    "Nagini.Cfg.C71_labels_distinct",
    "Nagini.Cfg.C71_not_stuck"
   ],
   "note": "For all bodies whose compound statements have distinct identifiers (they stand for syntax nodes); methods that are not inlined."
  },
  {
   "property": "C72",
   "status": "proved",
   "theorems": [
    "Nagini.Oblig.C72_no_leak",
    "Nagini.Oblig.C72_release_held",
    "Nagini.Oblig.C72_frame",
    "Nagini.Oblig.C72_calls"
   ],
   "note": "for programs of statements, calls, loops with break/continue, if, try/except, acquire and release"
  },
  {
   "property": "C73",
   "status": "proved",
   "theorems": [
    "Nagini.Oblig.C73_eventually_released"
   ],
   "note": "one thread; acquire does not block forever (see C34 for deadlocks)"
  },
  {
   "property": "C74",
   "status": "proved",
   "theorems": [
    "Nagini.Oblig.C74_method_terminates",
    "Nagini.Oblig.C74_no_infinite_run",
    "Nagini.Oblig.C74_call_returns",
    "Nagini.Oblig.C74_loop_ends"
   ],
   "note": "without overriding (see C32)"
  },
  {
   "property": "C75",
   "status": "partial",
   "theorems": [
    "Nagini.Dispatch.C75_verified_code_never_fails_partial",
    "Nagini.Dispatch.C75_calls_satisfy_static_contract_partial",
    "Nagini.Dispatch.C75_postcondition_partial",
    "Nagini.Dispatch.C75_inherited_constructor_fails",
    "Nagini.Dispatch.C75_inherited_setter_fails",
    "Nagini.Dispatch.C75_explicit_super_fails",
    "Nagini.Dispatch.C75_constructor_of_cls_fails",
    "Nagini.Dispatch.C75_override_gap_fails",
    "Nagini.Dispatch.C75_fails"
   ],
   "note": "The full claim is false of the code (five negation theorems with witnesses). Proved for all programs that satisfy Guard: inherited constructors and setters would verify for the inheriting class, overriding skips no class, classes with class methods have constructors, super(T, self) names the containing class."
  },
  {
   "property": "C76",
   "status": "partial",
   "theorems": [
    "Nagini.Defined.C76_verified_never_undefined_partial",
    "Nagini.Defined.C76_pure_function_fails",
    "Nagini.Defined.C76_inlined_fails",
    "Nagini.Defined.C76_except_name_fails",
    "Nagini.Defined.C76_identity_clash_fails",
    "Nagini.Defined.C76_fails"
   ],
   "note": "The code violates the full claim in four situations (witnesses); proved if names are in Latin-1, locals of pure functions do not share Silver names with locals, handler names are used in their handlers only and inlined methods are safe by themselves."
  },
  {
   "property": "C77",
   "status": "proved",
   "theorems": [
    "Nagini.Defined.C77_assigned_accepted",
    "Nagini.Defined.C77_assigned_never_undefined"
   ],
   "note": ""
  },
  {
   "property": "C78",
   "status": "partial",
   "theorems": [
    "Nagini.Families.C78_family_meaning_partial",
    "Nagini.Families.C78_gap_fails",
    "Nagini.Families.C78_inherited_fails"
   ],
   "note": "The code violates the full claim if the definitions along the chain have a gap or the receiver's class does not define the predicate itself (witnesses); proved otherwise."
  },
  {
   "property": "C79",
   "status": "proved",
   "theorems": [
    "Nagini.Families.C79_static_class",
    "Nagini.Families.C79_acc_same",
    "Nagini.Families.C79_access_exists"
   ],
   "note": ""
  },
  {
   "property": "C80",
   "status": "proved",
   "theorems": [
    "Nagini.Families.C80_classes_added"
   ],
   "note": ""
  },
  {
   "property": "C81",
   "status": "partial",
   "theorems": [
    "Nagini.Cex.C81_names_distinct_partial",
    "Nagini.Cex.C81_names_distinct_fails",
    "Nagini.Cex.C81_same_class_name_fails",
    "Nagini.Cex.C81_names_stable",
    "Nagini.Cex.C81_all_named"
   ],
   "note": "The full claim is false: two references of unknown type with different declared types get the same name, as do objects of two classes of the same name. Proved where names of unknown references agree in their declared types and the names of different types do not run into each other."
  },
  {
   "property": "C82",
   "status": "partial",
   "theorems": [
    "Nagini.Cex.C82_evaluation_partial",
    "Nagini.Cex.C82_evaluation_fails",
    "Nagini.Cex.C82_parts",
    "Nagini.Cex.C82_text_injective",
    "Nagini.Cex.C82_strings",
    "Nagini.Cex.C82_no_internal_error_fails"
   ],
   "note": "The full claim is false for negative literals as arguments; proved for all terms without them. Terms of other kinds raise an exception that is not caught."
  },
  {
   "property": "C83",
   "status": "partial",
   "theorems": [
    "Nagini.Cex.C83_integers_partial",
    "Nagini.Cex.C83_integers_fails",
    "Nagini.Cex.C83_numerals",
    "Nagini.Cex.C83_booleans"
   ],
   "note": "The full claim is false if the model leaves open whether integers are booleans; proved if the model answers this question."
  },
  {
   "property": "C84",
   "status": "partial",
   "theorems": [
    "Nagini.Cex.C84_exact_class_partial",
    "Nagini.Cex.C84_exact_class_fails",
    "Nagini.Cex.C84_class_justified_partial",
    "Nagini.Cex.C84_class_justified_fails"
   ],
   "note": "The full claims are false: the declared class is returned if the basic type is known, and unspecified subtype questions count as yes. Proved without known basic types (or for the declared class), and if all subtype questions are answered, for classes without type parameters."
  },
  {
   "property": "C85",
   "status": "partial",
   "theorems": [
    "Nagini.Sif.C85_statements_partial",
    "Nagini.Sif.C85_handler_variable_fails",
    "Nagini.Sif.C85_loop_in_finally_fails",
    "Nagini.Sif.C85_exception_lost_fails",
    "Nagini.Sif.C85_cancelled_return_fails",
    "Nagini.Sif.C85_statements_fails"
   ],
   "note": "The code violates the full claim (one error variable per method, loops reset result and error variable); the partial theorem excludes calls, loops and try in named handlers, everything but simple statements, if and return in finally blocks, and continue in for loops."
  },
  {
   "property": "C86",
   "status": "partial",
   "theorems": [
    "Nagini.Sif.C86_for_partial",
    "Nagini.Sif.C86_continue_fails",
    "Nagini.Sif.C86_for_fails",
    "Nagini.Sif.C86_continue_diverges_fails"
   ],
   "note": "The code violates the claim for loops with continue; proved for loops without."
  },
  {
   "property": "C87",
   "status": "proved",
   "theorems": [
    "Nagini.Sif.C87_with"
   ],
   "note": "For bodies that meet the conditions of C85; __enter__ and __exit__ do not raise."
  },
  {
   "property": "C88",
   "status": "partial",
   "theorems": [
    "Nagini.Prelude.C88_consistent_partial",
    "Nagini.Prelude.C88_fails",
    "Nagini.Prelude.C88_contracts_fails",
    "Nagini.Prelude.C88_update_fails",
    "Nagini.Prelude.C88_seq_to_ints_fails",
    "Nagini.Prelude.C88_bytearray_fails",
    "Nagini.Prelude.C88_str_create_fails",
    "Nagini.Prelude.C88_str_null_fails",
    "Nagini.Prelude.C88_str_add_fails",
    "Nagini.Prelude.C88_bytes_create_fails",
    "Nagini.Prelude.C88_seq_create_fails",
    "Nagini.Prelude.C88_set_create_fails",
    "Nagini.Prelude.C88_multiset_create_fails",
    "Nagini.Prelude.C88_from_bytes_fails"
   ],
   "note": "The full claim is false for the code: PByteSeq.update with a value that is not a byte, bytearray of a negative number and int conversion of a list with a bool are contradictory. Proved: with the arguments restricted as in Guard.produced, all contracts hold of Python's values with Python's equality; each of the restrictions is necessary."
  },
  {
   "property": "C89",
   "status": "partial",
   "theorems": [
    "Nagini.Prelude.C89_equality_partial",
    "Nagini.Prelude.C89_fails"
   ],
   "note": "Proved for all pairs of values and all interpretations except a string compared with an int, which the contracts leave open (C89_fails)."
  },
  {
   "property": "C90",
   "status": "proved",
   "theorems": [
    "Nagini.Prelude.C90_sequences",
    "Nagini.Prelude.C90_byte_sequences",
    "Nagini.Prelude.C90_sets",
    "Nagini.Prelude.C90_multisets"
   ],
   "note": "For elements of the element type, indices in bounds and (PByteSeq) byte values."
  },
  {
   "property": "C91",
   "status": "proved",
   "theorems": [
    "Nagini.Exsures.C91_verified_iff",
    "Nagini.Exsures.C91_call_iff",
    "Nagini.Exsures.C91_modular"
   ],
   "note": ""
  },
  {
   "property": "C92",
   "status": "partial",
   "theorems": [
    "Nagini.Exsures.C92_sound",
    "Nagini.Exsures.C92_iff_partial",
    "Nagini.Exsures.C92_no_exceptions_rejected",
    "Nagini.Exsures.C92_fails"
   ],
   "note": "Soundness is unconditional. Completeness fails in the code for an overriding method without Exsures of a method with Exsures: the error result of the check method is not assigned; the equivalence is proved for all other pairs."
  },
  {
   "property": "C93",
   "status": "partial",
   "theorems": [
    "Nagini.Amounts.C93_value",
    "Nagini.Amounts.C93_iff_partial",
    "Nagini.Amounts.C93_accepted_partial",
    "Nagini.Amounts.C93_variable_fails",
    "Nagini.Amounts.C93_integer_fails",
    "Nagini.Amounts.C93_fails"
   ],
   "note": "Every well-typed translation has the right value, and the amounts with a well-typed translation are characterised exactly. The code also accepts amounts (variables on the left, bare integers) whose translation is ill-typed."
  },
  {
   "property": "C94",
   "status": "partial",
   "theorems": [
    "Nagini.Members.C94_list_iff_partial",
    "Nagini.Members.C94_set_iff_partial",
    "Nagini.Members.C94_dict_iff_partial",
    "Nagini.Members.C94_keys_once",
    "Nagini.Members.C94_range_partial",
    "Nagini.Members.C94_range_fails",
    "Nagini.Members.C94_not_canonical",
    "Nagini.Members.C94_fails"
   ],
   "note": "Lists, sets and dictionaries agree with Python exactly if equal values are identical; the full claim fails for booleans and objects with __eq__ because membership compares references."
  },
  {
   "property": "C95",
   "status": "partial",
   "theorems": [
    "Nagini.Aggregates.C95_sum",
    "Nagini.Aggregates.C95_sorted",
    "Nagini.Aggregates.C95_sorted_unique",
    "Nagini.Aggregates.C95_two",
    "Nagini.Aggregates.C95_abs",
    "Nagini.Aggregates.C95_list_partial",
    "Nagini.Aggregates.C95_list_bounds",
    "Nagini.Aggregates.C95_wrong",
    "Nagini.Aggregates.C95_contradictory",
    "Nagini.Aggregates.C95_undetermined",
    "Nagini.Aggregates.C95_fails"
   ],
   "note": "sum, sorted, abs and two-argument max/min are exact; max and min of a list are sound only without booleans and do not determine the result."
  },
  {
   "property": "C96",
   "status": "proved",
   "theorems": [
    "Nagini.Quant.C96_quantifiers",
    "Nagini.Quant.C96_in_context",
    "Nagini.Quant.C96_context"
   ],
   "note": "For pure assertions, given that the elements of a domain have the static type of the lambda's parameter."
  },
  {
   "property": "C97",
   "status": "partial",
   "theorems": [
    "Nagini.Aug.C97_aug_partial",
    "Nagini.Aug.C97_local_iff_partial",
    "Nagini.Aug.C97_list_contents",
    "Nagini.Aug.C97_shared_list_fails",
    "Nagini.Aug.C97_order_fails",
    "Nagini.Aug.C97_fails"
   ],
   "note": "Equal effects unless the target is a list or the right-hand side changes what the target reads; the full claim fails for shared lists and for calls that change the target."
  },
  {
   "property": "C98",
   "status": "partial",
   "theorems": [
    "Nagini.Globals.C98_partial",
    "Nagini.Globals.C98_straight_partial",
    "Nagini.Globals.C98_runs",
    "Nagini.Globals.C98_for_fails",
    "Nagini.Globals.C98_while_fails",
    "Nagini.Globals.C98_cycle_fails",
    "Nagini.Globals.C98_final_iff",
    "Nagini.Globals.C98_constant"
   ],
   "note": "The full claim is refuted: stores in module-level loops make a variable final although it gets several values, and equations in dead code may have no solution. Proved if every run gives a final variable one value (in particular if none is assigned in a loop) and the equations are not cyclic; the converse (reported errors are real) for all modules."
  },
  {
   "property": "C99",
   "status": "partial",
   "theorems": [
    "Nagini.Statics.C99_sound_partial",
    "Nagini.Statics.C99_known_partial",
    "Nagini.Statics.C99_translated",
    "Nagini.Statics.C99_statements_partial",
    "Nagini.Statics.C99_fails",
    "Nagini.Statics.C99_hidden_fails",
    "Nagini.Statics.C99_inherited_fails",
    "Nagini.Statics.C99_skipped_fails",
    "Nagini.Statics.C99_receiver_fails"
   ],
   "note": "The full claim is refuted (hidden attributes, inherited attributes, skipped classes, receivers that are not evaluated). Soundness is proved if no attribute is used through a class that inherits it; precision if all classes up to the static type define it."
  },
  {
   "property": "C100",
   "status": "partial",
   "theorems": [
    "Nagini.Statics.C100_partial",
    "Nagini.Statics.C100_fails"
   ],
   "note": "The full claim is refuted: attributes with equal initial values share their location. Proved to hold exactly if the initial values are different."
  },
  {
   "property": "C101",
   "status": "partial",
   "theorems": [
    "Nagini.Truth.C101_fails",
    "Nagini.Truth.C101_more_fails",
    "Nagini.Truth.C101_partial",
    "Nagini.Truth.C101_misjudged",
    "Nagini.Truth.C101_determined_partial",
    "Nagini.Truth.C101_defined"
   ],
   "note": "The full claim fails: the function used for tuples, for `object` and for optional unions says that empty tuples, strings and objects with a false __bool__ or __len__ are true. Proved: all other conditions can have Python's values in one interpretation, and have them in every interpretation unless the function used is that of object or float; the exception is exact."
  },
  {
   "property": "C102",
   "status": "proved",
   "theorems": [
    "Nagini.Truth.C102_values",
    "Nagini.Truth.C102_roundtrip",
    "Nagini.Truth.C102_impure"
   ],
   "note": ""
  },
  {
   "property": "C103",
   "status": "partial",
   "theorems": [
    "Nagini.Enums.C103_full_fails",
    "Nagini.Enums.C103_fails",
    "Nagini.Enums.C103_renamed_fails",
    "Nagini.Enums.C103_identity_fails",
    "Nagini.Enums.C103_consistent_partial",
    "Nagini.Enums.C103_partial",
    "Nagini.Enums.C103_constructor"
   ],
   "note": "The full claim fails: enumerations of the same name in two modules have contradictory contracts, and objects of an enumeration are not known to be identical to the member they are equal to. Proved for programs in which the Silver names of enumerations are their names, without the identity of arbitrary objects."
  },
  {
   "property": "C104",
   "status": "partial",
   "theorems": [
    "Nagini.Inline.C104_partial",
    "Nagini.Inline.C104_depth",
    "Nagini.Inline.C104_fails",
    "Nagini.Inline.C104_except_fails",
    "Nagini.Inline.C104_old_fails",
    "Nagini.Inline.C104_receiver_fails",
    "Nagini.Inline.C104_rejected"
   ],
   "note": "The full claim C104 is false for the code: except clauses of a function inlined twice share the variables of the last call, Old refers to the beginning of the caller, and the receiver of inlined methods is dropped. C104_partial proves it when no block with an except clause is inlined twice, Old does not occur in inlined methods and no inlined method is called on an object; C104_depth shows that the bound for the depth of calls does not matter."
  },
  {
   "property": "C105",
   "status": "partial",
   "theorems": [
    "Nagini.Fields.C105_partial",
    "Nagini.Fields.C105_created_once",
    "Nagini.Fields.C105_private_fails",
    "Nagini.Fields.C105_spelled_fails",
    "Nagini.Fields.C105_property_fails",
    "Nagini.Fields.C105_private_property_fails",
    "Nagini.Fields.C105_fails"
   ],
   "note": "Proved for all classes whose properties have no private names and hide nothing that the direct superclass does not mention, and whose mangled names do not clash. The unrestricted claim fails for each of the excluded cases, with witnesses."
  },
  {
   "property": "C106",
   "status": "partial",
   "theorems": [
    "Nagini.Fields.C106_partial",
    "Nagini.Fields.C106_exclusive",
    "Nagini.Fields.C106_may_create_inherited",
    "Nagini.Fields.C106_may_create_partial",
    "Nagini.Fields.C106_may_create_fails",
    "Nagini.Fields.C106_spelled_fails",
    "Nagini.Fields.C106_del_fails",
    "Nagini.Fields.C106_fails"
   ],
   "note": "Proved for all executions of programs with such classes in which private attributes are deleted in their class only. The unrestricted claim fails if mangled names are spelled out and for del outside of the class."
  },
  {
   "property": "C107",
   "status": "partial",
   "theorems": [
    "Nagini.Unions.C107_partial",
    "Nagini.Unions.C107_decided",
    "Nagini.Unions.C107_operators",
    "Nagini.Unions.C107_static_fails",
    "Nagini.Unions.C107_pure_static_fails",
    "Nagini.Unions.C107_mixed_fails",
    "Nagini.Unions.C107_fails"
   ],
   "note": "Proved if at most one option has a static method (the last one, if it is impure), or all methods are pure and the arguments need no statements. The unrestricted claim fails for static methods, with witnesses."
  },
  {
   "property": "C108",
   "status": "partial",
   "theorems": [
    "Nagini.Unions.C108_partial",
    "Nagini.Unions.C108_vararg_wrong",
    "Nagini.Unions.C108_rejected",
    "Nagini.Unions.C108_vararg_fails",
    "Nagini.Unions.C108_fails"
   ],
   "note": "Proved for methods without *args; for methods with *args the binding is always wrong if the call is accepted."
  },
  {
   "property": "C109",
   "status": "partial",
   "theorems": [
    "Nagini.Dataclasses.C109_partial",
    "Nagini.Dataclasses.C109_keywords_partial",
    "Nagini.Dataclasses.C109_fails",
    "Nagini.Dataclasses.C109_inherited_fails",
    "Nagini.Dataclasses.C109_inherited_wrong",
    "Nagini.Dataclasses.C109_plain_fails",
    "Nagini.Dataclasses.C109_class_var_fails",
    "Nagini.Dataclasses.C109_property_fails",
    "Nagini.Dataclasses.C109_order_fails"
   ],
   "note": "Proved for classes that declare all of their fields themselves and contain no other members that the analyzer takes for fields, and for calls with keywords only. The code violates the claim for inherited fields, names without annotation, class variables, properties and fields accessed before their declaration."
  },
  {
   "property": "C110",
   "status": "partial",
   "theorems": [
    "Nagini.Dataclasses.C110_partial",
    "Nagini.Dataclasses.C110_fails",
    "Nagini.Dataclasses.C110_lost"
   ],
   "note": "Proved for data classes and for classes with their own __init__. The code violates the claim for other subclasses of data classes."
  },
  {
   "property": "C111",
   "status": "partial",
   "theorems": [
    "Nagini.Stores.C111_partial",
    "Nagini.Stores.C111_single_partial",
    "Nagini.Stores.C111_fails",
    "Nagini.Stores.C111_target_call",
    "Nagini.Stores.C111_reevaluated",
    "Nagini.Stores.C111_reevaluated_variable",
    "Nagini.Stores.C111_receiver_read_late"
   ],
   "note": "Proved for statements whose right-hand sides are not changed by the evaluation of a target or by an earlier store of the same statement, and whose expressions are ordered as in C01. The code violates the claim for the others, because the right-hand side is evaluated at each store."
  },
  {
   "property": "C112",
   "status": "partial",
   "theorems": [
    "Nagini.ClassMethods.C112_sound_partial",
    "Nagini.ClassMethods.C112_iff_partial",
    "Nagini.ClassMethods.C112_fails_without_init",
    "Nagini.ClassMethods.C112_fails_skipped",
    "Nagini.ClassMethods.C112_fails_post_init"
   ],
   "note": "Proved for programs in which every class below a class method that contains `__init__` has a direct superclass that contains one and no `__post_init__` runs; the iff shows that this condition is exact. The code violates the claim otherwise."
  },
  {
   "property": "C113",
   "status": "partial",
   "theorems": [
    "Nagini.Decreases.C113_partial",
    "Nagini.Decreases.C113_unique_partial",
    "Nagini.Decreases.C113_fails",
    "Nagini.Decreases.C113_fails_condition",
    "Nagini.Decreases.C113_needs_trust"
   ],
   "note": "Proved for functions with a Decreases clause that applies wherever the function may be called. The claim is violated for functions without clause and for clauses with conditions. Decreases(None) is excluded by the claim, as it states trust."
  },
  {
   "property": "C114",
   "status": "partial",
   "theorems": [
    "Nagini.IsInstance.C114_iff_partial",
    "Nagini.IsInstance.C114_float_fails",
    "Nagini.IsInstance.C114_var_fails",
    "Nagini.IsInstance.C114_type_fails"
   ],
   "note": "The code violates the claim for float, type and class variables; C114_iff_partial characterises exactly when translation and Python agree."
  },
  {
   "property": "C115",
   "status": "partial",
   "theorems": [
    "Nagini.Scopes.C115_iff_partial",
    "Nagini.Scopes.C115_modules_partial",
    "Nagini.Scopes.C115_static_method_fails",
    "Nagini.Scopes.C115_parameter_fails",
    "Nagini.Scopes.C115_special_fails",
    "Nagini.Scopes.C115_order_fails",
    "Nagini.Scopes.C115_leak_fails"
   ],
   "note": "The code violates the claim in five ways; proved with an exact characterisation for names that come from one import only."
  },
  {
   "property": "C116",
   "status": "partial",
   "theorems": [
    "Nagini.Withs.C116_iff_partial",
    "Nagini.Withs.C116_normal_partial",
    "Nagini.Withs.C116_swallow_fails",
    "Nagini.Withs.C116_break_fails"
   ],
   "note": "The code violates the claim for true results of __exit__ and for break and continue; C116_iff_partial characterises exactly when code and Python agree."
  },
  {
   "property": "C117",
   "status": "partial",
   "theorems": [
    "Nagini.Prob.C117_checked_partial",
    "Nagini.Prob.C117_no_secrets",
    "Nagini.Prob.C117_while_fails",
    "Nagini.Prob.C117_match_fails",
    "Nagini.Prob.C117_union_fails",
    "Nagini.Prob.C117_operator_fails",
    "Nagini.Prob.C117_filter_fails",
    "Nagini.Prob.C117_pure_fails",
    "Nagini.Prob.C117_fails"
   ],
   "note": "The code violates the claim for while loops, match, unions, operators, filters and pure functions; proved for programs without these, and for while loops with an additional assertion."
  },
  {
   "property": "C118",
   "status": "partial",
   "theorems": [
    "Nagini.SifMode.C118_api_partial",
    "Nagini.SifMode.C118_others_partial",
    "Nagini.SifMode.C118_command_line_fails",
    "Nagini.SifMode.C118_fails"
   ],
   "note": "The code violates the claim for the command line; proved for the argument True of the translator and for all other modes."
  },
  {
   "property": "C119",
   "status": "partial",
   "theorems": [
    "Nagini.FieldTypes.C119_declared_partial",
    "Nagini.FieldTypes.C119_narrow_partial",
    "Nagini.FieldTypes.C119_order_partial",
    "Nagini.FieldTypes.C119_narrowed_fails",
    "Nagini.FieldTypes.C119_files_fails",
    "Nagini.FieldTypes.C119_generic_fails",
    "Nagini.FieldTypes.C119_union_fails",
    "Nagini.FieldTypes.C119_fails"
   ],
   "note": "The code violates the full claim: narrowed, instantiated or union-typed first uses and later files change the type. Proved: exact if the first recorded and first analyzed uses have the declared type; never too wide for plain classes."
  },
  {
   "property": "C120",
   "status": "partial",
   "theorems": [
    "Nagini.Substs.C120_generic_partial",
    "Nagini.Substs.C120_own_partial",
    "Nagini.Substs.C120_self_partial",
    "Nagini.Substs.C120_optional_partial",
    "Nagini.Substs.C120_nested_fails",
    "Nagini.Substs.C120_nested_wf_fails",
    "Nagini.Substs.C120_tuple_fails",
    "Nagini.Substs.C120_optional_fails",
    "Nagini.Substs.C120_fails"
   ],
   "note": "The code violates the full claim for nested arguments of base classes, tuples of any length and optional generic receivers; proved for all other hierarchies, types and receivers."
  },
  {
   "property": "C121",
   "status": "partial",
   "theorems": [
    "Nagini.ExprTypes.C121_partial",
    "Nagini.ExprTypes.C121_get_partial",
    "Nagini.ExprTypes.C121_slice_fails",
    "Nagini.ExprTypes.C121_slice_never_fails",
    "Nagini.ExprTypes.C121_get_fails",
    "Nagini.ExprTypes.C121_compare_fails",
    "Nagini.ExprTypes.C121_optional_fails"
   ],
   "note": "The code violates the full claim for slices, d.get(k), comparison methods that do not return booleans and iteration over optional dictionaries; proved for all other expressions of the model."
  },
  {
   "property": "C122",
   "status": "partial",
   "theorems": [
    "Nagini.ExprTypes.C122_partial",
    "Nagini.ExprTypes.C122_slice_fails",
    "Nagini.ExprTypes.C122_slice_never_fails",
    "Nagini.ExprTypes.C122_optional_fails"
   ],
   "note": "The code violates the full claim for slices of nested lists and for optional dictionaries; proved for all other iterables of the model."
  },
  {
   "property": "C123",
   "status": "partial",
   "theorems": [
    "Nagini.Defaults.C123_partial",
    "Nagini.Defaults.C123_stale_fails",
    "Nagini.Defaults.C123_undefined_fails"
   ],
   "note": "The code violates the full claim for default values that read variables assigned after the definition; proved for default values over variables assigned before the definition and not after it. The direct witness of C123_undefined_fails is caught by mypy's used-before-def check; a default that calls a function reading the variable is not."
  },
  {
   "property": "C124",
   "status": "partial",
   "theorems": [
    "Nagini.Coverage.C124_partial",
    "Nagini.Coverage.C124_own_partial",
    "Nagini.Coverage.C124_inherit_fails",
    "Nagini.Coverage.C124_main_fails"
   ],
   "note": "The code violates the full claim for methods inherited from classes of other modules and for module code when something is called main; C124_partial says exactly what is checked in each run."
  },
  {
   "property": "C125",
   "status": "partial",
   "theorems": [
    "Nagini.Coverage.C125_partial",
    "Nagini.Coverage.C125_property_fails",
    "Nagini.Coverage.C125_inherit_fails"
   ],
   "note": "The code violates the full claim for properties and for methods inherited by a selected class; C125_partial says exactly what is checked."
  },
  {
   "property": "C126",
   "status": "partial",
   "theorems": [
    "Nagini.GlobalNames.C126_partial",
    "Nagini.GlobalNames.C126_method_fails",
    "Nagini.GlobalNames.C126_static_fails",
    "Nagini.GlobalNames.C126_implicit_fails",
    "Nagini.GlobalNames.C126_constructor_fails",
    "Nagini.GlobalNames.C126_shadow_fails"
   ],
   "note": "The code violates the full claim for methods called by module code, constructors called by functions, implicit calls and functions named like methods; proved for modules without these."
  },
  {
   "property": "C127",
   "status": "partial",
   "theorems": [
    "Nagini.GlobalNames.C127_partial",
    "Nagini.GlobalNames.C127_static_fails"
   ],
   "note": "The code violates the full claim for functions that call static methods; proved for bodies without such calls, if no method is named like a class."
  },
  {
   "property": "C128",
   "status": "partial",
   "theorems": [
    "Nagini.MethodVars.C128_partial",
    "Nagini.MethodVars.C128_flat",
    "Nagini.MethodVars.C128_bare",
    "Nagini.MethodVars.C128_nested_fails"
   ],
   "note": "The code violates the full claim for nested type arguments; C128_partial characterises exactly when the definition is right."
  },
  {
   "property": "C129",
   "status": "partial",
   "theorems": [
    "Nagini.MethodVars.C129_partial",
    "Nagini.MethodVars.C129_two_fails",
    "Nagini.MethodVars.C129_nested_fails"
   ],
   "note": "The code violates the full claim for nested type arguments and for variables that are the type of two parameters; proved for variables that are determined exactly or occur once. Tuples and unions are not modelled."
  },
  {
   "property": "C130",
   "status": "partial",
   "theorems": [
    "Nagini.MethodVars.C130_partial",
    "Nagini.MethodVars.C130_wrap_fails"
   ],
   "note": "The code violates the full claim for type arguments of results whose variable is the type of a parameter; proved for exactly determined variables and for results that are such a variable."
  },
  {
   "property": "C131",
   "status": "partial",
   "theorems": [
    "Nagini.ThreadArgs.C131_exact",
    "Nagini.ThreadArgs.C131_partial",
    "Nagini.ThreadArgs.C131_one",
    "Nagini.ThreadArgs.C131_complete",
    "Nagini.ThreadArgs.C131_types_fails"
   ],
   "note": "The code violates the full claim: type checks are combined with == and an even number of wrong arguments passes. C131_exact characterises what is verified; the claim is proved if at most one argument can have a wrong type. Preconditions contain no permissions."
  },
  {
   "property": "C132",
   "status": "partial",
   "theorems": [
    "Nagini.ThreadArgs.C132_exact",
    "Nagini.ThreadArgs.C132_partial",
    "Nagini.ThreadArgs.C132_duplicate_fails"
   ],
   "note": "The code violates the full claim if a method is listed twice; proved for lists without duplicates, and the exact amount in general."
  },
  {
   "property": "C133",
   "status": "partial",
   "theorems": [
    "Nagini.ThreadArgs.C133_partial",
    "Nagini.ThreadArgs.C133_kwargs_fails"
   ],
   "note": "The code violates the full claim if kwargs or daemon is the first argument; C133_partial is an exact characterisation."
  },
  {
   "property": "C134",
   "status": "partial",
   "theorems": [
    "Nagini.AutoOblig.C134_fails",
    "Nagini.AutoOblig.C134_server_exact",
    "Nagini.AutoOblig.C134_partial",
    "Nagini.AutoOblig.C134_service",
    "Nagini.AutoOblig.C134_service_cli",
    "Nagini.AutoOblig.C134_single"
   ],
   "note": "Holds for the service; fails for the server, where one program without obligations turns off the checks for all later ones. Proved exactly when checks are encoded by the server."
  },
  {
   "property": "C135",
   "status": "partial",
   "theorems": [
    "Nagini.AutoOblig.C135_skipped_fails",
    "Nagini.AutoOblig.C135_call",
    "Nagini.AutoOblig.C135_union_fails",
    "Nagini.AutoOblig.C135_partial",
    "Nagini.AutoOblig.C135_ghost",
    "Nagini.AutoOblig.C135_checked"
   ],
   "note": "Missing: calls inside the arguments of Thread and getOld, which are not visited."
  },
  {
   "property": "C136",
   "status": "partial",
   "theorems": [
    "Nagini.Placement.C136_fails",
    "Nagini.Placement.C136_contract_only_fails",
    "Nagini.Placement.C136_partial",
    "Nagini.Placement.C136_accepts"
   ],
   "note": "Fails for method contracts in front of the code of a loop and for methods without translated body. Proved without such contracts; the converse is proved for the documented order."
  },
  {
   "property": "C137",
   "status": "partial",
   "theorems": [
    "Nagini.Placement.C137_fails",
    "Nagini.Placement.C137_methods",
    "Nagini.Placement.C137_partial",
    "Nagini.Placement.C137_exact"
   ],
   "note": "Proved for all methods with a body; fails for modules with method contracts in loops, which are never checked."
  },
  {
   "property": "C138",
   "status": "partial",
   "theorems": [
    "Nagini.Floats.C138_fails",
    "Nagini.Floats.C138_program_fails",
    "Nagini.Floats.C138_exact",
    "Nagini.Floats.C138_partial",
    "Nagini.Floats.C138_ieee"
   ],
   "note": "The contracts of the real encoding are contradictory for infinity compared with NaN, for all four comparison operators (C138_fails, reached by float(\"inf\") >= float(\"nan\"), C138_program_fails). C138_exact: exactly these pairs are affected; C138_partial: everything else has an interpretation; C138_ieee: the 32 bit encoding is consistent."
  },
  {
   "property": "C139",
   "status": "partial",
   "theorems": [
    "Nagini.Floats.C139_partial",
    "Nagini.Floats.C139_compare",
    "Nagini.Floats.C139_int",
    "Nagini.Floats.C139_fails"
   ],
   "note": "int() rounds down instead of cutting off the fraction (C139_fails); C139_int says for which numbers it is right. C139_partial and C139_compare prove the rest of the claim for all interpretations of the consistent part of the contracts."
  },
  {
   "property": "C140",
   "status": "partial",
   "theorems": [
    "Nagini.Floats.C140_fails",
    "Nagini.Floats.C140_zero_fails",
    "Nagini.Floats.C140_int_fails",
    "Nagini.Floats.C140_mixed_fails",
    "Nagini.Floats.C140_partial",
    "Nagini.Floats.C140_compare",
    "Nagini.Floats.C140_int",
    "Nagini.Floats.C140_arith"
   ],
   "note": "-0.0 is accepted as a divisor and counts as true, int() rounds down and accepts NaN and infinities, integers are rounded before they are compared. C140_partial and C140_int say exactly where conditions, divisions and conversions are right; comparisons of floats always agree (C140_compare)."
  },
  {
   "property": "C141",
   "status": "partial",
   "theorems": [
    "Nagini.Creates.C141_partial",
    "Nagini.Creates.C141_fails",
    "Nagini.Creates.C141_optional_fails",
    "Nagini.Creates.C141_optional_exact",
    "Nagini.Creates.C141_tuple_exact"
   ],
   "note": "ToSeq and ToMS use the first type argument: wrong for tuples whose elements have different types (C141_fails; C141_tuple_exact says exactly when it is right) and for optional collections (C141_optional_fails, C141_optional_exact). C141_partial proves the claim for all displays and all other conversions. Unions and type variables are not modelled."
  },
  {
   "property": "C142",
   "status": "partial",
   "theorems": [
    "Nagini.Creates.C142_partial",
    "Nagini.Creates.C142_accepts",
    "Nagini.Creates.C142_fails"
   ],
   "note": "The created type differs from the static type for the conversions of C141's counterexamples (C142_fails). C142_partial proves equality for displays and all other conversions; C142_accepts: the collections that the conversions are meant for are translated."
  },
  {
   "property": "C143",
   "status": "partial",
   "theorems": [
    "Nagini.Poss.C143_partial",
    "Nagini.Poss.C143_no_secrets",
    "Nagini.Poss.C143_rejects",
    "Nagini.Poss.C143_fails",
    "Nagini.Poss.C143_calls_fails"
   ],
   "note": "While loops assert their condition low only before the first iteration (C143_fails) and calls are not checked (C143_calls_fails). C143_partial proves the claim, with equal fuel, for programs in which the condition of each while loop is asserted low after each iteration and all methods require LowEvent(). C143_rejects: loops and LowEvent calls under secret conditions are rejected; C143_no_secrets: equal executions are never rejected. Loops with TerminatesSif are not modelled."
  },
  {
   "property": "C144",
   "status": "partial",
   "theorems": [
    "Nagini.Annots.C144_partial",
    "Nagini.Annots.C144_annotation",
    "Nagini.Annots.C144_generic_exact",
    "Nagini.Annots.C144_generic_classes",
    "Nagini.Annots.C144_fails",
    "Nagini.Annots.C144_union_fails",
    "Nagini.Annots.C144_variable_fails",
    "Nagini.Annots.C144_none_crashes"
   ],
   "note": "Arguments of subscripts such as List[A], unions of unrelated classes and annotations of module variables are not checked (C144_fails, C144_union_fails, C144_variable_fails; C144_generic_exact says exactly what is checked for subscripts), and Union[A, None] crashes (C144_none_crashes). C144_partial proves that for modules whose annotations are classes, strings, None, Optional[C] or unions with a user-defined common superclass the checks are exact."
  },
  {
   "property": "C145",
   "status": "partial",
   "theorems": [
    "Nagini.ImportTargets.C145_partial",
    "Nagini.ImportTargets.C145_exact",
    "Nagini.ImportTargets.C145_toplevel",
    "Nagini.ImportTargets.C145_fails"
   ],
   "note": "An import is resolved to an earlier imported module if the file of that module starts with the imported name (C145_fails), so the imported module is not verified. C145_exact gives the exact condition, and C145_partial proves the claim if no name is a prefix of the file of another imported module."
  },
  {
   "property": "C146",
   "status": "proved",
   "theorems": [
    "Nagini.ImportNames.C146_sound",
    "Nagini.ImportNames.C146_complete",
    "Nagini.ImportNames.C146_interpretation",
    "Nagini.ImportNames.C146_encoding",
    "Nagini.ImportNames.C146_consistent",
    "Nagini.ImportNames.C146_module_incomplete",
    "Nagini.ImportNames.C146_guard_needed"
   ],
   "note": "TidyAll says that modules and other values do not replace each other, which mypy reports; C146_guard_needed shows that it cannot be dropped. Importing a module from another module is rejected (C146_module_incomplete), so completeness excludes it."
  },
  {
   "property": "C147",
   "status": "partial",
   "theorems": [
    "Nagini.Packages.C147_partial",
    "Nagini.Packages.C147_distinct",
    "Nagini.Packages.C147_fails",
    "Nagini.Packages.C147_other_module",
    "Nagini.Packages.C147_package_crashes"
   ],
   "note": "Directories with the same name are confused (C147_fails, C147_other_module), and a package and its modules cannot both be imported with import (C147_package_crashes). C147_partial proves the claim if no two imports need different entries in the namespace of a module or a directory name, C147_distinct for names with different last parts that are not names of directories."
  },
  {
   "property": "C148",
   "status": "partial",
   "theorems": [
    "Nagini.Packages.C148_partial",
    "Nagini.Packages.C148_exact",
    "Nagini.Packages.C148_package",
    "Nagini.Packages.C148_fails"
   ],
   "note": "Relative imports in packages are resolved one level too high (C148_fails, C148_package). C148_partial proves the claim for modules that are not packages, and C148_exact that these and absolute imports are the only cases in which the names agree."
  },
  {
   "property": "C149",
   "status": "partial",
   "theorems": [
    "Nagini.Packages.C149_partial",
    "Nagini.Packages.C149_fails",
    "Nagini.Packages.C149_ignored_absolute",
    "Nagini.Packages.C149_ignored_fails"
   ],
   "note": "The __init__.py of packages is not executed for imports of their modules (C149_fails), and modules of packages whose names are those of ignored modules are not executed (C149_ignored_fails). C149_partial proves that the executed files are right iff no package has an __init__.py."
  },
  {
   "property": "C150",
   "status": "partial",
   "theorems": [
    "Nagini.Calls.C150_partial",
    "Nagini.Calls.C150_exact",
    "Nagini.Calls.C150_alias",
    "Nagini.Calls.C150_forall_missing",
    "Nagini.Calls.C150_fails"
   ],
   "note": "Calls of functions of the program that have the name of a built-in or contract function are treated as calls of that function (C150_fails; C150_exact says exactly when). C150_partial proves the claim, and that all functions can be called, for modules in which those names refer to nothing else."
  },
  {
   "property": "C151",
   "status": "partial",
   "theorems": [
    "Nagini.Receivers.C151_partial",
    "Nagini.Receivers.C151_super_builtin",
    "Nagini.Receivers.C151_inlined_varargs",
    "Nagini.Receivers.C151_super_static",
    "Nagini.Receivers.C151_fails",
    "Nagini.Receivers.C151_varargs_fails"
   ],
   "note": "Built-in methods called with super() do not get self (C151_super_builtin, C151_fails), inlined methods read *args from a variable of the calling method (C151_inlined_varargs, C151_varargs_fails), and static methods cannot be called with super() (C151_super_static). C151_partial proves that all other calls that Python accepts are accepted and pass the same values."
  },
  {
   "property": "C152",
   "status": "partial",
   "theorems": [
    "Nagini.ClassDefs.C152_partial",
    "Nagini.ClassDefs.C152_injective",
    "Nagini.ClassDefs.C152_imports_fail",
    "Nagini.ClassDefs.C152_builtin_fails",
    "Nagini.ClassDefs.C152_typing_fails",
    "Nagini.ClassDefs.C152_tvar_fails",
    "Nagini.ClassDefs.C152_fails"
   ],
   "note": "Definitions are merged with equally named classes that are visible through imports (C152_imports_fail, C152_fails), built-in classes (C152_builtin_fails) and typing names (C152_typing_fails), and classes can be taken for type variables (C152_tvar_fails). C152_partial proves that with different names and without renaming imports, a program is accepted exactly if no class is defined twice, and then all definitions and uses refer to the right classes; C152_injective that different classes stay different."
  },
  {
   "property": "C153",
   "status": "partial",
   "theorems": [
    "Nagini.LoopTypes.C153_partial",
    "Nagini.LoopTypes.C153_existed",
    "Nagini.LoopTypes.C153_for_fails",
    "Nagini.LoopTypes.C153_match_fails",
    "Nagini.LoopTypes.C153_fails"
   ],
   "note": "The types of variables that are targets of nested for or with statements are lost (C153_for_fails, C153_fails), and the invariant contains types of variables that have no value yet if a pattern in the loop binds them (C153_match_fails). C153_partial proves the claim for all other variables; C153_existed that variables not bound by patterns have existed before if their type is in the invariant."
  },
  {
   "property": "C154",
   "status": "partial",
   "theorems": [
    "Nagini.Previous.C154_partial",
    "Nagini.Previous.C154_rejected",
    "Nagini.Previous.C154_tuple",
    "Nagini.Previous.C154_contradiction",
    "Nagini.Previous.C154_second_fails",
    "Nagini.Previous.C154_fails"
   ],
   "note": "If x is the first of several targets, Previous(x) contains tuples (C154_tuple, C154_fails) with the type of x as type argument, which contradicts the contract of PSeq___getitem__ (C154_contradiction); for other targets it refers to outer loops (C154_second_fails). C154_partial proves the claim if the innermost loop that assigns x has no other target; C154_rejected that other uses outside of such loops are rejected."
  }
 ]
}