{
 "claims": [
  {
   "property": "C01",
   "status": "partial",
   "theorems": [
    "Umka.Map.C01_map_refines_finite_map",
    "Umka.Map.C01_int_keys_violated"
   ],
   "note": "Full refinement for every lawful key comparison; for int keys whose 64-bit difference overflows the property is false (witness proved)."
  },
  {
   "property": "C02",
   "status": "proved",
   "theorems": [
    "Umka.Map.C02_keys_ascending_complete"
   ],
   "note": ""
  },
  {
   "property": "C03",
   "status": "proved",
   "theorems": [
    "Umka.Map.C03_lookup_terminates"
   ],
   "note": ""
  },
  {
   "property": "C05",
   "status": "partial",
   "theorems": [
    "Umka.Sort.C05_sort_safe_permutation",
    "Umka.Sort.C05_sort_terminates",
    "Umka.Sort.C05_sort_sorts",
    "Umka.Sort.C05_sort_terminates_violated"
   ],
   "note": "Permutation and memory safety for every comparison; termination for every comparison with cmp(x,x)<=0, false without it (witness proved)."
  },
  {
   "property": "C06",
   "status": "partial",
   "theorems": [
    "Umka.Sort.C06_comparator_honoured_partial",
    "Umka.Sort.C06_comparator_truncated_violated"
   ],
   "note": "False for 64-bit results outside int32 (witness proved); proved for results within int32."
  },
  {
   "property": "C07",
   "status": "proved",
   "theorems": [
    "Umka.Sort.C07_sort_fast"
   ],
   "note": "For any item comparison that is a total preorder."
  },
  {
   "property": "C16",
   "status": "proved",
   "theorems": [
    "Umka.Heap.Props.C16_heap_refines_ideal",
    "Umka.Heap.Props.C16_live_block_untouched"
   ],
   "note": "Assumes malloc answers unused memory and the program uses pointers into memory it was given."
  },
  {
   "property": "C17",
   "status": "proved",
   "theorems": [
    "Umka.Heap.Props.C17_page_count_is_sum",
    "Umka.Heap.Props.C17_block_lives_while_referenced",
    "Umka.Heap.Props.C17_dangling_detected"
   ],
   "note": "Same assumptions as C16."
  },
  {
   "property": "C18",
   "status": "proved",
   "theorems": [
    "Umka.Heap.Props.C18_weak_pointer"
   ],
   "note": "Same assumptions as C16; fewer than 2^31 allocations."
  },
  {
   "property": "C19",
   "status": "partial",
   "theorems": [
    "Umka.Heap.Props.C19_memusage_violated",
    "Umka.Heap.Props.C19_memusage_partial"
   ],
   "note": "False: a page reused for a smaller size is subtracted with the smaller size (witness proved). Proved: never less than the bytes held."
  },
  {
   "property": "C55",
   "status": "proved",
   "theorems": [
    "Umka.Heap.Props.C55_deallocator_exactly_once"
   ],
   "note": ""
  },
  {
   "property": "C56",
   "status": "proved",
   "theorems": [
    "Umka.Heap.Props.C56_recycled_not_referenced"
   ],
   "note": "For the slots that are scanned; which fibers are scanned is modelled separately."
  },
  {
   "property": "C11",
   "status": "proved",
   "theorems": [
    "Umka.Arith.Props.C11_assignment_checked",
    "Umka.Arith.Props.C11_conversion_checked",
    "Umka.Arith.Props.C11_uint_target_violated"
   ],
   "note": "All ordinal targets except uint, all sources. For uint targets an out-of-range narrow temporary is stored unchecked (witness proved; outside the stated property)."
  },
  {
   "property": "C12",
   "status": "proved",
   "theorems": [
    "Umka.Arith.Props.C12_division"
   ],
   "note": ""
  },
  {
   "property": "C13",
   "status": "partial",
   "theorems": [
    "Umka.Arith.Props.C13_constant_folding",
    "Umka.Arith.Props.C13_constant_folding_unary",
    "Umka.Arith.Props.C13_constant_storing",
    "Umka.Arith.Props.C13_builtins_partial",
    "Umka.Arith.Props.C13_atan2_violated"
   ],
   "note": "Proved for all operators on ordinals; for built-in functions false for atan2 with exactly one zero argument (witness proved), proved for the rest."
  },
  {
   "property": "C14",
   "status": "partial",
   "theorems": [
    "Umka.Arith.Props.C14_comparison_partial",
    "Umka.Arith.Props.C14_mixed_violated"
   ],
   "note": "False for operands of mixed signedness (witness proved); proved for equal signedness and for mixed operands in 0..2^63-1."
  },
  {
   "property": "C53",
   "status": "partial",
   "theorems": [
    "Umka.Arith.Props.C53_increment_partial",
    "Umka.Arith.Props.C53_increment_violated"
   ],
   "note": "False on overflow of narrow types (witness proved); proved whenever the result is in range, and for uint."
  },
  {
   "property": "C57",
   "status": "partial",
   "theorems": [
    "Umka.Arith.Props.C57_arithmetic_partial",
    "Umka.Arith.Props.C57_arithmetic_violated",
    "Umka.Arith.Props.C57_bitwise",
    "Umka.Arith.Props.C57_negation"
   ],
   "note": "False for signed overflow and large shift counts (undefined behaviour, witness proved)."
  },
  {
   "property": "C15",
   "status": "partial",
   "theorems": [
    "Umka.Compare.Props.C15_lexicographic_partial",
    "Umka.Compare.Props.C15_int_range",
    "Umka.Compare.Props.C15_total_order",
    "Umka.Compare.Props.C15_first_difference",
    "Umka.Compare.Props.C15_int_overflow_violated",
    "Umka.Compare.Props.C15_infinity_violated",
    "Umka.Compare.Props.C15_cyclic_violated"
   ],
   "note": "False for int differences that overflow, for infinite reals and for cyclic arrays (witnesses proved); proved for all other values of every comparable type."
  },
  {
   "property": "C08",
   "status": "partial",
   "theorems": [
    "Umka.DynArr.Props.C08_list_operations_partial",
    "Umka.DynArr.Props.C08_exact_behaviour",
    "Umka.DynArr.Props.C08_lengths",
    "Umka.DynArr.Props.C08_insert_alias_violated",
    "Umka.DynArr.Props.C08_slice_min_violated"
   ],
   "note": "False for insert(a, i, a[j]) with structured items, spare capacity and j > i, and for slice with the explicit end index -2147483648 (witnesses proved); proved for every other program, and the exact behaviour is proved for all programs."
  },
  {
   "property": "C09",
   "status": "proved",
   "theorems": [
    "Umka.DynArr.Props.C09_len_le_cap",
    "Umka.DynArr.Props.C09_in_place",
    "Umka.DynArr.Props.C09_fresh",
    "Umka.DynArr.Props.C09_copies"
   ],
   "note": ""
  },
  {
   "property": "C10",
   "status": "partial",
   "theorems": [
    "Umka.Str.Props.C10_strings_partial",
    "Umka.Str.Props.C10_no_interior_nul",
    "Umka.Str.Props.C10_capacity_partial",
    "Umka.Str.Props.C10_allocation",
    "Umka.Str.Props.C10_overflow_violated",
    "Umka.Str.Props.C10_capacity_violated",
    "Umka.Str.Props.C10_slice_min_violated"
   ],
   "note": "False for concatenations whose total length overflows int, for the capacity of strings of 2147482623 bytes or more, and for slice with the explicit end index -2147483648 (witnesses proved); proved for every other program."
  },
  {
   "property": "C25",
   "status": "proved",
   "theorems": [
    "Umka.Lexer.Props.C25_decimal_literal",
    "Umka.Lexer.Props.C25_hex_literal",
    "Umka.Lexer.Props.C25_only_literals"
   ],
   "note": ""
  },
  {
   "property": "C26",
   "status": "partial",
   "theorems": [
    "Umka.Lexer.Props.C26_block_comment_violated",
    "Umka.Lexer.Props.C26_block_comment_partial",
    "Umka.Lexer.Props.C26_unterminated",
    "Umka.Lexer.Props.C26_line_comment"
   ],
   "note": "False if an odd number of asterisks precedes the closing */, e.g. /***/ (witness proved); exact behaviour proved for all texts."
  },
  {
   "property": "C27",
   "status": "proved",
   "theorems": [
    "Umka.Lexer.Props.C27_implicit_semicolons",
    "Umka.Lexer.Props.C27_forced_semicolon"
   ],
   "note": ""
  },
  {
   "property": "C28",
   "status": "partial",
   "theorems": [
    "Umka.Lexer.Props.C28_string_literal_partial",
    "Umka.Lexer.Props.C28_char_literal_partial",
    "Umka.Lexer.Props.C28_raw_literal",
    "Umka.Lexer.Props.C28_unterminated",
    "Umka.Lexer.Props.C28_zero_rejected",
    "Umka.Lexer.Props.C28_two_passes",
    "Umka.Lexer.Props.C28_escape_violated"
   ],
   "note": "False for the documented escape \\e, which denotes the letter e (witness proved); proved for all other escapes."
  },
  {
   "property": "C29",
   "status": "proved",
   "theorems": [
    "Umka.Lexer.Props.C29_longest_match",
    "Umka.Lexer.Props.C29_only_operators"
   ],
   "note": ""
  },
  {
   "property": "C58",
   "status": "partial",
   "theorems": [
    "Umka.Lexer.Props.C58_round_trip",
    "Umka.Lexer.Props.C58_progress",
    "Umka.Lexer.Props.C58_lost_text_violated"
   ],
   "note": "False for 0x followed by a point and a non-digit, where 0x vanishes (witness proved); round trip proved for all texts of well-formed tokens."
  },
  {
   "property": "C30",
   "status": "partial",
   "theorems": [
    "Umka.Layout.Props.C30_struct_layout_partial",
    "Umka.Layout.Props.C30_array_layout",
    "Umka.Layout.Props.C30_array_limit",
    "Umka.Layout.Props.C30_size_multiple",
    "Umka.Layout.Props.C30_negative_size_rejected",
    "Umka.Layout.Props.C30_overflow_violated"
   ],
   "note": "Proved for every structure type the compiler accepts without int overflow; false near 2 GiB, where the size check admits a structure whose size overflows (witness proved)."
  },
  {
   "property": "C31",
   "status": "partial",
   "theorems": [
    "Umka.Layout.Props.C31_get_param_partial",
    "Umka.Layout.Props.C31_params_disjoint",
    "Umka.Layout.Props.C31_push_order",
    "Umka.Layout.Props.C31_overflow_violated"
   ],
   "note": "Proved if the parameters take less than 2 GiB together; false beyond (witness proved)."
  },
  {
   "property": "C32",
   "status": "partial",
   "theorems": [
    "Umka.Layout.Props.C32_locals_partial",
    "Umka.Layout.Props.C32_each_variable_placed",
    "Umka.Layout.Props.C32_overflow_violated"
   ],
   "note": "Proved if the variables take less than 2 GiB together; false beyond (witness proved)."
  },
  {
   "property": "C21",
   "status": "partial",
   "theorems": [
    "Umka.Control.Props.C21_control_statements",
    "Umka.Control.Props.C21_expressions",
    "Umka.Control.Props.C21_nested_function",
    "Umka.Control.Props.C21_stack_partial",
    "Umka.Control.Props.C21_type_switch_leak_violated"
   ],
   "note": "Proved: every compiled function returns, fails or runs forever exactly as its statements mean. Violated only through the fixed stack size: break/continue out of a type switch leaves a value on the stack at each iteration (proved for every number of iterations), so long loops overflow the stack. Straight-line code is opaque."
  },
  {
   "property": "C23",
   "status": "partial",
   "theorems": [
    "Umka.Control.Props.C23_tables_partial",
    "Umka.Control.Props.C23_bound_exact",
    "Umka.Control.Props.C23_too_many_gotos",
    "Umka.Control.Props.C23_switch_violated"
   ],
   "note": "False for a switch with 100 cases or a case with 100 constants (witness proved); the exact bound is proved."
  },
  {
   "property": "C22",
   "status": "partial",
   "theorems": [
    "Umka.Peephole.Props.C22_optimizer",
    "Umka.Peephole.Props.C22_compile_error",
    "Umka.Peephole.Props.C22_message_violated"
   ],
   "note": "Proved for all programs, jumps included, up to the wording of the error for null pointers (witness proved). Removal of redundant result copies: C85."
  },
  {
   "property": "C24",
   "status": "partial",
   "theorems": [
    "Umka.Peephole.Props.C24_array_index",
    "Umka.Peephole.Props.C24_constant_index_partial",
    "Umka.Peephole.Props.C24_constant_index_violated",
    "Umka.DynArr.Props.C24_dynarray_index",
    "Umka.Str.Props.C24_string_index"
   ],
   "note": "Proved for run-time indices of arrays, dynamic arrays and strings; false for constant indices beyond 32 bits of static arrays (witness proved)."
  },
  {
   "property": "C20",
   "status": "partial",
   "theorems": [
    "Umka.RefCnt.Props.C20_counts_exact_partial",
    "Umka.RefCnt.Props.C20_no_errors_partial",
    "Umka.RefCnt.Props.C20_reachable_alive_partial",
    "Umka.RefCnt.Props.C20_no_leaks_partial",
    "Umka.RefCnt.Props.C20_void_pointer_violated",
    "Umka.RefCnt.Props.C20_stale_target_violated",
    "Umka.RefCnt.Props.C20_cycle_leaks"
   ],
   "note": "Proved for every sequence of declarations, releases, allocations and assignments of all types, with targets that are still in use. False for a ^void as the last pointer to a holder of counted values and for a target freed while the right side is evaluated (witnesses proved). In-place changes of array length are the subject of C101; onFree callbacks are not in this model."
  },
  {
   "property": "C33",
   "status": "partial",
   "theorems": [
    "Umka.Frame.Props.C33_balanced_partial",
    "Umka.Frame.Props.C33_host_return_partial",
    "Umka.Frame.Props.C33_nested_violated"
   ],
   "note": "Proved for every compiled program whose callbacks from external functions do not switch fibers; false if one does (witness proved)."
  },
  {
   "property": "C34",
   "status": "partial",
   "theorems": [
    "Umka.Frame.Props.C34_no_fault_partial",
    "Umka.Frame.Props.C34_overflow",
    "Umka.Frame.Props.C34_top_in_stack_partial",
    "Umka.Frame.Props.C34_sort_violated",
    "Umka.Frame.Props.C34_host_violated"
   ],
   "note": "Proved if the slots reserved by sort and the parameters of callbacks fit into the 1024 slots kept free; false for larger items in sort and for calls with more parameters than the stack (witnesses proved)."
  },
  {
   "property": "C35",
   "status": "partial",
   "theorems": [
    "Umka.Frame.Props.C35_no_dangling_partial",
    "Umka.Frame.Props.C35_escape_partial",
    "Umka.Frame.Props.C35_suspended_violated"
   ],
   "note": "Proved if pointers to the stack of a fiber are copied and dropped by that fiber or its descendants only; false for pointers to variables of suspended fibers (witness proved)."
  },
  {
   "property": "C36",
   "status": "partial",
   "theorems": [
    "Umka.Frame.Props.C36_resume_partial",
    "Umka.Frame.Props.C36_continue_partial",
    "Umka.Frame.Props.C36_others_partial",
    "Umka.Frame.Props.C36_finish_partial",
    "Umka.Frame.Props.C36_dead_forever_partial",
    "Umka.Frame.Props.C36_orphan_violated",
    "Umka.Frame.Props.C36_dead_parent_violated",
    "Umka.Frame.Props.C33_nested_violated"
   ],
   "note": "Proved for fibers switched outside callbacks, with parents alive; false for fibers whose parent is dead and for switches inside callbacks (witnesses proved)."
  },
  {
   "property": "C59",
   "status": "partial",
   "theorems": [
    "Umka.Frame.Props.C59_no_false_alarm_partial",
    "Umka.Frame.Props.C35_escape_partial",
    "Umka.Frame.Props.C59_callback_violated"
   ],
   "note": "Proved outside callbacks of external functions; false inside (witness proved)."
  },
  {
   "property": "C37",
   "status": "proved",
   "theorems": [
    "Umka.Scope.Props.C37_meaning",
    "Umka.Scope.Props.C37_restored",
    "Umka.Scope.Props.C37_duplicate",
    "Umka.Scope.Props.C37_shadows"
   ],
   "note": "Identifier table modelled with blocks, modules, temporaries moved outside a block, prototypes and forward types; type compatibility is abstract."
  },
  {
   "property": "C38",
   "status": "proved",
   "theorems": [
    "Umka.Release.Props.C38_functions",
    "Umka.Release.Props.C38_globals"
   ],
   "note": "The part of the parser that declares variables and temporaries, opens and closes blocks and generates releases, for all statements and expressions; code as a tree (jumps: C21)."
  },
  {
   "property": "C39",
   "status": "partial",
   "theorems": [
    "Umka.Types.Props.C39_decides",
    "Umka.Types.Props.C39_reflexive",
    "Umka.Types.Props.C39_symmetric",
    "Umka.Types.Props.C39_transitive_partial",
    "Umka.Types.Props.C39_transitive_violated"
   ],
   "note": "The check decides structural equivalence (coinductive, names compared by declaration) and terminates on every graph of types; it is reflexive and symmetric. Transitive if one of the outer types contains no declared types; false in general (witness proved). Default values of parameters are compared abstractly."
  },
  {
   "property": "C60",
   "status": "proved",
   "theorems": [
    "Umka.Types.Props.C60_comparable"
   ],
   "note": "Sound, complete and terminating on every graph of types."
  },
  {
   "property": "C40",
   "status": "partial",
   "theorems": [
    "Umka.Paths.Props.C40_denotes_absolute",
    "Umka.Paths.Props.C40_denotes_relative",
    "Umka.Paths.Props.C40_same_file",
    "Umka.Paths.Props.C40_other_violated",
    "Umka.Paths.Props.C40_cut_violated",
    "Umka.Paths.Props.C40_idempotent",
    "Umka.Paths.Props.C40_absolute",
    "Umka.Paths.Props.C40_fits",
    "Umka.Paths.Props.C40_name",
    "Umka.Paths.Props.C40_name_fits"
   ],
   "note": "Proved for paths whose components are '.', '..' or contain an ordinary name not beginning or ending with a dot and that fit in the buffer. Missing: for other paths the claim is false (C40_other_violated: 'foo./bar' becomes '/foobar'; C40_cut_violated: an over-long path is silently cut)."
  },
  {
   "property": "C41",
   "status": "proved",
   "theorems": [
    "Umka.Link.Props.C41_sandbox",
    "Umka.Link.Props.C41_replaced",
    "Umka.Link.Props.C41_failures",
    "Umka.Link.Props.C41_untrusted",
    "Umka.Link.Props.C41_streams",
    "Umka.Link.Props.C41_stream_kinds"
   ],
   "note": "For the code of every program, all host registrations and libraries. The switch does not cover importing source files or implementation libraries; host functions and libraries are outside the model."
  },
  {
   "property": "C42",
   "status": "partial",
   "theorems": [
    "Umka.Link.Props.C42_duplicates",
    "Umka.Link.Props.C42_first",
    "Umka.Link.Props.C42_choose",
    "Umka.Link.Props.C42_unresolved",
    "Umka.Link.Props.C42_once",
    "Umka.Link.Props.C42_long_violated",
    "Umka.Link.Props.C42_priority_violated"
   ],
   "note": "Names of at most 255 characters (longer duplicates are accepted: C42_long_violated); the documented fallback to the library for a module in a file is not followed when a host function has the same name (C42_priority_violated). C42_unresolved and C42_once assume no function has two prototypes."
  },
  {
   "property": "C61",
   "status": "partial",
   "theorems": [
    "Umka.Link.Props.C61_calls_partial",
    "Umka.Link.Props.C61_violated"
   ],
   "note": "Proved for programs in which no function has two prototypes; with two prototypes calls compiled between them reach an unpatched placeholder (C61_violated)."
  },
  {
   "property": "C43",
   "status": "proved",
   "theorems": [
    "Umka.Imports.Props.C43_iff",
    "Umka.Imports.Props.C43_order",
    "Umka.Imports.Props.C43_errors",
    "Umka.Imports.Props.C43_terminates",
    "Umka.Imports.Props.C43_defined"
   ],
   "note": "For every import graph, finite or infinite."
  },
  {
   "property": "C44",
   "status": "partial",
   "theorems": [
    "Umka.Lib.Props.C44_encode",
    "Umka.Lib.Props.C44_round_trip_partial",
    "Umka.Lib.Props.C44_invalid",
    "Umka.Lib.Props.C44_terminates_partial",
    "Umka.Lib.Props.C44_replacement_violated",
    "Umka.Lib.Props.C44_nul_violated",
    "Umka.Lib.Props.C44_terminates_violated",
    "Umka.Lib.Props.C44_index_violated"
   ],
   "note": "encode is UTF-8; decode is its inverse for characters other than NUL and U+FFFD, and stops at the first invalid byte. False for U+FFFD and NUL; decode never ends on (or indexes before) strings with four-byte sequences beyond U+10FFFF; it ends on all others."
  },
  {
   "property": "C45",
   "status": "proved",
   "theorems": [
    "Umka.Lib.Props.C45_rand",
    "Umka.Lib.Props.C45_injective"
   ],
   "note": "All call histories from the initial seed with all int64 seeds."
  },
  {
   "property": "C51",
   "status": "partial",
   "theorems": [
    "Umka.Lib.Props.C51_trim",
    "Umka.Lib.Props.C51_trim_unique",
    "Umka.Lib.Props.C51_transform_partial",
    "Umka.Lib.Props.C51_filter_partial",
    "Umka.Lib.Props.C51_reduce_partial",
    "Umka.Lib.Props.C51_pure",
    "Umka.Lib.Props.C51_transform_violated"
   ],
   "note": "Functions with side effects that do not change the array itself; the result and the order of the calls. A function that changes the array during transform may cause an index error."
  },
  {
   "property": "C46",
   "status": "partial",
   "theorems": [
    "Umka.Enum.Props.C46_enum_partial",
    "Umka.Enum.Props.C46_find",
    "Umka.Enum.Props.C46_const_partial",
    "Umka.Enum.Props.C46_range_violated",
    "Umka.Enum.Props.C46_wrap_violated"
   ],
   "note": "Exact for all declaration lists whose numbers are below 2^63 (and not negative for uint). False beyond: negative values of uint enumerations, uint values beyond 2^63 and the numbering after the largest int/uint are not rejected."
  },
  {
   "property": "C54",
   "status": "partial",
   "theorems": [
    "Umka.Api.Props.C54_dead",
    "Umka.Api.Props.C54_first_failure",
    "Umka.Api.Props.C54_no_code_partial",
    "Umka.Api.Props.C54_no_fibers",
    "Umka.Api.Props.C54_exit",
    "Umka.Api.Props.C54_fiber_violated",
    "Umka.Api.Props.C54_report_violated",
    "Umka.Api.Props.C54_call_violated",
    "Umka.Api.Props.C54_nested_run_violated"
   ],
   "note": "Dead for ever: proved. First failure: proved for all histories whose external functions do not call umkaRun. No code afterwards: proved for umkaRun if the failing fiber is the main fiber or the failure is exit. False otherwise: errors in another fiber, umkaCall after a failure (undefined behaviour), the report is overwritten."
  },
  {
   "property": "C47",
   "status": "partial",
   "theorems": [
    "Umka.Printf.Props.C47_success_iff_arguments_match",
    "Umka.Printf.Props.C47_mismatch_is_error",
    "Umka.Printf.Props.C47_undocumented_format_never_succeeds",
    "Umka.Printf.Props.C47_scanner_accepts_exactly_documented_partial",
    "Umka.Printf.Props.C47_literal_format_checked_at_compile_time",
    "Umka.Printf.Props.C47_undefined_only_by_hazard_partial",
    "Umka.Printf.Props.C47_percent_with_width_violated",
    "Umka.Printf.Props.C47_long_long_of_small_integer_violated",
    "Umka.Printf.Props.C47_value_with_width_and_length_violated"
   ],
   "note": "For every format and argument list: the exact success condition, the text written, mismatch is an error, compile-time and run-time checks agree. Violated in three corners where the C library is called outside its contract (percent sign with width, 64-bit conversion of a small integer, %v with length and width); all other calls are proved free of it."
  },
  {
   "property": "C52",
   "status": "proved",
   "theorems": [
    "Umka.Printf.Props.C52_repr_buffer_exact",
    "Umka.Printf.Props.C52_sprintf_exact",
    "Umka.Printf.Props.C52_sprintf_never_out_of_bounds"
   ],
   "note": "Both passes of the representation of every value, cyclic ones included, and the growing string of sprintf; lengths are unbounded numbers, the limits near INT_MAX are not modelled."
  },
  {
   "property": "C04",
   "status": "proved",
   "theorems": [
    "Umka.MapHeap.Props.C04_maps_are_objects",
    "Umka.MapHeap.Props.C04_copy_equal_and_independent",
    "Umka.MapHeap.Props.C04_copy_independent_any_comparison"
   ],
   "note": "Nodes in a memory with addresses, any allocator, any number of variables, any interleaving. The first two theorems need a lawful comparison of keys (see C01); the third does not. Items that are pointers are shared by a copy, as in the program."
  },
  {
   "property": "C50",
   "status": "partial",
   "theorems": [
    "Umka.ForIn.Props.C50_sequences_partial",
    "Umka.ForIn.Props.C50_maps",
    "Umka.ForIn.Props.C50_maps_error",
    "Umka.ForIn.Props.C50_visits_each_item_once",
    "Umka.ForIn.Props.C50_compiled_partial",
    "Umka.ForIn.Props.C50_maps_compiled",
    "Umka.ForIn.Props.C50_index_assigned_violated",
    "Umka.ForIn.Props.C50_never_ends_violated",
    "Umka.ForIn.Props.C50_shrinking_violated",
    "Umka.ForIn.Props.C50_long_string_violated",
    "Umka.ForIn.Props.C50_deleted_key_violated"
   ],
   "note": "Exact meaning of for...in over arrays, dynamic arrays, strings and maps with any body, down to compiled jumps. For sequences the body must not assign the index variable and strings must be shorter than 2 GiB; both are refuted without these conditions. Shrinking an array or deleting a later key inside the loop is shown to break the claim."
  },
  {
   "property": "C49",
   "status": "proved",
   "theorems": [
    "Umka.ListAsg.Props.C49_list_assignment",
    "Umka.ListAsg.Props.C49_each_variable",
    "Umka.ListAsg.Props.C49_errors",
    "Umka.ListAsg.Props.C49_declaration",
    "Umka.ListAsg.Props.C49_values_in_order_partial",
    "Umka.ListAsg.Props.C49_structure_copied_late_violated"
   ],
   "note": "Every list length, every overlap of designators, lists of expressions and calls that return lists, assignments and short declarations. The stronger reading (each expression keeps the value it had when it was evaluated) is proved for scalars or expressions without side effects and refuted for a structure followed by an expression that changes it."
  },
  {
   "property": "C48",
   "status": "partial",
   "theorems": [
    "Umka.Iface.Props.C48_value_round_trip",
    "Umka.Iface.Props.C48_value_overflow",
    "Umka.Iface.Props.C48_pointer_round_trip",
    "Umka.Iface.Props.C48_type_switch",
    "Umka.Iface.Props.C48_pointer_as_value_partial",
    "Umka.Iface.Props.C48_value_as_pointer_partial",
    "Umka.Iface.Props.C48_value_as_pointer_violated",
    "Umka.Iface.Props.C48_pointer_as_value_violated",
    "Umka.Iface.Props.C48_pointer_case_violated"
   ],
   "note": "For all chains of conversions and assignments between interfaces: the value comes back unchanged, conversion to another value type is an error and to another pointer type is null. False as stated for T and ^T, which an interface cannot tell apart: an int converted to any can be converted to ^int and the reverse, and in a type switch a ^int takes the case int. The _partial theorems say exactly what happens in these cases."
  },
  {
   "property": "C62",
   "status": "proved",
   "theorems": [
    "Umka.Iface.Props.C62_value",
    "Umka.Iface.Props.C62_pointer"
   ],
   "note": "For all types, methods and chains of conversions: the called method is declared for the type with that name, visible, and its signature agrees through a chain of compatible signatures (compatibility is not transitive, C39)."
  },
  {
   "property": "C63",
   "status": "partial",
   "theorems": [
    "Umka.Scanf.Props.C63_values_partial",
    "Umka.Scanf.Props.C63_writes_partial",
    "Umka.Scanf.Props.C63_literal",
    "Umka.Scanf.Props.C63_types",
    "Umka.Scanf.Props.C63_literal_types",
    "Umka.Scanf.Props.C63_count_violated",
    "Umka.Scanf.Props.C63_tail_violated",
    "Umka.Scanf.Props.C63_long_violated",
    "Umka.Scanf.Props.C63_width_violated",
    "Umka.Scanf.Props.C63_word_violated",
    "Umka.Scanf.Props.C63_literal_violated",
    "Umka.Scanf.Props.C63_range_violated",
    "Umka.Scanf.Props.C63_flags_violated",
    "Umka.Scanf.Props.C63_stop_violated"
   ],
   "note": "Proved for all texts of the form of the format (numbers, reals, characters, words, blanks, other text) with one C library call per value; the C function is modelled after the standard, strtod is a parameter. False as stated: the number returned is reduced by 1 for every call of the C function that meets the end of the input; %ld and %c with a width write beyond the variable; a word at the end of a string is followed by reading beyond it; text before %s is not compared; numbers out of range and flags are undefined behaviour; reading goes on after a failed conversion."
  },
  {
   "property": "C64",
   "status": "proved",
   "theorems": [
    "Umka.Expr.Props.C64_unambiguous",
    "Umka.Expr.Props.C64_accepted",
    "Umka.Expr.Props.C64_refused",
    "Umka.Expr.Props.C64_value"
   ],
   "note": "For ordinal and real types (as the quantifier says); a designator (variable, item, field, call) is one token and one instruction that reads and changes anything. Left out of the model: strings, pointers, structured types, closures and their conversions; the temporary variables of && etc. (Release) and the peephole optimizer (Peephole)."
  },
  {
   "property": "C65",
   "status": "proved",
   "theorems": [
    "Umka.Expr.Props.C65_and",
    "Umka.Expr.Props.C65_or",
    "Umka.Expr.Props.C65_ternary_true",
    "Umka.Expr.Props.C65_ternary_false"
   ],
   "note": "Same types as C64. Two environments that differ in the designators of the operand that is not needed give the same run."
  },
  {
   "property": "C66",
   "status": "partial",
   "theorems": [
    "Umka.Expr.Props.C66_value_partial",
    "Umka.Expr.Props.C66_and_violated",
    "Umka.Expr.Props.C66_or_violated",
    "Umka.Expr.Props.C66_ternary_violated"
   ],
   "note": "Proved, in both directions, for expressions in which no left operand of && or of the logical or decides. Violated otherwise: false && true is cut short after the false and the declaration refused, true || without a right operand is accepted (7 || too, with type int and value 1), and the part of ? : that is not needed must have a value."
  },
  {
   "property": "C67",
   "status": "proved",
   "theorems": [
    "Umka.Control.Props.C67_result",
    "Umka.Control.Props.C67_refused"
   ],
   "note": "C67_result: if compilation succeeds the only possible ending is a return statement, and the machine then returns to the caller. C67_refused: exactly when the check refuses a body."
  },
  {
   "property": "C68",
   "status": "proved",
   "theorems": [
    "Umka.Call.Props.C68_call",
    "Umka.Call.Props.C68_error"
   ],
   "note": "signatures as the compiler builds them; arguments arbitrary code that does not touch the memory the call uses"
  },
  {
   "property": "C69",
   "status": "partial",
   "theorems": [
    "Umka.Call.Props.C69_refused",
    "Umka.Call.Props.C69_accepted_partial",
    "Umka.Call.Props.C69_variadic_violated"
   ],
   "note": "false for functions with a structured result and a parameter ..T without argument; proved for all other calls"
  },
  {
   "property": "C70",
   "status": "proved",
   "theorems": [
    "Umka.Call.Props.C70_value",
    "Umka.Call.Props.C70_accepted",
    "Umka.Call.Props.C70_refused"
   ],
   "note": "expressions must not touch the memory of the literal itself, which no variable names"
  },
  {
   "property": "C71",
   "status": "partial",
   "theorems": [
    "Umka.Call.Props.C71_items_partial",
    "Umka.Call.Props.C71_scalar",
    "Umka.Call.Props.C71_empty",
    "Umka.Call.Props.C71_late_copy_violated"
   ],
   "note": "false for structured items if a later expression changes what an earlier one refers to; proved otherwise"
  },
  {
   "property": "C72",
   "status": "proved",
   "theorems": [
    "Umka.Call.Props.C72_creation",
    "Umka.Call.Props.C72_plain",
    "Umka.Call.Props.C72_call",
    "Umka.Call.Props.C72_accepted"
   ],
   "note": "that nothing else overwrites the copies in the heap is a hypothesis (no name refers to them; lifetime is in the heap areas)"
  },
  {
   "property": "C73",
   "status": "partial",
   "theorems": [
    "Umka.Desig.Props.C73_denotes_partial",
    "Umka.Desig.Props.C73_read",
    "Umka.Desig.Props.C73_address",
    "Umka.Desig.Props.C73_refused_partial",
    "Umka.Desig.Props.C73_pointer_results_violated"
   ],
   "note": "false for items and fields of weak pointers and of pointers to pointers that are results of functions; methods and interfaces are in other areas"
  },
  {
   "property": "C74",
   "status": "proved",
   "theorems": [
    "Umka.Desig.Props.C74_assignment",
    "Umka.Desig.Props.C74_errors",
    "Umka.Desig.Props.C74_fields_and_items"
   ],
   "note": ""
  },
  {
   "property": "C75",
   "status": "partial",
   "theorems": [
    "Umka.Desig.Props.C75_short_assignment",
    "Umka.Desig.Props.C75_equivalent",
    "Umka.Desig.Props.C75_increment_partial",
    "Umka.Desig.Props.C75_null_increment_violated"
   ],
   "note": "increments through null pointers are undefined behaviour"
  },
  {
   "property": "C76",
   "status": "partial",
   "theorems": [
    "Umka.Desig.Props.C76_accepted",
    "Umka.Desig.Props.C76_increment_partial",
    "Umka.Desig.Props.C76_increment_call_violated",
    "Umka.Desig.Props.C76_temporary_violated"
   ],
   "note": "`f()++` for pointer results and `f().x = e` are accepted"
  },
  {
   "property": "C77",
   "status": "partial",
   "theorems": [
    "Umka.TypeDecl.Props.C77_declared_type_is_as_written",
    "Umka.TypeDecl.Props.C77_used_type_is_as_written",
    "Umka.TypeDecl.Props.C77_types_stay",
    "Umka.TypeDecl.Props.C77_result_parameter_partial",
    "Umka.TypeDecl.Props.C77_result_parameter_violated"
   ],
   "note": "The meaning of declared types is proved in full. The hidden result parameter is as it should be if the names used for results before their declaration are declared structured; `type (P = ^B; F = fn (): B; B = int)` violates it."
  },
  {
   "property": "C78",
   "status": "partial",
   "theorems": [
    "Umka.TypeDecl.Props.C78_complete_and_sized",
    "Umka.TypeDecl.Props.C78_finite",
    "Umka.TypeDecl.Props.C78_references_marked",
    "Umka.TypeDecl.Props.C78_layout_partial",
    "Umka.TypeDecl.Props.C78_tidy",
    "Umka.TypeDecl.Props.C78_layout_violated",
    "Umka.TypeDecl.Props.C78_void_items_violated"
   ],
   "note": "Completeness, finiteness, marking and names in full; sizes in full except that arrays of no items of a type declared later have alignment 0 and cannot be used for fields (violated); items can be void if declared later (violated)."
  },
  {
   "property": "C79",
   "status": "partial",
   "theorems": [
    "Umka.TypeDecl.Props.C79_declared_before_partial",
    "Umka.TypeDecl.Props.C79_elsewhere_declared_before",
    "Umka.TypeDecl.Props.C79_in_order_accepted_partial",
    "Umka.TypeDecl.Props.C79_elsewhere_accepted",
    "Umka.TypeDecl.Props.C79_late_result_violated",
    "Umka.TypeDecl.Props.C79_late_key_violated",
    "Umka.TypeDecl.Props.C79_early_use_violated"
   ],
   "note": "Both directions, with what the compiler does differently: scalar results and keys that mention later types are refused, `[0]B` and `C = B` are accepted early."
  },
  {
   "property": "C80",
   "status": "partial",
   "theorems": [
    "Umka.TypeDecl.Props.C80_redeclaration_refused",
    "Umka.TypeDecl.Props.C80_declaration_stays",
    "Umka.TypeDecl.Props.C80_blocks",
    "Umka.TypeDecl.Props.C80_twice_in_list_partial",
    "Umka.TypeDecl.Props.C80_twice_in_list_violated"
   ],
   "note": "Within a list, a name whose first declaration is by a not yet declared name can be declared again (violated)."
  },
  {
   "property": "C81",
   "status": "partial",
   "theorems": [
    "Umka.Conv.Props.C81_implicit_partial",
    "Umka.Conv.Props.C81_constant",
    "Umka.Conv.Props.C81_enum_violated"
   ],
   "note": "For all pairs of types, except enumerations mixed with integers or other enumerations where one base type is uint and the other one is signed: the check for uint looks at the base types only, so an int is accepted as an enumeration with the base type uint (C81_enum_violated)."
  },
  {
   "property": "C82",
   "status": "partial",
   "theorems": [
    "Umka.Conv.Props.C82_cast_partial",
    "Umka.Conv.Props.C82_constant",
    "Umka.Conv.Props.C82_endless_violated",
    "Umka.Conv.Props.C82_equivalent_violated",
    "Umka.Conv.Props.C82_constant_violated",
    "Umka.Conv.Props.C82_bytes_violated"
   ],
   "note": "For all types unless dynamic arrays contain themselves in both types, or there are dynamic arrays of enumerations with the base type uint8. Casts between dynamic arrays that contain themselves never end, a cast of a constant dynamic array to an equivalent type is refused, arrays of enumeration constants can be cast to strings."
  },
  {
   "property": "C83",
   "status": "proved",
   "theorems": [
    "Umka.Conv.Props.C83_items",
    "Umka.Conv.Props.C83_items_error",
    "Umka.Conv.Props.C83_same",
    "Umka.Conv.Props.C83_lists",
    "Umka.Conv.Props.C83_lists_error"
   ],
   "note": "For all arrays, lists, types and conversions of items."
  },
  {
   "property": "C84",
   "status": "proved",
   "theorems": [
    "Umka.Conv.Props.C84_accepted",
    "Umka.Conv.Props.C84_order",
    "Umka.Conv.Props.C84_type",
    "Umka.Conv.Props.C84_consequences",
    "Umka.Conv.Props.C84_sides",
    "Umka.Conv.Props.C84_short"
   ],
   "note": "For all pairs of types and all binary operators."
  },
  {
   "property": "C85",
   "status": "proved",
   "theorems": [
    "Umka.ResultCopy.Props.C85_handed_over",
    "Umka.ResultCopy.Props.C85_kept",
    "Umka.ResultCopy.Props.C85_no_failure",
    "Umka.ResultCopy.Props.C85_used",
    "Umka.ResultCopy.Props.C85_leave",
    "Umka.ResultCopy.Props.C85_copy_effect"
   ],
   "note": ""
  },
  {
   "property": "C86",
   "status": "proved",
   "theorems": [
    "Umka.Static.Props.C86_initial",
    "Umka.Static.Props.C86_apart",
    "Umka.Static.Props.C86_apart_defaults"
   ],
   "note": "integers, characters, strings, arrays, dynamic arrays and structures"
  },
  {
   "property": "C87",
   "status": "partial",
   "theorems": [
    "Umka.Static.Props.C87_append_violated",
    "Umka.Static.Props.C87_variadic_violated",
    "Umka.Static.Props.C87_item_violated",
    "Umka.Static.Props.C87_default_partial"
   ],
   "note": "false for dynamic arrays; proved for all other types"
  },
  {
   "property": "C88",
   "status": "partial",
   "theorems": [
    "Umka.Trace.Props.C88_location_partial",
    "Umka.Trace.Props.C88_lines",
    "Umka.Trace.Props.C88_functions",
    "Umka.Trace.Props.C88_ranges",
    "Umka.Trace.Props.C88_calls",
    "Umka.Trace.Props.C88_same_code",
    "Umka.Trace.Props.C88_entry_line_violated",
    "Umka.Trace.Props.C88_external_violated"
   ],
   "note": "file, function and a line of the function proved for all instructions, the line of the last token before for those that can fail; the line of the very statement is false on entry to a function (closing brace) and for external functions"
  },
  {
   "property": "C89",
   "status": "partial",
   "theorems": [
    "Umka.Trace.Props.C89_callers_partial",
    "Umka.Trace.Props.C89_locations_partial",
    "Umka.Trace.Props.C89_line_violated",
    "Umka.Trace.Props.C89_overflow_violated"
   ],
   "note": "calls and functions proved while the body of a function runs; the line is that after the call, and the caller is missing while a frame is set up"
  },
  {
   "property": "C90",
   "status": "partial",
   "theorems": [
    "Umka.Syntax.Props.C90_accepted_exactly_partial",
    "Umka.Syntax.Props.C90_rules_as_documented_partial",
    "Umka.Syntax.Props.C90_documented_modules_violated",
    "Umka.Syntax.Props.C90_accepted_modules_violated"
   ],
   "note": "The parser functions of umka_decl.c and umka_stmt.c are modelled over tokens, with an expression or a designator as one token. For every token sequence, the module is accepted iff it is derived from a grammar that differs from the documented one in 24 rules. The documented grammar itself is violated in both directions: eleven documented modules that are rejected, seven accepted modules that are not documented."
  },
  {
   "property": "C91",
   "status": "partial",
   "theorems": [
    "Umka.Files.Props.C91_open",
    "Umka.Files.Props.C91_new_file",
    "Umka.Files.Props.C91_write_partial",
    "Umka.Files.Props.C91_write_full",
    "Umka.Files.Props.C91_read_partial",
    "Umka.Files.Props.C91_denied",
    "Umka.Files.Props.C91_pointers",
    "Umka.Files.Props.C91_remove",
    "Umka.Files.Props.C91_round_trip_partial",
    "Umka.Files.Props.C91_pieces",
    "Umka.Files.Props.C91_freadall_partial",
    "Umka.Files.Props.C91_seek_partial",
    "Umka.Files.Props.C91_tell",
    "Umka.Files.Props.C91_seek_violated",
    "Umka.Files.Props.C91_feof_violated"
   ],
   "note": "False for offsets of fseek that do not fit 32 bits, and for feof as documented. Files longer than 2147483392 bytes are not read by freadall. A read right after a write on the same stream and the reverse are undefined in C and excluded. The C library is modelled after the C standard."
  },
  {
   "property": "C92",
   "status": "partial",
   "theorems": [
    "Umka.Files.Props.C92_null",
    "Umka.Files.Props.C92_closed",
    "Umka.Files.Props.C92_close",
    "Umka.Files.Props.C92_no_ub_partial",
    "Umka.Files.Props.C92_no_leak",
    "Umka.Files.Props.C92_fresh",
    "Umka.Files.Props.C92_std_violated",
    "Umka.Files.Props.C92_null_name_violated",
    "Umka.Files.Props.C92_direction_violated"
   ],
   "note": "All sequences of operations. Excluded, and shown to be undefined: a closed standard stream used again, a null file name, reading right after writing."
  },
  {
   "property": "C93",
   "status": "partial",
   "theorems": [
    "Umka.Files.Props.C93_bytes_partial",
    "Umka.Files.Props.C93_copy_partial",
    "Umka.Files.Props.C93_pointers",
    "Umka.Files.Props.C93_empty_violated"
   ],
   "note": "False for variables of size zero."
  },
  {
   "property": "C94",
   "status": "partial",
   "theorems": [
    "Umka.Convert.Props.C94_itoa",
    "Umka.Convert.Props.C94_ftoa",
    "Umka.Convert.Props.C94_atoi_partial",
    "Umka.Convert.Props.C94_atoi_null",
    "Umka.Convert.Props.C94_round_trip",
    "Umka.Convert.Props.C94_range_violated",
    "Umka.Convert.Props.C94_atof",
    "Umka.Convert.Props.C94_atof_null"
   ],
   "note": "Violated as stated: a number at the beginning of the string that int cannot hold makes atoi undefined behaviour, because sscanf of C is (C11 7.21.6.2p10). Everything else is proved, over the models of printf and scanf (areas Printf and Scanf). The text of a real is whatever printf of C makes of it and the real read is whatever sscanf of C finds; both are parameters of the model."
  },
  {
   "property": "C95",
   "status": "proved",
   "theorems": [
    "Umka.Warn.Props.C95_unused",
    "Umka.Warn.Props.C95_shadowed"
   ],
   "note": "On the model of names and blocks (area Scope). A declaration that completes a type or function declared ahead has no report of its own: the report concerns the declaration ahead (hypothesis New). Declarations have distinct places."
  },
  {
   "property": "C96",
   "status": "partial",
   "theorems": [
    "Umka.Asm.Props.C96_listing_partial",
    "Umka.Asm.Props.C96_lost",
    "Umka.Asm.Props.C96_last_violated"
   ],
   "note": "The listing is complete and free of undefined behaviour for every program, except that the last end of line is never returned: the second pass is given the length without the terminating zero (C96_last_violated)."
  },
  {
   "property": "C97",
   "status": "partial",
   "theorems": [
    "Umka.GetFunc.Props.C97_found_partial",
    "Umka.GetFunc.Props.C97_main",
    "Umka.GetFunc.Props.C97_spelling",
    "Umka.GetFunc.Props.C97_defined",
    "Umka.GetFunc.Props.C97_path_violated",
    "Umka.GetFunc.Props.C97_indirect_violated"
   ],
   "note": "Exact for the main module and for exported functions of modules that it imports. Violated: exported functions of modules imported only indirectly are not found; a module path above the root jumps to a stale jump buffer."
  },
  {
   "property": "C98",
   "status": "partial",
   "theorems": [
    "Umka.Spell.Props.C98_cut_partial",
    "Umka.Spell.Props.C98_short",
    "Umka.Spell.Props.C98_overflow",
    "Umka.Spell.Props.C98_bounded",
    "Umka.Spell.Props.C98_overflow_violated"
   ],
   "note": "Exact for all types: which spellings are shown in full, which are cut and which overflow. Violated: the spelling of a pointer or dynamic array whose base has a spelling of 250 to 255 characters writes behind the end of the buffer on the stack."
  },
  {
   "property": "C99",
   "status": "partial",
   "theorems": [
    "Umka.Hooks.Props.C99_nested_partial",
    "Umka.Hooks.Props.C99_fresh",
    "Umka.Hooks.Props.C99_done",
    "Umka.Hooks.Props.C99_reports",
    "Umka.Hooks.Props.C99_fibers_violated"
   ],
   "note": "Proved for each fiber by itself. False of all fibers together: reports do not tell the fiber they come from, and a main function may return while a fiber is suspended. Missing: the returns of functions that an error, or exit(), leaves are never reported; hooks that are changed during the execution; the claim that every entry of a frame lies in a function of the table is a hypothesis of C99_reports."
  },
  {
   "property": "C100",
   "status": "partial",
   "theorems": [
    "Umka.Cmd.Props.C100_usage",
    "Umka.Cmd.Props.C100_only",
    "Umka.Cmd.Props.C100_refused",
    "Umka.Cmd.Props.C100_script",
    "Umka.Cmd.Props.C100_runs",
    "Umka.Cmd.Props.C100_exit_partial",
    "Umka.Cmd.Props.C100_messages",
    "Umka.Cmd.Props.C100_steps",
    "Umka.Cmd.Props.C100_exit_violated",
    "Umka.Cmd.Props.C100_stack_violated",
    "Umka.Cmd.Props.C100_unknown_violated"
   ],
   "note": "Proved for all command lines as the usage text describes them, and for exit codes from 0 to 255. False: exit codes beyond 255 lose their high bits, so exit(256) is success for the shell and exit(4294967296) for the host; stack sizes out of the range of int, or followed by other characters, are taken for other sizes; misspelled parameters are taken for the file name."
  },
  {
   "property": "C101",
   "status": "partial",
   "theorems": [
    "Umka.ArrRef.Props.C101_exact",
    "Umka.ArrRef.Props.C101_safe",
    "Umka.ArrRef.Props.C101_freed",
    "Umka.ArrRef.Props.C101_no_leak",
    "Umka.ArrRef.Props.C101_result_partial",
    "Umka.ArrRef.Props.C101_insert_violated",
    "Umka.ArrRef.Props.C101_cycle_violated"
   ],
   "note": "Counts, safety and freeing are proved for all sequences of operations. The result is proved except for insertion of a structured item given by its place in the same chunk after the place where it goes, where it is false (witness proved). Arrays that contain themselves are never freed (witness proved)."
  },
  {
   "property": "C102",
   "status": "partial",
   "theorems": [
    "Umka.Builtin.Props.C102_accepts_partial",
    "Umka.Builtin.Props.C102_balanced",
    "Umka.Builtin.Props.C102_const_partial",
    "Umka.Builtin.Props.C102_sizeof_const_violated",
    "Umka.Builtin.Props.C102_sizeof_type_violated"
   ],
   "note": "Calls are accepted exactly by the documented signatures, with the documented types; their code is balanced; constant calls are exactly the listed ones. Two parts are false of the code: sizeof of an expression in a constant expression takes a value from the stack, and sizeof of a type that is not a plain name is refused."
  },
  {
   "property": "C103",
   "status": "partial",
   "theorems": [
    "Umka.Shutdown.Props.C103_shutdown_partial",
    "Umka.Shutdown.Props.C103_leaks_partial",
    "Umka.Shutdown.Props.C103_double_free_violated",
    "Umka.Shutdown.Props.C103_use_after_free_violated"
   ],
   "note": "Proved for all heaps if deallocators do not use the heap. False of the code otherwise: a deallocator that calls umkaDecRef during umkaFree can make a page be given back twice or used after it has been given back."
  },
  {
   "property": "C104",
   "status": "partial",
   "theorems": [
    "Umka.Geom.Props.C104_vectors",
    "Umka.Geom.Props.C104_normalized",
    "Umka.Geom.Props.C104_matrices",
    "Umka.Geom.Props.C104_rate",
    "Umka.Geom.Props.C104_attitude",
    "Umka.Geom.Props.C104_angles",
    "Umka.Geom.Props.C104_angles_of_rotation",
    "Umka.Geom.Props.C104_orthogonalized_partial",
    "Umka.Geom.Props.C104_orthogonalized_violated"
   ],
   "note": "All parts are proved over the real numbers (rounding is not modelled), except that normalize of a matrix is one step towards orthogonality: it keeps orthogonal matrices and squares small errors, but can lead away from orthogonality."
  },
  {
   "property": "C105",
   "status": "partial",
   "theorems": [
    "Umka.Self.Props.C105_value",
    "Umka.Self.Props.C105_pointer",
    "Umka.Self.Props.C105_types",
    "Umka.Self.Props.C105_untouched",
    "Umka.Self.Props.C105_null",
    "Umka.Self.Props.C105_hasptr_violated",
    "Umka.Self.Props.C105_valid_violated"
   ],
   "note": "Proved for all values and pointers and all chains of conversions. selfhasptr differs from its documentation for arrays without items and for maps, and valid is false for a fiber that has finished, although it has been initialized (witnesses proved). That arrays and maps become valid when they are made is not proved here."
  },
  {
   "property": "C106",
   "status": "partial",
   "theorems": [
    "Umka.HostArgs.Props.C106_param_type",
    "Umka.HostArgs.Props.C106_result_type",
    "Umka.HostArgs.Props.C106_slots_partial",
    "Umka.HostArgs.Props.C106_block_partial",
    "Umka.HostArgs.Props.C106_onfree",
    "Umka.HostArgs.Props.C106_onfree_chunk_partial",
    "Umka.HostArgs.Props.C106_onfree_chunk_violated",
    "Umka.HostArgs.Props.C106_onfree_upvalue_violated"
   ],
   "note": "Types are proved for all declarations; slots for parameters of less than 2 GiB in total (beyond that int overflows, see C31). Functions called when a chunk is freed share one static slot: one that frees another chunk with such a function and looks at its parameter only then finds the other chunk (witness proved). Methods are not modelled."
  },
  {
   "property": "C107",
   "status": "proved",
   "theorems": [
    "Umka.TypeQuery.Props.C107_queries",
    "Umka.TypeQuery.Props.C107_struct"
   ],
   "note": "For all sequences of declarations of pointer, array, dynamic array, map and structure types. Types declared ahead are in the area TypeDecl; limits on sizes are in the area Layout."
  },
  {
   "property": "C108",
   "status": "proved",
   "theorems": [
    "Umka.HostStr.Props.C108_make",
    "Umka.HostStr.Props.C108_safe",
    "Umka.HostStr.Props.C108_null",
    "Umka.HostStr.Props.C108_as_program"
   ],
   "note": "On the model of strings (area Str). Reference counts of the new strings are not part of it."
  },
  {
   "property": "C109",
   "status": "proved",
   "theorems": [
    "Umka.HostArr.Props.C109_contents",
    "Umka.HostArr.Props.C109_as_program",
    "Umka.HostArr.Props.C109_refused"
   ],
   "note": "On the storage of DynArr; reference counts are left out."
  }
 ]
}