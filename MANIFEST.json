{
 "claims": [
  {
   "property": "C01",
   "status": "proved",
   "theorems": [
    "Efp.Props.C01_vector_refines_list"
   ],
   "note": "All sessions (default or value construction, any history) on trivial elements."
  },
  {
   "property": "C02",
   "status": "proved",
   "theorems": [
    "Efp.Props.C02_vector_spare_slot"
   ],
   "note": ""
  },
  {
   "property": "C03",
   "status": "proved",
   "theorems": [
    "Efp.Props.C03_vector_managed_lifetimes"
   ],
   "note": "Ledger balance plus destructor, for every end-only history."
  },
  {
   "property": "C04",
   "status": "partial",
   "theorems": [
    "Efp.Props.C04_insert_middle_managed_undefined",
    "Efp.Props.C04_erase_middle_managed_undefined",
    "Efp.Props.C04_insert_erase_partial"
   ],
   "note": "Property is false of the code: refuted for every reachable vector and every middle index; the end case holds."
  },
  {
   "property": "C05",
   "status": "partial",
   "theorems": [
    "Efp.Props.C05_copy_assign_result",
    "Efp.Props.C05_copy_assign_partial",
    "Efp.Props.C05_copy_assign_refuted",
    "Efp.Props.C05_copy_assign_managed_undefined"
   ],
   "note": "Property is false of the code: exact result characterised, iff condition for correctness, witness, and undefined behaviour for resource-owning elements."
  },
  {
   "property": "C06",
   "status": "partial",
   "theorems": [
    "Efp.Props.C06_copy_ctor_partial",
    "Efp.Props.C06_copy_of_default_undefined"
   ],
   "note": "Holds exactly for sources that own a block; refuted for never-allocated sources."
  },
  {
   "property": "C07",
   "status": "proved",
   "theorems": [
    "Efp.Props.C07_vector_throw_unchanged",
    "Efp.Props.C07_arrvec_throw_unchanged"
   ],
   "note": "Every state and call, Vector and ArrVec."
  },
  {
   "property": "C08",
   "status": "proved",
   "theorems": [
    "Efp.Props.C08_push_back_amortised"
   ],
   "note": ""
  },
  {
   "property": "C09",
   "status": "proved",
   "theorems": [
    "Efp.Props.C09_move_ctor",
    "Efp.Props.C09_move_assign",
    "Efp.Props.C09_move_assign_self"
   ],
   "note": ""
  },
  {
   "property": "C10",
   "status": "proved",
   "theorems": [
    "Efp.Props.C10_arrvec_refines_bounded_list"
   ],
   "note": "All programs over any number of ArrVec variables, including copies, assignments, moves."
  },
  {
   "property": "C11",
   "status": "proved",
   "theorems": [
    "Efp.Props.C11_arrvec_managed_lifetimes",
    "Efp.Props.C11_resize_shrink_leaks"
   ],
   "note": "All programs without moves and resize; resize shrink shown to leak."
  },
  {
   "property": "C12",
   "status": "partial",
   "theorems": [
    "Efp.Props.C12_arrvec_move_partial",
    "Efp.Props.C12_arrvec_move_leaks"
   ],
   "note": "Contents part holds; the lifetime part is false for resource-owning elements (leak count proved)."
  },
  {
   "property": "C13",
   "status": "partial",
   "theorems": [
    "Efp.Props.C13_widen_full_partial",
    "Efp.Props.C13_widen_not_full_refuted"
   ],
   "note": "Holds for full sources only; refuted for every partially filled source."
  },
  {
   "property": "C14",
   "status": "proved",
   "theorems": [
    "Efp.Props.C14_array_fixed_size_value",
    "Efp.Props.C14_array_element_access"
   ],
   "note": "All programs over any number of Array variables."
  },
  {
   "property": "C15",
   "status": "proved",
   "theorems": [
    "Efp.Props.C15_vector_eq_extensional",
    "Efp.Props.C15_vector_eq_iff_contents",
    "Efp.Props.C15_arrvec_eq_extensional",
    "Efp.Props.C15_array_eq_extensional",
    "Efp.Props.C15_array_eq_iff_contents",
    "Efp.Props.C15_vector_equivalence",
    "Efp.Props.C15_arrvec_equivalence",
    "Efp.Props.C15_array_equivalence"
   ],
   "note": ""
  },
  {
   "property": "C16",
   "status": "partial",
   "theorems": [
    "Efp.Props.C16_distinct_sequences_never_equal",
    "Efp.Props.C16_equal_views_same_contents_partial",
    "Efp.Props.C16_converted_views_uninitialised"
   ],
   "note": "False: view equality compares addresses, so views of distinct storage never compare equal whatever their contents (proved). Proved part: equal views show the same contents. StringView is modelled with the strings."
  },
  {
   "property": "C17",
   "status": "partial",
   "theorems": [
    "Efp.Props.C17_push_own_element",
    "Efp.Props.C17_push_own_element_partial"
   ],
   "note": "False when the push reallocates; exact condition proved."
  },
  {
   "property": "C18",
   "status": "proved",
   "theorems": [
    "Efp.Props.C18_history",
    "Efp.Props.C18_plus",
    "Efp.Props.C18_substr",
    "Efp.Props.C18_copy"
   ],
   "note": ""
  },
  {
   "property": "C19",
   "status": "partial",
   "theorems": [
    "Efp.Props.C19_c_str_partial",
    "Efp.Props.C19_default_ub",
    "Efp.Props.C19_fill_ub",
    "Efp.Props.C19_insert_ub"
   ],
   "note": "False: c_str() writes through null for String(), and behind the block for String(n, c) and after insert(pos, cstr) fills the block (all proved, the latter two for every argument). Proved part: all other histories."
  },
  {
   "property": "C20",
   "status": "partial",
   "theorems": [
    "Efp.Props.C20_compare_partial",
    "Efp.Props.C20_prefix_equal",
    "Efp.Props.C20_prefix_ub",
    "Efp.Props.C20_compare_pos_partial"
   ],
   "note": "False when one string is a proper prefix of the other: equal, or a read of an unwritten character (proved for all such pairs). Right for all other pairs."
  },
  {
   "property": "C21",
   "status": "partial",
   "theorems": [
    "Efp.Props.C21_self_append_empty_partial",
    "Efp.Props.C21_self_append_ub"
   ],
   "note": "False for every non-empty string: the loop never ends normally and reads through a dangling reference (proved)."
  },
  {
   "property": "C22",
   "status": "partial",
   "theorems": [
    "Efp.Props.C22_eq_cstr_partial",
    "Efp.Props.C22_default_wrong"
   ],
   "note": "False only for strings without storage: String() == \"\" is false (proved)."
  },
  {
   "property": "C23",
   "status": "proved",
   "theorems": [
    "Efp.Props.C23_window",
    "Efp.Props.C23_lastN_meaning"
   ],
   "note": ""
  },
  {
   "property": "C24",
   "status": "partial",
   "theorems": [
    "Efp.Props.C24_write_persists_partial",
    "Efp.Props.C24_write_lost"
   ],
   "note": "False: v[i] = x reaches only one of the two mirrors, so a value written behind the wrap of the buffer is lost when the buffer wraps (proved, for every such history). The exact condition under which it persists is proved."
  },
  {
   "property": "C25",
   "status": "proved",
   "theorems": [
    "Efp.Props.C25_fifo",
    "Efp.Props.C25_pop_empty",
    "Efp.Props.C25_fifo_drops"
   ],
   "note": ""
  },
  {
   "property": "C26",
   "status": "partial",
   "theorems": [
    "Efp.Props.C26_copy_partial",
    "Efp.Props.C26_copy_assign_partial",
    "Efp.Props.C26_move_trivial_partial",
    "Efp.Props.C26_copy_rotated",
    "Efp.Props.C26_copy_wrong",
    "Efp.Props.C26_copy_ub",
    "Efp.Props.C26_move_ub",
    "Efp.Props.C26_move_assign_trivial_partial",
    "Efp.Props.C26_move_assign_ub",
    "Efp.Props.C26_self_assign_partial",
    "Efp.Props.C26_self_assign_wrong",
    "Efp.Props.C26_self_assign_ub"
   ],
   "note": "False: copies read source slots from 0 instead of from the front, so a queue whose front has moved is copied rotated, or reads elements that do not exist; moves move every element out twice; q = q destroys its elements first, and overwrites elements it has yet to read (all proved). Proved part: queues whose front is at slot 0."
  },
  {
   "property": "C27",
   "status": "partial",
   "theorems": [
    "Efp.Props.C27_iterate_partial",
    "Efp.Props.C27_empty_range",
    "Efp.Props.C27_empty_ub"
   ],
   "note": "False for the empty queue, whose begin() and end() are n apart (proved); right for every non-empty queue."
  },
  {
   "property": "C28",
   "status": "proved",
   "theorems": [
    "Efp.Props.C28_lifetimes",
    "Efp.Props.C28_live_slots"
   ],
   "note": ""
  },
  {
   "property": "C29",
   "status": "proved",
   "theorems": [
    "Efp.Props.C29_blocking_fifo",
    "Efp.Props.C29_blocking_linearizable",
    "Efp.Props.C29_blocking_calls"
   ],
   "note": "Any number of threads, any client program, any schedule, spurious wake-ups. Element copies do not throw."
  },
  {
   "property": "C30",
   "status": "proved",
   "theorems": [
    "Efp.Props.C30_bounded_blocking",
    "Efp.Props.C30_no_loss",
    "Efp.Props.C30_lost_only_behind_n_more"
   ],
   "note": "Over the Vcq model of cyclic.hpp, trivial and resource-owning elements."
  },
  {
   "property": "C31",
   "status": "proved",
   "theorems": [
    "Efp.Props.C31_exclusive",
    "Efp.Props.C31_exclusive_bounded",
    "Efp.Props.C31_accesses_complete",
    "Efp.Props.C31_queue_unchanged"
   ],
   "note": "Also: statements not counted as accesses of the queue neither depend on it nor change it."
  },
  {
   "property": "C32",
   "status": "proved",
   "theorems": [
    "Efp.Props.C32_no_lost_wakeup",
    "Efp.Props.C32_no_lost_wakeup_bounded",
    "Efp.Props.C32_progress",
    "Efp.Props.C32_progress_bounded"
   ],
   "note": ""
  },
  {
   "property": "C33",
   "status": "proved",
   "theorems": [
    "Efp.Props.C33_nonblocking",
    "Efp.Props.C33_nonblocking_bounded",
    "Efp.Props.C33_lost_only_behind_n_more",
    "Efp.Props.C33_nonblocking_calls",
    "Efp.Props.C33_nonblocking_progress",
    "Efp.Props.C33_nonblocking_progress_bounded"
   ],
   "note": "The unlocked read of is_empty is taken as one atomic step here; that it is a data race is C78."
  },
  {
   "property": "C34",
   "status": "partial",
   "theorems": [
    "Efp.Props.C34_double_buffer",
    "Efp.Props.C34_order_partial",
    "Efp.Props.C34_progress",
    "Efp.Props.C34_out_of_order",
    "Efp.Props.C34_two_consumers_race",
    "Efp.Props.C34_dequeue_empty_ub",
    "Efp.Props.C34_accesses_complete",
    "Efp.Props.C34_writes_complete"
   ],
   "note": "False as stated: swapping before the read buffer is drained reorders elements (proved with a schedule). Proved: accounting (no loss without overflow), absence of races and linearizability for one consumer; order if the consumer drains before it swaps. The accesses counted are all there are."
  },
  {
   "property": "C35",
   "status": "proved",
   "theorems": [
    "Efp.Props.C35_sorts_permute",
    "Efp.Props.C35_range_sorts_permute"
   ],
   "note": "Every comparator function, trivial and managed elements; no UB, termination, permutation; elements outside a range untouched."
  },
  {
   "property": "C36",
   "status": "proved",
   "theorems": [
    "Efp.Props.C36_quicksort_sorts",
    "Efp.Props.C36_quicksort_range_sorts",
    "Efp.Props.C36_quicksort_under_partial_order"
   ],
   "note": "Whole vector and range form; a strict partial order is shown to be enough."
  },
  {
   "property": "C37",
   "status": "proved",
   "theorems": [
    "Efp.Props.C37_heapsort_sorts"
   ],
   "note": ""
  },
  {
   "property": "C38",
   "status": "proved",
   "theorems": [
    "Efp.Props.C38_insertion_sort_sorts_stably"
   ],
   "note": ""
  },
  {
   "property": "C39",
   "status": "partial",
   "theorems": [
    "Efp.Props.C39_merge_sort_sorts_range_partial",
    "Efp.Props.C39_merge_sort_reverses_equivalents",
    "Efp.Props.C39_merge_sort_unstable",
    "Efp.Props.C39_merge_sort_stable_for_le"
   ],
   "note": "Sorting and range-locality proved. Stability is false for strict orders: equivalent elements come out exactly reversed (proved); it holds for <=-like comparators (proved)."
  },
  {
   "property": "C40",
   "status": "proved",
   "theorems": [
    "Efp.Props.C40_sort_unstable_sorts",
    "Efp.Props.C40_sort_unstable_under_partial_order"
   ],
   "note": "A strict partial order is shown to be enough."
  },
  {
   "property": "C41",
   "status": "partial",
   "theorems": [
    "Efp.Props.C41_sort_small_partial",
    "Efp.Props.C41_sort_sorted_partial",
    "Efp.Props.C41_sort_fails",
    "Efp.Props.C41_sort_two_runs",
    "Efp.Props.C41_sort_iff"
   ],
   "note": "False for every length over 32 (inverted early-exit test in timsort_merge). Exact for every vector: the result is a rearrangement, and is sorted (and then stable) if and only if no element is greater than one in a later block of 32."
  },
  {
   "property": "C42",
   "status": "proved",
   "theorems": [
    "Efp.Props.C42_map",
    "Efp.Props.C42_map_with_index",
    "Efp.Props.C42_map_pure",
    "Efp.Props.C42_map_calls",
    "Efp.Props.C42_map_id",
    "Efp.Props.C42_map_map"
   ],
   "note": "Effectful and throwing client functions included."
  },
  {
   "property": "C43",
   "status": "proved",
   "theorems": [
    "Efp.Props.C43_filter",
    "Efp.Props.C43_filter_pure"
   ],
   "note": ""
  },
  {
   "property": "C44",
   "status": "proved",
   "theorems": [
    "Efp.Props.C44_folds",
    "Efp.Props.C44_folds_pure"
   ],
   "note": ""
  },
  {
   "property": "C45",
   "status": "partial",
   "theorems": [
    "Efp.Props.C45_append_left_to_right_partial",
    "Efp.Props.C45_append_any_order",
    "Efp.Props.C45_append_order_dependent"
   ],
   "note": "False in general: the per-argument appends are function arguments, whose evaluation order is unspecified. Proved for left-to-right evaluation; for any order the result is the concatenation in that order; a two-argument witness shows the orders differ."
  },
  {
   "property": "C46",
   "status": "partial",
   "theorems": [
    "Efp.Props.C46_concat",
    "Efp.Props.C46_intercalate_partial",
    "Efp.Props.C46_intercalate_static_empty"
   ],
   "note": "concat in full; intercalate except for an empty list of static size, where the result type underflows and the result is not empty (proved)."
  },
  {
   "property": "C47",
   "status": "proved",
   "theorems": [
    "Efp.Props.C47_from_function",
    "Efp.Props.C47_from_function_pure"
   ],
   "note": ""
  },
  {
   "property": "C48",
   "status": "proved",
   "theorems": [
    "Efp.Props.C48_take_drop",
    "Efp.Props.C48_types",
    "Efp.Props.C48_unsafe",
    "Efp.Props.C48_converted"
   ],
   "note": ""
  },
  {
   "property": "C49",
   "status": "partial",
   "theorems": [
    "Efp.Props.C49_slice_in_range_partial",
    "Efp.Props.C49_slice_static_partial",
    "Efp.Props.C49_slice_overruns",
    "Efp.Props.C49_slice_reversed",
    "Efp.Props.C49_slice_static_reversed"
   ],
   "note": "False: slice does not clamp run-time bounds and reversed bounds wrap (proved); in-range bounds and static bounds on arrays are right."
  },
  {
   "property": "C50",
   "status": "proved",
   "theorems": [
    "Efp.Props.C50_nonempty",
    "Efp.Props.C50_empty",
    "Efp.Props.C50_guard"
   ],
   "note": ""
  },
  {
   "property": "C51",
   "status": "proved",
   "theorems": [
    "Efp.Props.C51_find",
    "Efp.Props.C51_find_pure",
    "Efp.Props.C51_elem",
    "Efp.Props.C51_find_indices",
    "Efp.Props.C51_find_indices_pure",
    "Efp.Props.C51_elem_indices"
   ],
   "note": ""
  },
  {
   "property": "C52",
   "status": "proved",
   "theorems": [
    "Efp.Props.C52_cartesian_for_each",
    "Efp.Props.C52_cartesian_for_index",
    "Efp.Props.C52_cartesian_map",
    "Efp.Props.C52_cartesian_map_pure",
    "Efp.Props.combos_mem",
    "Efp.Props.combos_count",
    "Efp.Props.combos_lex",
    "Efp.Props.combos_indices"
   ],
   "note": "The combos_* theorems show that the specification list contains exactly the combinations, with the product length, ordered lexicographically by index tuple."
  },
  {
   "property": "C53",
   "status": "proved",
   "theorems": [
    "Efp.Props.C53_for_each",
    "Efp.Props.C53_for_each_mut",
    "Efp.Props.C53_for_each_with_index_mut",
    "Efp.Props.C53_for_each_mut_one",
    "Efp.Props.C53_for_each_with_index_mut_throw",
    "Efp.Props.C53_for_each_mut_throw"
   ],
   "note": ""
  },
  {
   "property": "C54",
   "status": "proved",
   "theorems": [
    "Efp.Props.C54_result_types_suffice",
    "Efp.Props.C54_intercalate",
    "Efp.Props.C54_no_capacity_error",
    "Efp.Props.C54_intercalate_no_capacity_error"
   ],
   "note": ""
  },
  {
   "property": "C55",
   "status": "partial",
   "theorems": [
    "Efp.Props.C55_static_results_partial",
    "Efp.Props.C55_dynamic_results_assign_to_raw"
   ],
   "note": "False for ArrVec and Vector results: every call producing an element assigns to raw storage (proved). Holds for Array results."
  },
  {
   "property": "C56",
   "status": "partial",
   "theorems": [
    "Efp.Props.C56_match_partial",
    "Efp.Props.C56_well_written_compiles",
    "Efp.Props.C56_limit"
   ],
   "note": "False beyond 128 alternatives: with 129 to 256 alternatives (256 are documented) no Enum operation can be instantiated (proved). Proved for 1 to 128 alternatives, every branch list over typed parameters and a wild card; generic lambdas are not modelled."
  },
  {
   "property": "C57",
   "status": "proved",
   "theorems": [
    "Efp.Props.C57_get_index",
    "Efp.Props.C57_get_type"
   ],
   "note": "For up to 128 alternatives (no larger Enum exists, see C56). The const overloads of move cannot be instantiated."
  },
  {
   "property": "C58",
   "status": "proved",
   "theorems": [
    "Efp.Props.C58_lifetimes",
    "Efp.Props.C58_one_object",
    "Efp.Props.C58_no_leak"
   ],
   "note": "For up to 128 alternatives; programs in which no copy or move inside an assignment throws (those are C59)."
  },
  {
   "property": "C59",
   "status": "partial",
   "theorems": [
    "Efp.Props.C59_throwing_assignment_unsafe",
    "Efp.Props.C59_other_throws_partial"
   ],
   "note": "False: assignment destroys the old value first, so a throwing copy leaves no object behind (proved for every program state). Every other throwing construction leaves all variables intact."
  },
  {
   "property": "C60",
   "status": "proved",
   "theorems": [
    "Efp.Props.C60_equality"
   ],
   "note": "For up to 128 alternatives."
  },
  {
   "property": "C61",
   "status": "partial",
   "theorems": [
    "Efp.Props.C61_value",
    "Efp.Props.C61_fmap",
    "Efp.Props.C61_functor",
    "Efp.Props.C61_monad",
    "Efp.Props.C61_applicative",
    "Efp.Props.C61_maybe_nothing",
    "Efp.Props.C61_fmap_effects",
    "Efp.Props.C61_fmap_effects_compose",
    "Efp.Props.C61_ap_effects",
    "Efp.Props.C61_bind_effects"
   ],
   "note": "Proved for every A other than Nothing, also for functions with effects, which are called exactly once or not at all; for Maybe<Nothing> left identity fails (proved)."
  },
  {
   "property": "C62",
   "status": "proved",
   "theorems": [
    "Efp.Props.C62_get",
    "Efp.Props.C62_assign",
    "Efp.Props.C62_equality",
    "Efp.Props.C62_match"
   ],
   "note": "For every arity. Equality assumes each component type has != as the negation of ==, since the implementation uses both."
  },
  {
   "property": "C63",
   "status": "partial",
   "theorems": [
    "Efp.Props.C63_all_any",
    "Efp.Props.C63_maximum_minimum",
    "Efp.Props.C63_float_maximum",
    "Efp.Props.C63_sum_product",
    "Efp.Props.C63_lookup",
    "Efp.Props.C63_power_2_ceiling_partial",
    "Efp.Props.C63_power_2_ceiling_diverges"
   ],
   "note": "False for _maximum over floating-point values (starts from the least positive value) and for power_2_ceiling above 128 (never ends); both proved. Everything else proved."
  },
  {
   "property": "C64",
   "status": "proved",
   "theorems": [
    "Efp.Props.C64_compose",
    "Efp.Props.C64_associative"
   ],
   "note": "While the function objects are alive (compose keeps references, see C81)."
  },
  {
   "property": "C65",
   "status": "partial",
   "theorems": [
    "Efp.Props.C65_last_registration_wins",
    "Efp.Props.C65_own_function_partial"
   ],
   "note": "False for two function objects of the same closure type (proved). Proved for every program in which no other object of the closure type is registered and the object is alive."
  },
  {
   "property": "C66",
   "status": "partial",
   "theorems": [
    "Efp.Props.C66_read_line",
    "Efp.Props.C66_read_lines_partial",
    "Efp.Props.C66_lines_unique",
    "Efp.Props.C66_no_empty_line_partial",
    "Efp.Props.C66_empty_line",
    "Efp.Props.C66_empty_line_value",
    "Efp.Props.C66_final_newline",
    "Efp.Props.C66_read_error"
   ],
   "note": "False in three ways, each proved: a final newline is lost, a read error looks like the end of the file, and the string of every empty line returned by read_lines or value() has an uninitialised data pointer, so destroying it is undefined behaviour. The splitting itself is proved for every content, position and line length."
  },
  {
   "property": "C67",
   "status": "partial",
   "theorems": [
    "Efp.Props.C67_handles_partial",
    "Efp.Props.C67_assign_leaks",
    "Efp.Props.C67_failed_close",
    "Efp.Props.C67_mode_lost"
   ],
   "note": "False, each way proved: every write through a File obtained from open reads an uninitialised mode; move assignment to an open File leaks its handle; a failing close leads to a second fclose. Proved for every history without those."
  },
  {
   "property": "C68",
   "status": "partial",
   "theorems": [
    "Efp.Props.C68_extrema_partial",
    "Efp.Props.C68_float_max",
    "Efp.Props.C68_max_min"
   ],
   "note": "False for max_elem on floating-point sequences whose elements are all below the least positive normal value (proved). min_elem, and max_elem on every other sequence, proved; max_min exact when representable."
  },
  {
   "property": "C69",
   "status": "proved",
   "theorems": [
    "Efp.Props.C69_mean",
    "Efp.Props.C69_variance",
    "Efp.Props.C69_covariance",
    "Efp.Props.C69_affine",
    "Efp.Props.C69_variance_sign",
    "Efp.Props.C69_remove_dc"
   ],
   "note": "Exact arithmetic in an arbitrary ordered field."
  },
  {
   "property": "C70",
   "status": "partial",
   "theorems": [
    "Efp.Props.C70_least_squares",
    "Efp.Props.C70_collinear",
    "Efp.Props.C70_with_index_partial",
    "Efp.Props.C70_index_overflow",
    "Efp.Props.C70_detrend_partial",
    "Efp.Props.C70_detrend_narrow"
   ],
   "note": "linear_regression proved in full. linear_regression_with_index and detrend overflow int from 1291 elements on (proved), and detrend is wrong where the element type cannot hold the index (proved); both proved correct otherwise."
  },
  {
   "property": "C71",
   "status": "partial",
   "theorems": [
    "Efp.Props.C71_lag_out_of_range",
    "Efp.Props.C71_lag_partial"
   ],
   "note": "False: negative lags and lags beyond the length read out of bounds (proved). Proved for 0 <= lag < n."
  },
  {
   "property": "C72",
   "status": "partial",
   "theorems": [
    "Efp.Props.C72_vector",
    "Efp.Props.C72_arrvec",
    "Efp.Props.C72_array",
    "Efp.Props.C72_vcb",
    "Efp.Props.C72_vcq_partial",
    "Efp.Props.C72_empty_vcq",
    "Efp.Props.C72_determines_partial",
    "Efp.Props.C72_ambiguous_empty"
   ],
   "note": "False for an empty cyclic queue (its first, unconstructed slot is read: undefined behaviour, proved) and in that the text of an empty sequence equals that of a one-element sequence whose element prints as nothing (proved). Proved for all other sequences and sequence types. The text of a single element is a parameter."
  },
  {
   "property": "C73",
   "status": "partial",
   "theorems": [
    "Efp.Props.C73_copy_move_partial",
    "Efp.Props.C73_self_assign_ub"
   ],
   "note": "All but self copy-assignment, which destroys each managed element before reading it (proved)."
  },
  {
   "property": "C74",
   "status": "partial",
   "theorems": [
    "Efp.Props.C74_write_persists_partial",
    "Efp.Props.C74_write_lost"
   ],
   "note": "False: q[i] = x reaches only one mirror; behind the wrap pop_front returns the old value (proved). In front of the wrap it holds for every later history."
  },
  {
   "property": "C75",
   "status": "partial",
   "theorems": [
    "Efp.Props.C75_push_own_partial",
    "Efp.Props.C75_push_own_front_ub"
   ],
   "note": "All but a full queue of managed elements pushing its front (undefined behaviour, proved)."
  },
  {
   "property": "C76",
   "status": "proved",
   "theorems": [
    "Efp.Props.C76_at"
   ],
   "note": ""
  },
  {
   "property": "C77",
   "status": "partial",
   "theorems": [
    "Efp.Props.C77_view_of_cstr",
    "Efp.Props.C77_view_of_string",
    "Efp.Props.C77_same_range_unequal"
   ],
   "note": "Contents and comparison with C strings are right; two views of the same characters at the same address can be unequal (proved)."
  },
  {
   "property": "C78",
   "status": "partial",
   "theorems": [
    "Efp.Props.C78_is_empty_races",
    "Efp.Props.C78_no_race_partial",
    "Efp.Props.C78_no_race_bounded_partial",
    "Efp.Props.C78_accesses_complete"
   ],
   "note": "False: is_empty reads the queue without the lock (proved). No race in states where nobody is inside is_empty. Statements not counted as reads or writes neither depend on the queue nor change it."
  },
  {
   "property": "C79",
   "status": "proved",
   "theorems": [
    "Efp.Props.C79_swap"
   ],
   "note": ""
  },
  {
   "property": "C80",
   "status": "proved",
   "theorems": [
    "Efp.Props.C80_clamp",
    "Efp.Props.C80_max_min"
   ],
   "note": ""
  },
  {
   "property": "C81",
   "status": "partial",
   "theorems": [
    "Efp.Props.C81_dangling",
    "Efp.Props.C81_alive_partial"
   ],
   "note": "False: a composition holds references, so calling it after a temporary function object died is undefined behaviour (proved)."
  },
  {
   "property": "C82",
   "status": "partial",
   "theorems": [
    "Efp.Props.C82_sum_product_partial",
    "Efp.Props.C82_signed_prefix"
   ],
   "note": "False for int and wider signed types: an intermediate overflow is undefined even when the result is representable (proved). Proved for wrapping types and whenever all prefixes are representable."
  },
  {
   "property": "C83",
   "status": "partial",
   "theorems": [
    "Efp.Props.C83_abs_square_partial",
    "Efp.Props.C83_abs_lowest"
   ],
   "note": "False at the lowest value of every signed type (proved); proved elsewhere."
  },
  {
   "property": "C84",
   "status": "partial",
   "theorems": [
    "Efp.Props.C84_is_approx_partial",
    "Efp.Props.C84_truncation",
    "Efp.Props.C84_asymmetric",
    "Efp.Props.C84_integers_partial",
    "Efp.Props.C84_integers_signed_unsigned",
    "Efp.Props.C84_integers_overflow"
   ],
   "note": "False when a floating-point value meets an integer type of at least its size: both are truncated first; then the result also depends on the order of the arguments (both proved). For integer types a negative value equals its unsigned conversion, and a signed difference that is not representable is undefined (both proved). Proved otherwise."
  },
  {
   "property": "C85",
   "status": "partial",
   "theorems": [
    "Efp.Props.C85_mean_integers_partial",
    "Efp.Props.C85_narrow_sum"
   ],
   "note": "False for unsigned and narrow element types when the sum is not representable in the element type (proved). Proved when every prefix sum is representable."
  },
  {
   "property": "C86",
   "status": "proved",
   "theorems": [
    "Efp.Props.C86_correlation",
    "Efp.Props.C86_autocorrelation"
   ],
   "note": "Exact arithmetic; square root is any function that returns the non-negative root of non-negative arguments."
  },
  {
   "property": "C87",
   "status": "proved",
   "theorems": [
    "Efp.Props.C87_errors",
    "Efp.Props.C87_rms"
   ],
   "note": "Exact arithmetic."
  },
  {
   "property": "C88",
   "status": "partial",
   "theorems": [
    "Efp.Props.C88_closed_file_partial",
    "Efp.Props.C88_seek_tell",
    "Efp.Props.C88_seek_read",
    "Efp.Props.C88_tell_seek"
   ],
   "note": "False for seek and tell, which pass a null FILE* to the C library (proved). Proved for the other operations and for open files. flush(NULL), which flushes every stream, is not modelled."
  },
  {
   "property": "C89",
   "status": "partial",
   "theorems": [
    "Efp.Props.C89_program_partial",
    "Efp.Props.C89_swap",
    "Efp.Props.C89_copy_independent"
   ],
   "note": "Proved for every program without the steps other properties show to be wrong: copying an empty vector (C04), copy assignment between different lengths (C05), and insertion or removal in the middle for resource-owning elements (C03)."
  },
  {
   "property": "C90",
   "status": "partial",
   "theorems": [
    "Efp.Props.C90_history_partial",
    "Efp.Props.C90_call_strong",
    "Efp.Props.C90_copy_ctor_leaks",
    "Efp.Props.C90_initializer_list_leaks",
    "Efp.Props.C90_assignment_terminates",
    "Efp.Props.C90_throwing_move_leaks"
   ],
   "note": "Proved for all histories of member calls when moves do not throw. Refuted for the copy constructor and the initializer-list constructor (they leak), for copy assignment (declared noexcept, so the program is terminated) and for reallocation with throwing moves (leaks)."
  },
  {
   "property": "C91",
   "status": "partial",
   "theorems": [
    "Efp.Props.C91_arrvec_insert_end_strong",
    "Efp.Props.C91_arrvec_enough",
    "Efp.Props.C91_cyclic_enough",
    "Efp.Props.C91_vcq_push_room",
    "Efp.Props.C91_arrvec_push_broken",
    "Efp.Props.C91_arrvec_insert_middle_broken",
    "Efp.Props.C91_arrvec_copy_ctor_leaks",
    "Efp.Props.C91_arrvec_assignment_broken",
    "Efp.Props.C91_vcb_push_broken",
    "Efp.Props.C91_vcq_push_full_broken"
   ],
   "note": "Refuted by this code for every state: after a throwing copy in ArrVec::push_back, a middle insert, an ArrVec assignment, Vcb::push_back or a full Vcq::push_back the destructor is undefined, and the ArrVec copy constructor leaks. Holds for insertion at the end of an ArrVec and for the first copy of Vcq::push_back with room."
  },
  {
   "property": "C92",
   "status": "proved",
   "theorems": [
    "Efp.Props.C92_grammar",
    "Efp.Props.C92_defined",
    "Efp.Props.C92_unique",
    "Efp.Props.C92_braces"
   ],
   "note": "For argument lists shorter than 2^31; the text of floating-point values and what user-defined formatters do are parameters of the model."
  },
  {
   "property": "C93",
   "status": "proved",
   "theorems": [
    "Efp.Props.C93_automatic",
    "Efp.Props.C93_too_few",
    "Efp.Props.C93_index",
    "Efp.Props.C93_name",
    "Efp.Props.C93_no_mixing"
   ],
   "note": "For every argument list, stored packed or unpacked."
  },
  {
   "property": "C94",
   "status": "proved",
   "theorems": [
    "Efp.Props.C94_prefix",
    "Efp.Props.C94_suffix",
    "Efp.Props.C94_both_scans"
   ],
   "note": "The suffix theorem excludes user-defined formatters, which may read on past the closing brace."
  },
  {
   "property": "C95",
   "status": "proved",
   "theorems": [
    "Efp.Props.C95_default",
    "Efp.Props.C95_bases",
    "Efp.Props.C95_injective"
   ],
   "note": ""
  },
  {
   "property": "C96",
   "status": "proved",
   "theorems": [
    "Efp.Props.C96_string",
    "Efp.Props.C96_integer",
    "Efp.Props.C96_zero"
   ],
   "note": ""
  },
  {
   "property": "C97",
   "status": "proved",
   "theorems": [
    "Efp.Props.C97_precision",
    "Efp.Props.C97_columns",
    "Efp.Props.C97_any_bytes"
   ],
   "note": ""
  },
  {
   "property": "C98",
   "status": "partial",
   "theorems": [
    "Efp.Props.C98_literal_width",
    "Efp.Props.C98_dynamic_partial",
    "Efp.Props.C98_wraps_128",
    "Efp.Props.C98_leading_zeros_rejected",
    "Efp.Props.C98_literal_precision",
    "Efp.Props.C98_dynamic_precision_partial",
    "Efp.Props.C98_precision_wraps_128"
   ],
   "note": "Refuted for 128-bit integer arguments, whose value is taken modulo 2^64, and for a precision with more than ten digits, rejected even if leading zeros make it small. Proved for widths in the format string, for precisions of up to ten digits in it, and for widths and precisions from integers of at most 64 bits."
  },
  {
   "property": "C99",
   "status": "partial",
   "theorems": [
    "Efp.Props.C99_quoted",
    "Efp.Props.C99_plain",
    "Efp.Props.C99_printable",
    "Efp.Props.C99_printable_bytes",
    "Efp.Props.C99_char_text",
    "Efp.Props.C99_reversible_partial",
    "Efp.Props.C99_char",
    "Efp.Props.C99_stray_bytes",
    "Efp.Props.C99_char_width_wrong"
   ],
   "note": "Quotes and no control bytes: proved for all bytes; different texts: for every string that is UTF-8 and for every char. Refuted for strings with stray bytes: the byte 85 and the encoding of U+0085 are both shown as \\x85. With a width, a char in debug presentation is padded as if it took one column."
  },
  {
   "property": "C100",
   "status": "partial",
   "theorems": [
    "Efp.Props.C100_lists",
    "Efp.Props.C100_completes",
    "Efp.Props.C100_no_leak",
    "Efp.Props.C100_own_partial",
    "Efp.Props.C100_own_refuted"
   ],
   "note": "Proved for all programs and all allocation failures. Refuted for a buffer whose own elements are appended to it: on the heap and without room it reads freed storage (C100_own_refuted); with room, or while the elements are in the object, it is proved (C100_own_partial)."
  },
  {
   "property": "C102",
   "status": "proved",
   "theorems": [
    "Efp.Props.C102_print",
    "Efp.Props.C102_println",
    "Efp.Props.C102_println_full"
   ],
   "note": "A file that takes only part of the text keeps that part, and the call reports an error."
  },
  {
   "property": "C103",
   "status": "proved",
   "theorems": [
    "Efp.Props.C103_append",
    "Efp.Props.C103_pointer",
    "Efp.Props.C103_iterator",
    "Efp.Props.C103_error"
   ],
   "note": ""
  },
  {
   "property": "C104",
   "status": "proved",
   "theorems": [
    "Efp.Props.C104_pointer",
    "Efp.Props.C104_iterator",
    "Efp.Props.C104_error"
   ],
   "note": ""
  },
  {
   "property": "C105",
   "status": "proved",
   "theorems": [
    "Efp.Props.C105_size",
    "Efp.Props.C105_fits",
    "Efp.Props.C105_error"
   ],
   "note": ""
  },
  {
   "property": "C106",
   "status": "proved",
   "theorems": [
    "Efp.Props.C106_format",
    "Efp.Props.C106_completes",
    "Efp.Props.C106_error"
   ],
   "note": "Operations before a format error are not run in this model; C100 covers every sequence of operations followed by the destruction of the buffer."
  },
  {
   "property": "C107",
   "status": "proved",
   "theorems": [
    "Efp.Props.C107_double_reads_back",
    "Efp.Props.C107_float_reads_back",
    "Efp.Props.C107_double_shortest",
    "Efp.Props.C107_float_shortest",
    "Efp.Props.C107_double_injective",
    "Efp.Props.C107_float_injective",
    "Efp.Props.C107_portable_multiply"
   ],
   "note": "For float and double; long double is not modelled."
  },
  {
   "property": "C108",
   "status": "partial",
   "theorems": [
    "Efp.Props.C108_fixed_partial",
    "Efp.Props.C108_fixed_fails",
    "Efp.Props.C108_scientific",
    "Efp.Props.C108_general_partial",
    "Efp.Props.C108_general_fails",
    "Efp.Props.C108_short",
    "Efp.Props.C108_short_zero",
    "Efp.Props.C108_fixed_value_partial",
    "Efp.Props.C108_fixed_value",
    "Efp.Props.C108_scientific_value",
    "Efp.Props.C108_general_value",
    "Efp.Props.C108_defined"
   ],
   "note": "For float and double. False for type f when the number has more than 767 digits before and after the point, and for # with g and a precision above 767: the digits beyond are missing (C108_fixed_fails, C108_general_fails). The partial theorems cover everything else; for types e and E every precision but INT_MAX, which is an error."
  },
  {
   "property": "C109",
   "status": "proved",
   "theorems": [
    "Efp.Props.C109_zero",
    "Efp.Props.C109_nonfinite",
    "Efp.Props.C107_double_shortest",
    "Efp.Props.C107_float_shortest",
    "Efp.Props.C109_nonfinite_options"
   ],
   "note": "The layout of finite numbers is plainText of the specification, in the statements of C107."
  },
  {
   "property": "C110",
   "status": "proved",
   "theorems": [
    "Efp.Props.C110_hex",
    "Efp.Props.C110_reads_back",
    "Efp.Props.C110_precision"
   ],
   "note": "For float and double."
  },
  {
   "property": "C111",
   "status": "partial",
   "theorems": [
    "Efp.Props.C111_fifo_partial",
    "Efp.Props.C111_released_partial",
    "Efp.Props.C111_wakeup_partial",
    "Efp.Props.C111_lost_wakeup"
   ],
   "note": "For the unbounded queue. False for wake-ups: when the copy in dequeue throws, the notification is used up and other consumers sleep on with an element queued (C111_lost_wakeup). The rest holds for every schedule."
  },
  {
   "property": "C112",
   "status": "partial",
   "theorems": [
    "Efp.Props.C112_enqueue_throw_locks",
    "Efp.Props.C112_read_buffer_partial"
   ],
   "note": "False: a copy that throws in enqueue leaves the spinlock locked for ever, so no later enqueue or swap_buffer returns (C112_enqueue_throw_locks, in every reachable state). Only the elements in the read buffer can still be dequeued."
  },
  {
   "property": "C113",
   "status": "partial",
   "theorems": [
    "Efp.Props.C113_accepts_iff",
    "Efp.Props.C113_rejected",
    "Efp.Props.C113_accepted_partial",
    "Efp.Props.C113_accepted_static",
    "Efp.Props.C113_accepted_throws",
    "Efp.Props.C113_accepted_fails",
    "Efp.Props.C113_float_showable"
   ],
   "note": "Acceptance is characterised by a grammar, and rejected strings always fail at run time. The converse is false: a width or precision taken from a bool or char, or from a name that no argument has, passes the check and throws (C113_accepted_throws, C113_accepted_fails). True when every argument used as width or precision is an integer in range (C113_accepted_partial); literal numbers have fewer than ten digits there. For compilers where is_constant_evaluated is trusted (not GCC before 12)."
  },
  {
   "property": "C114",
   "status": "proved",
   "theorems": [
    "Efp.Props.C114_grammar",
    "Efp.Props.C114_defined",
    "Efp.Props.C114_container",
    "Efp.Props.C114_join",
    "Efp.Props.C114_join_options",
    "Efp.Props.C114_container_options",
    "Efp.Props.C114_vector"
   ],
   "note": "Elements of the natively supported types; containers of containers do not compile. Reading the elements from memory is C72; C114_vector joins the two for Vector. An empty Vcq is left out, see C72_empty_vcq."
  },
  {
   "property": "C115",
   "status": "partial",
   "theorems": [
    "Efp.Props.C115_commas",
    "Efp.Props.C115_grouped_partial",
    "Efp.Props.C115_default_partial",
    "Efp.Props.C115_negative"
   ],
   "note": "False for negative numbers: they are cast to unsigned, so that group_digits(-1) is 18,446,744,073,709,551,615 (C115_negative). True for all others."
  },
  {
   "property": "C116",
   "status": "proved",
   "theorems": [
    "Efp.Props.C116_bytes"
   ],
   "note": ""
  },
  {
   "property": "C117",
   "status": "partial",
   "theorems": [
    "Efp.Props.C117_n_log_n_partial",
    "Efp.Props.C117_quadratic",
    "Efp.Props.C117_quicksort_worst",
    "Efp.Props.C117_sort_unstable_worst",
    "Efp.Props.C117_quicksort_not_n_log_n"
   ],
   "note": "False for quicksort and sort_unstable: the pivot is the last element, so sorted vectors and vectors of equal elements take n (n - 1) / 2 comparisons. Proved for the others, with a quadratic bound for these two."
  },
  {
   "property": "C118",
   "status": "partial",
   "theorems": [
    "Efp.Props.C118_logarithmic_partial",
    "Efp.Props.C118_quicksort_depth",
    "Efp.Props.C118_quicksort_worst"
   ],
   "note": "False for quicksort_by (and so sort_unstable): n nested calls on sorted vectors and on vectors of equal elements. Proved for merge_sort_by and max_heapify_by."
  },
  {
   "property": "C119",
   "status": "proved",
   "theorems": [
    "Efp.Props.C119_sum_error",
    "Efp.Props.C119_sum_exact",
    "Efp.Props.C119_sum_nan"
   ],
   "note": "In IEEE arithmetic of any binary format, float and double among them."
  },
  {
   "property": "C120",
   "status": "partial",
   "theorems": [
    "Efp.Props.C120_mean_outside",
    "Efp.Props.C120_mean_error_partial",
    "Efp.Props.C120_mean_const_partial"
   ],
   "note": "False: the mean of three times 0.1 is greater than 0.1, and the mean of two finite doubles can be infinite. Proved: the bound on the distance to the exact average, and exactness for constants whose multiples are numbers of the format."
  },
  {
   "property": "C121",
   "status": "partial",
   "theorems": [
    "Efp.Props.C121_variance_const",
    "Efp.Props.C121_variance_nonneg_partial",
    "Efp.Props.C121_variance_const_partial",
    "Efp.Props.C121_sqrt"
   ],
   "note": "False: the variance of three times 0.1 is positive. Proved: never negative or NaN, and zero for constants whose multiples are numbers of the format; sqrt correctly rounded in the model."
  },
  {
   "property": "C122",
   "status": "partial",
   "theorems": [
    "Efp.Props.C122_correlation_bound",
    "Efp.Props.C122_covariance_comm_partial",
    "Efp.Props.C122_sse_partial",
    "Efp.Props.C122_nonneg_partial"
   ],
   "note": "False: the correlation of 0, 0, 1 with itself exceeds 1, with a constant sequence it is NaN, and sse of different sequences can underflow to zero. Proved: symmetry to the bit, variance as covariance, zero for data that agree, never negative or NaN."
  },
  {
   "property": "C123",
   "status": "partial",
   "theorems": [
    "Efp.Props.C123_is_approx_bound",
    "Efp.Props.C123_is_approx_partial",
    "Efp.Props.C123_is_approx_large_partial",
    "Efp.Props.C123_is_approx_nan_partial"
   ],
   "note": "False at the margin, where the difference is rounded to epsilon, and for equal infinities. Proved: both directions up to that rounding, reflexive and symmetric for finite numbers, equality from magnitude 2 on, never for NaN."
  },
  {
   "property": "C124",
   "status": "partial",
   "theorems": [
    "Efp.Props.C124_blocking",
    "Efp.Props.C124_blocking_bounded",
    "Efp.Props.C124_publication",
    "Efp.Props.C124_nonblocking_partial",
    "Efp.Props.C124_nonblocking_bounded_partial",
    "Efp.Props.C124_double_buffer_partial",
    "Efp.Props.C124_is_empty_races",
    "Efp.Props.C124_two_consumers_race",
    "Efp.Props.C124_blocking_accesses",
    "Efp.Props.C124_blocking_mutex",
    "Efp.Props.C124_nonblocking_ops",
    "Efp.Props.C124_double_buffer_spinlock"
   ],
   "note": "False for NonBlockingQ::is_empty and for a DoubleBuffer with two consumers: refuted. Proved for BlockingQ, for NonBlockingQ without is_empty, and for DoubleBuffer with one consumer. The recorded operations on memory and lock are proved to be all there are."
  },
  {
   "property": "C125",
   "status": "partial",
   "theorems": [
    "Efp.Props.C125_reserve_moves",
    "Efp.Props.C125_reserve_partial",
    "Efp.Props.C125_removal_stays"
   ],
   "note": "False: the n-th push_back after reserve(n) reallocates, for every n. Proved: no allocation while there are fewer than n elements, and none by removals and overwriting."
  },
  {
   "property": "C126",
   "status": "partial",
   "theorems": [
    "Efp.Props.C126_throw_keeps_partial",
    "Efp.Props.C126_throw_one_hole_partial",
    "Efp.Props.C126_throw_merge_partial",
    "Efp.Props.C126_throw_timsort_merge",
    "Efp.Props.C126_insertion_loses",
    "Efp.Props.C126_insertion_duplicates",
    "Efp.Props.C126_merge_loses",
    "Efp.Props.C126_sort_unstable_loses"
   ],
   "note": "False for insertion_sort, sort, sort_unstable and merge_sort, which lose an element when the comparator throws: refuted. Proved for heapsort and quicksort; for the others proved: no undefined behaviour, all elements after a return, and what exactly may be missing after a throw."
  },
  {
   "property": "C127",
   "status": "partial",
   "theorems": [
    "Efp.Props.C127_map_partial",
    "Efp.Props.C127_map_with_index_partial",
    "Efp.Props.C127_cartesian_map_partial",
    "Efp.Props.C127_from_function_partial",
    "Efp.Props.C127_filter",
    "Efp.Props.C127_find_indices",
    "Efp.Props.C127_dynamic_results_destroy_raw"
   ],
   "note": "Proved for filter and find_indices with every element type, and for the functions that resize their result when its elements are trivial or its size is static. False for resource-owning results of dynamic size, whose destructor meets elements that were never constructed: refuted."
  },
  {
   "property": "C128",
   "status": "partial",
   "theorems": [
    "Efp.Props.C128_to_utf16",
    "Efp.Props.C128_to_utf16_refuses",
    "Efp.Props.C128_from_utf32",
    "Efp.Props.C128_from_utf32_refuses",
    "Efp.Props.C128_from_utf16_partial",
    "Efp.Props.C128_from_utf16_loses",
    "Efp.Props.C128_from_utf16_fails",
    "Efp.Props.C128_from_utf16_refuses",
    "Efp.Props.C128_from_utf16_replaces_partial",
    "Efp.Props.C128_from_utf16_replaces_loses",
    "Efp.Props.C128_round_trip_partial"
   ],
   "note": "Proved for UTF-8 to UTF-16 and for UTF-32 to UTF-8. False for UTF-16 to UTF-8: characters written as a pair of surrogates are read and not written. Proved for texts without such characters, with the exact text that comes out for the others."
  },
  {
   "property": "C129",
   "status": "proved",
   "theorems": [
    "Efp.Props.C129_format_int"
   ],
   "note": "The constructors for long and unsigned long are those for long long and unsigned long long."
  },
  {
   "property": "C130",
   "status": "partial",
   "theorems": [
    "Efp.Props.C130_report",
    "Efp.Props.C130_format_partial",
    "Efp.Props.C130_moved_from_fails"
   ],
   "note": "Proved for report_system_error. For format_system_error proved for buffers with the capacity of a new one; false for a memory_buffer that was moved from, which has no capacity: refuted."
  },
  {
   "property": "C131",
   "status": "proved",
   "theorems": [
    "Efp.Props.C131_values",
    "Efp.Props.C131_integer",
    "Efp.Props.C131_named"
   ],
   "note": "Floating-point arguments and user-defined types are covered by C107 to C110 and C92."
  },
  {
   "property": "C132",
   "status": "proved",
   "theorems": [
    "Efp.Props.C132_compare",
    "Efp.Props.C132_operators",
    "Efp.Props.C132_total",
    "Efp.Props.C132_transitive",
    "Efp.Props.C132_starts_with",
    "Efp.Props.C132_remove_prefix"
   ],
   "note": ""
  },
  {
   "property": "C133",
   "status": "partial",
   "theorems": [
    "Efp.Props.C133_history_partial",
    "Efp.Props.C133_call",
    "Efp.Props.C133_resize_partial",
    "Efp.Props.C133_resize_max",
    "Efp.Props.C133_resize_false",
    "Efp.Props.C133_freestanding_reserve"
   ],
   "note": "False in two places. resize(SIZE_MAX) wraps the capacity to 0 and returns with no storage (C133_resize_max). With the freestanding efp::Allocator n * sizeof(T) wraps, so reserve returns a block that is too small (C133_freestanding_reserve). Proved for std::allocator and every other call."
  },
  {
   "property": "C134",
   "status": "partial",
   "theorems": [
    "Efp.Props.C134_assign",
    "Efp.Props.C134_append_partial",
    "Efp.Props.C134_append_ub",
    "Efp.Props.C134_insertN",
    "Efp.Props.C134_insert",
    "Efp.Props.C134_insert_partial",
    "Efp.Props.C134_insert_wrong"
   ],
   "note": "False. append and insert read through a dangling pointer when they have to grow; an insert in place puts in other characters when the piece reaches beyond the position or lies behind it. assign is right for every offset, append and insert in the remaining cases."
  },
  {
   "property": "C135",
   "status": "partial",
   "theorems": [
    "Efp.Props.C135_blocking_partial",
    "Efp.Props.C135_released_partial",
    "Efp.Props.C135_wakeup_partial",
    "Efp.Props.C135_nonblocking_partial",
    "Efp.Props.C135_full_broken",
    "Efp.Props.C135_full_broken_nonblocking"
   ],
   "note": "False of a full queue: push_back destroys the oldest element before it copies, so a throwing copy leaves a dead element that the next dequeue and the destructor touch. While the queue has room the claim holds, except that a failed second copy leaks an element."
  },
  {
   "property": "C136",
   "status": "partial",
   "theorems": [
    "Efp.Props.C136_fifo_partial",
    "Efp.Props.C136_loss_partial",
    "Efp.Props.C136_released_partial",
    "Efp.Props.C136_element_lost",
    "Efp.Props.C136_always_lost"
   ],
   "note": "False: the Maybe that dequeue returns is constructed after the element has left the queue; if that throws the element is lost. The theorems show that exactly those elements are lost, that all else stays in order, and that the lock is released."
  },
  {
   "property": "C137",
   "status": "partial",
   "theorems": [
    "Efp.Props.C137_history_partial",
    "Efp.Props.C137_call_partial",
    "Efp.Props.C137_enough",
    "Efp.Props.C137_append_without_memory",
    "Efp.Props.C137_assign_without_memory",
    "Efp.Props.C137_full_broken",
    "Efp.Props.C137_fill_broken",
    "Efp.Props.C137_substr"
   ],
   "note": "False in two ways. append, += and assign work character by character: when growing fails half-way they keep what they appended, and assign has already dropped the old text. String(n, c) multiplies n by the character size without a check, so for wide characters the product can wrap and the constructor writes outside its block. Proved: the exact text, capacity and exceptions of every history; insert and the inherited calls leave the text alone when they throw; enough memory means no exception; nothing leaks."
  },
  {
   "property": "C138",
   "status": "partial",
   "theorems": [
    "Efp.Props.C138_two_holes_partial",
    "Efp.Props.C138_one_hole_partial",
    "Efp.Props.C138_merge_partial",
    "Efp.Props.C138_quiet",
    "Efp.Props.C138_insertion_loses",
    "Efp.Props.C138_heapsort_loses",
    "Efp.Props.C138_quicksort_loses",
    "Efp.Props.C138_merge_loses",
    "Efp.Props.C138_pivot"
   ],
   "note": "Proved for every comparator, element type and point of failure: behaviour is defined, every slot holds a living object, and at most two slots lose their element (one, if moves that throw leave their source alone; in merge sort every other slot holds some element). Without failures each sort does what the sorts of C35-C41 do. That no element is lost is false, and refuted for every sort."
  },
  {
   "property": "C139",
   "status": "partial",
   "theorems": [
    "Efp.Props.C139_release",
    "Efp.Props.C139_every_fill_wrong",
    "Efp.Props.C139_release_partial",
    "Efp.Props.C139_no_leak",
    "Efp.Props.C139_texts_partial"
   ],
   "note": "Matching release is false and refuted exactly: in every program that runs to its end each use of String(n, c) gives one block from operator new[] to operator delete; programs without that constructor release everything correctly. No leak is proved for every program that runs. Texts are proved inside the claim (no copies of empty strings, no copy assignment between different lengths, no v += v: C04, C05, C21 refute those)."
  },
  {
   "property": "C140",
   "status": "partial",
   "theorems": [
    "Efp.Props.C140_refuted",
    "Efp.Props.C140_nan",
    "Efp.Props.C140_extrema_partial",
    "Efp.Props.C140_wrong"
   ],
   "note": "False of the code and refuted: the search for the maximum starts from NumericLimits::min(), the least positive normal number, so that max_elem of negative numbers is positive; a NaN makes both searches forget what came before it. Exactly when and what they return is proved."
  },
  {
   "property": "C141",
   "status": "partial",
   "theorems": [
    "Efp.Props.C141_refuted",
    "Efp.Props.C141_product_error_partial",
    "Efp.Props.C141_product_exact_partial",
    "Efp.Props.C141_product_nan",
    "Efp.Props.C141_product_zero_partial"
   ],
   "note": "Without NaN is false and refuted (overflow times zero). Accuracy is proved while all partial products stay among the normal numbers, exactness for integers that fit. A zero factor among finite numbers gives a zero or NaN, a zero if what stands before it does not overflow."
  },
  {
   "property": "C142",
   "status": "partial",
   "theorems": [
    "Efp.Props.C142_autocovariance",
    "Efp.Props.C142_refuted",
    "Efp.Props.C142_autocorrelation_partial",
    "Efp.Props.C142_nan",
    "Efp.Props.C142_lag"
   ],
   "note": "The autocovariance part is proved in full. The autocorrelation part is false if the variance is zero, infinite or NaN (refuted) and proved for every other sequence."
  },
  {
   "property": "C143",
   "status": "partial",
   "theorems": [
    "Efp.Props.C143_refuted",
    "Efp.Props.C143_remove_dc_partial"
   ],
   "note": "False if the sum overflows (refuted); proved if twice the sum of magnitudes cannot overflow."
  },
  {
   "property": "C144",
   "status": "partial",
   "theorems": [
    "Efp.Props.C144_refuted",
    "Efp.Props.C144_enqueue_partial",
    "Efp.Props.C144_enqueue_bounded_partial",
    "Efp.Props.C144_dequeue_partial",
    "Efp.Props.C144_dequeue_bounded_partial",
    "Efp.Props.C144_one_consumer_partial"
   ],
   "note": "False of the code and refuted by never-ending executions: an unfair lock can starve an enqueue, and notify_one can starve a dequeue even with a fair lock and endless elements. With a fair lock every enqueue returns, a dequeue that never returns sees the queue empty again and again, and the calls of a single consumer all return if enough is enqueued."
  },
  {
   "property": "C145",
   "status": "partial",
   "theorems": [
    "Efp.Props.C145_refuted",
    "Efp.Props.C145_others_partial",
    "Efp.Props.C145_others_bounded_partial",
    "Efp.Props.C145_returns_partial",
    "Efp.Props.C145_returns_bounded_partial"
   ],
   "note": "False of the code and refuted: the queue takes a mutex, and an unfair one starves a caller. Proved: a call that never returns is overtaken for ever by calls of others that do return; with a fair lock every call returns."
  },
  {
   "property": "C146",
   "status": "partial",
   "theorems": [
    "Efp.Props.C146_refuted",
    "Efp.Props.C146_consumer_partial",
    "Efp.Props.C146_others_partial",
    "Efp.Props.C146_returns_partial"
   ],
   "note": "False of the code and refuted: an enqueue may spin for ever. dequeue and empty always return; an enqueue or swap that never returns is overtaken for ever; with a fair spinlock every call returns."
  },
  {
   "property": "C147",
   "status": "proved",
   "theorems": [
    "Efp.Props.C147_vector",
    "Efp.Props.C147_string"
   ],
   "note": "For all histories without reserve and shrink_to_fit (and, for strings, without insertions of texts, see C149). Relocations are those the ledger of the model counts: elements moved or copied to a new block."
  },
  {
   "property": "C148",
   "status": "proved",
   "theorems": [
    "Efp.Props.C148_vector",
    "Efp.Props.C148_string"
   ],
   "note": "For all histories without reserve, shrink_to_fit and insertions of texts included."
  },
  {
   "property": "C149",
   "status": "partial",
   "theorems": [
    "Efp.Props.C149_refuted",
    "Efp.Props.C149_insert_partial"
   ],
   "note": "False of the code and refuted: insert(pos, text) reserves exactly what it needs, so n insertions of one character at the end relocate n(n-1)/2 characters. Proved: an insertion of a text costs at most three times the largest size, mixed with any other calls."
  },
  {
   "property": "C150",
   "status": "partial",
   "theorems": [
    "Efp.Props.C150_refuted",
    "Efp.Props.C150_one_caller_partial"
   ],
   "note": "False of the code and refuted for every string: c_str() const writes the NUL, so two threads that call it race. Proved: if at most one thread calls c_str(), no schedule has a data race in the C++ memory model, nothing is undefined, and every thread gets the sequential results."
  },
  {
   "property": "C151",
   "status": "partial",
   "theorems": [
    "Efp.Props.C151_refuted",
    "Efp.Props.C151_create_partial",
    "Efp.Props.C151_double_buffer_partial",
    "Efp.Props.C151_blocking_partial",
    "Efp.Props.C151_nonblocking_partial"
   ],
   "note": "False of the code and refuted: if the second new in the constructor of DoubleBuffer throws, the first buffer leaks. Proved: in every state any schedule reaches (one consumer for DoubleBuffer) the destructor is defined, destroys every element once and gives back both blocks."
  },
  {
   "property": "C152",
   "status": "partial",
   "theorems": [
    "Efp.Props.C152_expression",
    "Efp.Props.C152_names_partial",
    "Efp.Props.C152_refuted"
   ],
   "note": "Inside one expression proved in full. For names false of the code: a non-empty view of a temporary is undefined to read in the next statement, refuted for every such expression. Proved for all sequences of definitions in which every named view looks at a named container."
  },
  {
   "property": "C153",
   "status": "partial",
   "theorems": [
    "Efp.Props.C153_partial",
    "Efp.Props.C153_refuted"
   ],
   "note": "False of the code: copies of default-constructed inner vectors, or of an outer vector that never allocated, hold an uninitialised pointer and their destruction is undefined, refuted after every program. Proved for all programs that copy only non-empty vectors; inner vectors of resource-owning elements change at the end only (C04)."
  },
  {
   "property": "C154",
   "status": "partial",
   "theorems": [
    "Efp.Props.C154_order_among_elements",
    "Efp.Props.C154_numbers_ascend_partial",
    "Efp.Props.C154_quicksort_with_nan",
    "Efp.Props.C154_nan_is_a_wall",
    "Efp.Props.C154_nan_is_a_wall_for_sort",
    "Efp.Props.C154_refuted"
   ],
   "note": "False of the code when a NaN is in the vector: refuted for insertion_sort, sort, heapsort and merge_sort_by. Proved for every vector without NaN (sort: up to 32 elements, see C41), and for quicksort and sort_unstable the numbers ascend whatever NaNs are among them; for insertion_sort a NaN is shown to be a wall between two separately sorted parts."
  },
  {
   "property": "C155",
   "status": "partial",
   "theorems": [
    "Efp.Props.C155_regression_with_index_partial",
    "Efp.Props.C155_regression_partial",
    "Efp.Props.C155_detrend_partial",
    "Efp.Props.C155_refuted"
   ],
   "note": "False of the code in general: refuted for three equal numbers 0.1, of which detrend leaves three negative numbers, and for one element, of which it leaves NaN (from 1291 elements on the index arithmetic overflows, C70). Proved for 2 to 1290 integers on a line with slope up to 2^22 and offset up to 2^40: no rounding happens at all."
  },
  {
   "property": "C156",
   "status": "partial",
   "theorems": [
    "Efp.Props.C156_vcb_view_partial",
    "Efp.Props.C156_vcq_view_partial",
    "Efp.Props.C156_vcq_view_kept",
    "Efp.Props.C156_vcb_view_refuted",
    "Efp.Props.C156_vcq_view_refuted",
    "Efp.Props.C156_vcq_popped_dead"
   ],
   "note": "False of the code: one push onto a Vcb or a full Vcq changes what a view shows, and after pop_front of a class that frees something reading the view is undefined. Proved: exactly what each element of the view shows after any further history; a view of a Vcq is kept while no element leaves the queue, element i of a view of a Vcb while at most i values are pushed."
  },
  {
   "property": "C157",
   "status": "proved",
   "theorems": [
    "Efp.Props.C157_vcb_argument",
    "Efp.Props.C157_vcq_argument",
    "Efp.Props.C157_vcb_foldl",
    "Efp.Props.C157_vcb_map",
    "Efp.Props.C157_vcq_filter"
   ],
   "note": "The argument theorems say that the container is a valid argument with these values, so that every theorem about a list function (C42-C58) applies to it; foldl, map and filter are spelled out."
  },
  {
   "property": "C158",
   "status": "partial",
   "theorems": [
    "Efp.Props.C158_refuted",
    "Efp.Props.C158_sqrt_partial",
    "Efp.Props.C158_squares_partial",
    "Efp.Props.C158_at_most_one_more_partial",
    "Efp.Props.C158_negative"
   ],
   "note": "False of the code in 64 bits: sqrt of 2^52 + 2^27 is one too large. Proved below that number, so for all types of up to 32 bits, and for all squares; every other result is the integer root or one more. The root of a negative integer is undefined behaviour."
  },
  {
   "property": "C159",
   "status": "partial",
   "theorems": [
    "Efp.Props.C159_refuted",
    "Efp.Props.C159_copy_partial",
    "Efp.Props.C159_overlap",
    "Efp.Props.C159_builds_agree"
   ],
   "note": "False of the freestanding copy if dest lies inside the source, behind its beginning (undefined in hosted builds): the bytes before dest are repeated, proved exactly. Proved for all other positions; where the hosted copy is defined both builds agree."
  },
  {
   "property": "C160",
   "status": "partial",
   "theorems": [
    "Efp.Props.C160_hosted",
    "Efp.Props.C160_refuted",
    "Efp.Props.C160_dangling",
    "Efp.Props.C160_freestanding_partial",
    "Efp.Props.C160_copies",
    "Efp.Props.C160_made"
   ],
   "note": "Proved for hosted builds. False of freestanding builds, whose errors keep only a pointer: proved there for every history that leaves the buffer alone, so for string literals."
  },
  {
   "property": "C161",
   "status": "partial",
   "theorems": [
    "Efp.Props.C161_pads_whole_partial",
    "Efp.Props.C161_width_argument",
    "Efp.Props.C161_refuted"
   ],
   "note": "Proved for options without sign, # and zero flag whose numbers are literal: the result is that of the text of the whole as a string with fill, alignment and width, with every member as in a field of its own with the rest. False otherwise: a width after a sign, # or zero flag goes to every member, a width from an argument is ignored whatever it is (proved), a precision from an argument is refused."
  },
  {
   "property": "C162",
   "status": "partial",
   "theorems": [
    "Efp.Props.C162_nth_partial",
    "Efp.Props.C162_argument_partial",
    "Efp.Props.C162_folds_partial",
    "Efp.Props.C162_filter_partial",
    "Efp.Props.C162_map_partial",
    "Efp.Props.C162_assign_partial",
    "Efp.Props.C162_refuted",
    "Efp.Props.C162_bool_argument",
    "Efp.Props.C162_past_the_end"
   ],
   "note": "Proved for every container but std::vector<bool>. False of that one: nth returns a reference to a temporary, so reading any element is undefined."
  },
  {
   "property": "C163",
   "status": "partial",
   "theorems": [
    "Efp.Props.C163_result",
    "Efp.Props.C163_same_type_partial",
    "Efp.Props.C163_refuted"
   ],
   "note": "Proved if all branches have one return type. False otherwise: the result is converted to the type that the branch of the first alternative returns, so a double becomes an int, and a value becomes a dangling reference if that branch returns a reference. C163_result says what is returned in every case."
  },
  {
   "property": "C164",
   "status": "proved",
   "theorems": [
    "Efp.Props.C164_forward",
    "Efp.Props.C164_move",
    "Efp.Props.C164_removed"
   ],
   "note": "For every type in the normal form of the model and both value categories."
  },
  {
   "property": "C165",
   "status": "partial",
   "theorems": [
    "Efp.Props.C165_arguments_partial",
    "Efp.Props.C165_arguments_sound",
    "Efp.Props.C165_call_operator_partial",
    "Efp.Props.C165_ct_const_partial",
    "Efp.Props.C165_default_only_void",
    "Efp.Props.C165_func_ptr",
    "Efp.Props.C165_refuted"
   ],
   "note": "Each question is characterised exactly. False of the code: IsDefaultConstructible is true for void only; HasCallOperator denies overloaded call operators; Arguments does not know functions and, since C++17, noexcept signatures, so a noexcept lambda is no wild card; IsCtConst denies constants with a qualifier."
  },
  {
   "property": "C166",
   "status": "partial",
   "theorems": [
    "Efp.Props.C166_inline",
    "Efp.Props.C166_apart",
    "Efp.Props.C166_fields",
    "Efp.Props.C166_fields_inside",
    "Efp.Props.C166_slots",
    "Efp.Props.C166_types",
    "Efp.Props.C166_heap_partial",
    "Efp.Props.C166_overaligned",
    "Efp.Props.C166_refuted"
   ],
   "note": "Proved for every nesting of the inline containers, Enum, Maybe and Tuple, with no restriction on alignments, and for vectors of types that are not over-aligned. False for vectors of over-aligned types: the block comes from the plain operator new (C166_refuted, C166_overaligned)."
  },
  {
   "property": "C167",
   "status": "partial",
   "theorems": [
    "Efp.Props.C167_vector_partial",
    "Efp.Props.C167_arrvec",
    "Efp.Props.C167_queue",
    "Efp.Props.C167_buffer",
    "Efp.Props.C167_reserved",
    "Efp.Props.C167_freestanding",
    "Efp.Props.C167_refuted"
   ],
   "note": "Proved for vectors on hosted platforms and for bounded vectors. False of vectors in freestanding builds: efp::Allocator::construct copies whatever it is given, so each move of the hosted build is a copy (C167_freestanding is exact). Vcq copies each element twice and Vcb three times, exactly."
  },
  {
   "property": "C168",
   "status": "partial",
   "theorems": [
    "Efp.Props.C168_float_partial",
    "Efp.Props.C168_integers",
    "Efp.Props.C168_three_values",
    "Efp.Props.C168_refuted"
   ],
   "note": "True of floating-point types. False of integer types: the result is truncated to the type of the argument, so it is 0 wherever the function is below 1 in magnitude (C168_integers)."
  },
  {
   "property": "C169",
   "status": "proved",
   "theorems": [
    "Efp.Props.C169_one",
    "Efp.Props.C169_round"
   ],
   "note": "For values of any type and both directions."
  },
  {
   "property": "C170",
   "status": "partial",
   "theorems": [
    "Efp.Props.C170_nrmse_mean",
    "Efp.Props.C170_nrmse_mean_scale",
    "Efp.Props.C170_nrmse_max_min_partial",
    "Efp.Props.C170_nrmse_max_min_affine_partial",
    "Efp.Props.C170_refuted"
   ],
   "note": "In exact arithmetic. nrmse_mean in full. nrmse_max_min proved if some element of the second sequence is at least NumericLimits::min(); false if all are below (all negative, say): it divides by the distance to that limit, refuted for all such data."
  },
  {
   "property": "C171",
   "status": "partial",
   "theorems": [
    "Efp.Props.C171_result_partial",
    "Efp.Props.C171_refuted"
   ],
   "note": "False of the code and refuted: move assignment returns a copy, so what is pushed onto the result is lost. Proved: the copy shows the window of the target, and target, source and copy are destroyed cleanly."
  },
  {
   "property": "C172",
   "status": "partial",
   "theorems": [
    "Efp.Props.C172_conserved",
    "Efp.Props.C172_order_partial",
    "Efp.Props.C172_bounded_order_partial",
    "Efp.Props.C172_bounded_no_duplicates",
    "Efp.Props.C172_one_each",
    "Efp.Props.C172_refuted"
   ],
   "note": "The order is kept if one thread works between each two neighbouring queues, for every schedule; with two threads there one may overtake the other (refuted). That nothing is lost or duplicated is proved for any number of threads. With bounded queues in the chain, what arrives is a part of what was sent, in order."
  },
  {
   "property": "C173",
   "status": "partial",
   "theorems": [
    "Efp.Props.C173_zero",
    "Efp.Props.C173_mean_partial",
    "Efp.Props.C173_max_min_partial",
    "Efp.Props.C173_refuted"
   ],
   "note": "False of the code: NaN if the mean is zero (nrmse_mean), for constant data (nrmse_max_min) and without elements. Proved: exactly which data give NaN, and zero for all other finite data."
  },
  {
   "property": "C174",
   "status": "proved",
   "theorems": [
    "Efp.Props.C174_errors",
    "Efp.Props.C174_rms",
    "Efp.Props.C174_out_of_range"
   ],
   "note": "Relative errors 2(n+2)u for sse, 2(n+3)u for mse and 2(n+5)u for the squares of rmse and rms, u the unit roundoff. C174_out_of_range shows that the range is needed."
  },
  {
   "property": "C175",
   "status": "proved",
   "theorems": [
    "Efp.Props.C175_variance",
    "Efp.Props.C175_mean_error"
   ],
   "note": "Relative errors 2(n+3)u for variance and 2(n+5)u for the square of standard_deviation, u the unit roundoff, around the exact variance plus the squared error of the mean (which C120 bounds)."
  },
  {
   "property": "C176",
   "status": "proved",
   "theorems": [
    "Efp.Props.C176_covariance",
    "Efp.Props.C176_overflow"
   ],
   "note": "The bound has no lower limit on the data: subnormal products are covered by the term 6 tiny. Equal lengths; the computed means are assumed finite (C120 says when they are)."
  },
  {
   "property": "C177",
   "status": "proved",
   "theorems": [
    "Efp.Props.C177_autocovariance"
   ],
   "note": "Deviations are from the computed mean (C120 bounds its error)."
  },
  {
   "property": "C178",
   "status": "proved",
   "theorems": [
    "Efp.Props.C178_slope"
   ],
   "note": "Deviations are from the computed means (C120 bounds their errors). linear_regression_with_index: C181; exact cases: C155."
  },
  {
   "property": "C179",
   "status": "proved",
   "theorems": [
    "Efp.Props.C179_correlation"
   ],
   "note": "The bound on the number of elements is (n + 6) unit roundoffs at most 1/8, which for double any vector in memory satisfies."
  },
  {
   "property": "C180",
   "status": "proved",
   "theorems": [
    "Efp.Props.C180_autocorrelation"
   ],
   "note": "Deviations are from the computed mean (C175_mean_error bounds its error). Negative lags and lags from n on: C71."
  },
  {
   "property": "C181",
   "status": "proved",
   "theorems": [
    "Efp.Props.C181_slope"
   ],
   "note": "The exact slope is stated with the exact average of the data, not the computed mean."
  },
  {
   "property": "C182",
   "status": "proved",
   "theorems": [
    "Efp.Props.C182_detrend"
   ],
   "note": "No assumption on intermediate results: that nothing overflows is proved from the range of the data. Longer sequences: C70 (overflow of an int)."
  },
  {
   "property": "C183",
   "status": "proved",
   "theorems": [
    "Efp.Props.C183_mean",
    "Efp.Props.C183_covariance",
    "Efp.Props.C183_variance"
   ],
   "note": "Only the range of the data is assumed: that the computed means are finite and nothing overflows is proved. C175 and C176 have finer bounds in terms of the deviations."
  }
 ]
}