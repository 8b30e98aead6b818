# Formal model of cwahn/efp: design

The code under /repo/include/efp is read as text and modelled in Lean 4 under `lean/Verif`.
Nothing is executed; every definition cites the lines it models.

## Method

* **Outcomes.** Every modelled C++ operation returns one of three outcomes: a normal result,
  a thrown `RuntimeError` (carrying the object state at the throw), or undefined behaviour with a
  reason (out-of-bounds, null or wild pointer, reading a dead object, destroying a dead object, ...).
  A theorem that says "returns normally" therefore also says "no undefined behaviour".
* **Object lifetimes.** Storage is a list of cells: `raw` (no object), `live a`, `moved` (alive,
  moved-from). The element kind is a parameter: `trivial` (destroy is a no-op, assignment into raw
  storage starts a lifetime, move is copy) or `managed` (resource-owning: destroy, assign, read of a
  raw cell are UB). A ledger counts constructions, destructions, allocations, deallocations, moves.
* **Sizes.** `size_t` is `Nat`, except where the code relies on wrap-around (`low - 1` in
  partition_by, int/size_t conversions), where arithmetic modulo 2^64 is explicit.
  Allocation never fails.
* **Concurrency.** Labelled transition system, arbitrary thread set, interleaving semantics,
  spurious wake-ups allowed.
* **Loops that may not end** carry a fuel argument; running out of fuel is the outcome `diverge`. Theorems hold for
  every sufficient fuel and say how much suffices.
* **False properties.** Where the code violates a property the negation is proved in general form and
  a guarded `_partial` theorem keeps what is true. The disagreement is listed under Findings.
* **Layout.** `Verif/X.lean` is the model, `Verif/Spec/X.lean` the vocabulary of the statements (lists, orders, client
  programs), `Verif/XLemmas.lean` and similar the proofs, `Verif/Props/X.lean` the property theorems, each with an
  `example` that meets its hypotheses.
* **Seeded bugs.** `seeded/LOG.jsonl` records edits of the model that would falsify a claim and the theorems that fail.

## Properties: plan, theorems, axioms

For each property: how it is modelled and proved, the status in MANIFEST.json, and the theorems (namespace
`Efp.Props`) with the axioms each depends on: `p` propext, `c` Classical.choice, `q` Quot.sound, `-` none.

* **C01 Vector of trivial elements behaves like a list.** Model VectorBase over an explicit block of cells (raw / live / moved-from) with size and capacity. Refinement to List by a representation relation, induction over an operation list; throw outcome carries the state at the throw. *Proved*: `C01_vector_refines_list` (pcq).
* **C02 Vector always keeps one spare slot.** Model VectorBase over an explicit block of cells (raw / live / moved-from) with size and capacity. Refinement to List by a representation relation, induction over an operation list; throw outcome carries the state at the throw. *Proved*: `C02_vector_spare_slot` (pcq).
* **C03 Vector of resource-owning elements: no leak, no double destruction (append/remove-at-end interface).** Same model, element kind `managed`; a ledger counts constructed and destroyed objects and allocated and freed blocks; invariant made = gone + alive by induction over histories, equality after destruction. *Proved*: `C03_vector_managed_lifetimes` (pcq).
* **C04 Vector insert and erase in the middle are safe for resource-owning elements.** Expected false: prove that middle insert and erase reach undefined behaviour for every managed vector with a shifted element; positive half for trivial elements is C01. *Partial*: `C04_insert_middle_managed_undefined` (pcq), `C04_erase_middle_managed_undefined` (pcq), `C04_insert_erase_partial` (pcq).
* **C05 Vector copy assignment makes the target equal to the source.** Expected false when the target has spare capacity: prove the general negation, and a guarded positive theorem. *Partial*: `C05_copy_assign_result` (pcq), `C05_copy_assign_partial` (pcq), `C05_copy_assign_refuted` (pcq), `C05_copy_assign_managed_undefined` (pcq).
* **C06 Vector copy construction yields an equal independent vector.** Expected false for a never-allocated source (pointer left uninitialised): prove it and the guarded positive theorem. *Partial*: `C06_copy_ctor_partial` (pcq), `C06_copy_of_default_undefined` (pcq).
* **C07 A throwing Vector or ArrVec call leaves the container unchanged.** Model VectorBase over an explicit block of cells (raw / live / moved-from) with size and capacity. Refinement to List by a representation relation, induction over an operation list; throw outcome carries the state at the throw. *Proved*: `C07_vector_throw_unchanged` (pq), `C07_arrvec_throw_unchanged` (p).
* **C08 push_back is amortised constant.** Ledger counts moved elements; potential-function invariant over n push_backs. *Proved*: `C08_push_back_amortised` (pcq).
* **C09 Vector move construction and assignment transfer ownership.** Ownership transfer in the cell model, both results represented, ledger preserved. *Proved*: `C09_move_ctor` (pcq), `C09_move_assign` (pcq), `C09_move_assign_self` (-).
* **C10 ArrVec behaves like a list of bounded length.** Model ArrVec over inline cells; refinement to List for both element kinds in one theorem (kind is a parameter). *Proved*: `C10_arrvec_refines_bounded_list` (pcq).
* **C11 ArrVec of resource-owning elements: no leak, no double destruction.** Model ArrVec over inline cells; refinement to List for both element kinds in one theorem (kind is a parameter). *Proved*: `C11_arrvec_managed_lifetimes` (pcq), `C11_resize_shrink_leaks` (pcq).
* **C12 ArrVec move leaves no living element behind.** Expected false for managed elements: moved-from shells stay alive; prove the exact number left. Value half proved. *Partial*: `C12_arrvec_move_partial` (pcq), `C12_arrvec_move_leaks` (pcq).
* **C13 Widening ArrVec conversion copies exactly the source elements.** Expected false for partially filled sources: reads raw cells. Guarded positive theorem. *Partial*: `C13_widen_full_partial` (pcq), `C13_widen_not_full_refuted` (pcq).
* **C14 Array is a fixed-size value.** Array model (all cells live), elementwise equality decision procedures; iff theorems. *Proved*: `C14_array_fixed_size_value` (pcq), `C14_array_element_access` (pcq).
* **C15 Container equality is extensional.** Array model (all cells live), elementwise equality decision procedures; iff theorems. *Proved*: `C15_vector_eq_extensional` (pcq), `C15_vector_eq_iff_contents` (pcq), `C15_arrvec_eq_extensional` (pcq), `C15_array_eq_extensional` (pcq), `C15_array_eq_iff_contents` (pcq), `C15_vector_equivalence` (pcq), `C15_arrvec_equivalence` (pcq), `C15_array_equivalence` (pcq).
* **C16 View equality compares the viewed contents.** Expected false (pointer comparison): characterise exactly what == decides, refute the property for two placements. *Partial*: `C16_distinct_sequences_never_equal` (pq), `C16_equal_views_same_contents_partial` (pq), `C16_converted_views_uninitialised` (pcq).
* **C17 Pushing an own element is safe.** Argument modelled as a reference into the own block; false exactly when the push reallocates; iff theorem. *Partial*: `C17_push_own_element` (pcq), `C17_push_own_element_partial` (pcq).
* **C18 String editing operations are list editing operations.** String model = Vector model of trivial elements plus the string.hpp members; list-level specifications; negations for compare, c_str, self append. *Proved*: `C18_history` (pcq), `C18_plus` (pcq), `C18_substr` (pcq), `C18_copy` (pcq).
* **C19 c_str returns the NUL-terminated contents.** String model = Vector model of trivial elements plus the string.hpp members; list-level specifications; negations for compare, c_str, self append. *Partial*: `C19_c_str_partial` (pcq), `C19_default_ub` (p), `C19_fill_ub` (pcq), `C19_insert_ub` (pcq).
* **C20 String compare orders strings lexicographically.** String model = Vector model of trivial elements plus the string.hpp members; list-level specifications; negations for compare, c_str, self append. *Partial*: `C20_compare_partial` (pcq), `C20_prefix_equal` (pcq), `C20_prefix_ub` (pcq), `C20_compare_pos_partial` (pcq).
* **C21 Appending a string to itself doubles it.** String model = Vector model of trivial elements plus the string.hpp members; list-level specifications; negations for compare, c_str, self append. *Partial*: `C21_self_append_empty_partial` (pcq), `C21_self_append_ub` (pcq).
* **C22 String comparison with a C string is exact.** String model = Vector model of trivial elements plus the string.hpp members; list-level specifications; negations for compare, c_str, self append. *Partial*: `C22_eq_cstr_partial` (pcq), `C22_default_wrong` (p).
* **C23 Vcb is a sliding window over the last n pushes.** Model the 2n-cell double mapped buffers with read/write offsets; window/FIFO refinement by induction over histories; negations for copy of rotated queue, end() of an empty queue, write-through. *Proved*: `C23_window` (pcq), `C23_lastN_meaning` (pq).
* **C24 Writing through a Vcb element persists until evicted.** Model the 2n-cell double mapped buffers with read/write offsets; window/FIFO refinement by induction over histories; negations for copy of rotated queue, end() of an empty queue, write-through. *Partial*: `C24_write_persists_partial` (pcq), `C24_write_lost` (pcq).
* **C25 Vcq is a bounded FIFO queue that drops the oldest.** Model the 2n-cell double mapped buffers with read/write offsets; window/FIFO refinement by induction over histories; negations for copy of rotated queue, end() of an empty queue, write-through. *Proved*: `C25_fifo` (pq), `C25_pop_empty` (pq), `C25_fifo_drops` (pq).
* **C26 Copying or moving a Vcq preserves its contents.** Model the 2n-cell double mapped buffers with read/write offsets; window/FIFO refinement by induction over histories; negations for copy of rotated queue, end() of an empty queue, write-through. *Partial*: `C26_copy_partial` (pcq), `C26_copy_assign_partial` (pcq), `C26_move_trivial_partial` (pcq), `C26_copy_rotated` (pcq), `C26_copy_wrong` (pcq), `C26_copy_ub` (pcq), `C26_move_ub` (pq), `C26_move_assign_trivial_partial` (pcq), `C26_move_assign_ub` (pq), `C26_self_assign_partial` (pq), `C26_self_assign_wrong` (pq), `C26_self_assign_ub` (pq).
* **C27 Iterating a Vcq visits exactly its elements.** Model the 2n-cell double mapped buffers with read/write offsets; window/FIFO refinement by induction over histories; negations for copy of rotated queue, end() of an empty queue, write-through. *Partial*: `C27_iterate_partial` (pq), `C27_empty_range` (pq), `C27_empty_ub` (pq).
* **C28 Vcq lifetimes of resource-owning elements.** Model the 2n-cell double mapped buffers with read/write offsets; window/FIFO refinement by induction over histories; negations for copy of rotated queue, end() of an empty queue, write-through. *Proved*: `C28_lifetimes` (pq), `C28_live_slots` (pq).
* **C29 Unbounded BlockingQ delivers every element once, in FIFO order.** Labelled transition system: one mutex, one condition variable, a program counter per thread, arbitrary finite or infinite thread set, spurious wake-ups; inductive invariants. Memory model: sequentially consistent interleaving of critical sections (data races on unlocked accesses are flagged as a separate reachable-state predicate). *Proved*: `C29_blocking_fifo` (pcq), `C29_blocking_linearizable` (pcq), `C29_blocking_calls` (pcq).
* **C30 Bounded BlockingQ: what may be lost is exactly the overflow.** Labelled transition system: one mutex, one condition variable, a program counter per thread, arbitrary finite or infinite thread set, spurious wake-ups; inductive invariants. Memory model: sequentially consistent interleaving of critical sections (data races on unlocked accesses are flagged as a separate reachable-state predicate). *Proved*: `C30_bounded_blocking` (pcq), `C30_no_loss` (pcq), `C30_lost_only_behind_n_more` (pcq).
* **C31 BlockingQ critical sections are mutually exclusive.** Labelled transition system: one mutex, one condition variable, a program counter per thread, arbitrary finite or infinite thread set, spurious wake-ups; inductive invariants. Memory model: sequentially consistent interleaving of critical sections (data races on unlocked accesses are flagged as a separate reachable-state predicate). *Proved*: `C31_exclusive` (pcq), `C31_exclusive_bounded` (pcq), `C31_accesses_complete` (p), `C31_queue_unchanged` (p).
* **C32 BlockingQ has no lost wake-up.** Labelled transition system: one mutex, one condition variable, a program counter per thread, arbitrary finite or infinite thread set, spurious wake-ups; inductive invariants. Memory model: sequentially consistent interleaving of critical sections (data races on unlocked accesses are flagged as a separate reachable-state predicate). *Proved*: `C32_no_lost_wakeup` (pcq), `C32_no_lost_wakeup_bounded` (pcq), `C32_progress` (pcq), `C32_progress_bounded` (pcq).
* **C33 NonBlockingQ dequeue returns the oldest element or nothing, never blocks.** Labelled transition system: one mutex, one condition variable, a program counter per thread, arbitrary finite or infinite thread set, spurious wake-ups; inductive invariants. Memory model: sequentially consistent interleaving of critical sections (data races on unlocked accesses are flagged as a separate reachable-state predicate). *Proved*: `C33_nonblocking` (pcq), `C33_nonblocking_bounded` (pcq), `C33_lost_only_behind_n_more` (pcq), `C33_nonblocking_calls` (pcq), `C33_nonblocking_progress` (pcq), `C33_nonblocking_progress_bounded` (pcq).
* **C34 DoubleBuffer delivers elements in enqueue order.** Transition system for enqueue / swap / dequeue; expected false when swapping an undrained read buffer; guarded positive theorem. *Partial*: `C34_double_buffer` (pcq), `C34_order_partial` (pcq), `C34_progress` (pcq), `C34_out_of_order` (p), `C34_two_consumers_race` (p), `C34_dequeue_empty_ub` (p), `C34_accesses_complete` (pq), `C34_writes_complete` (pq).
* **C35 Every sort permutes its input, whatever the comparator.** Each sort modelled on a List with checked reads and writes (out of range = UB outcome), size_t wrap in the partition index; permutation and no-UB for every comparator; sortedness under strict weak order; stability by tagging. sort/timsort: expected false above 32 elements. *Proved*: `C35_sorts_permute` (pcq), `C35_range_sorts_permute` (pcq).
* **C36 quicksort sorts.** Each sort modelled on a List with checked reads and writes (out of range = UB outcome), size_t wrap in the partition index; permutation and no-UB for every comparator; sortedness under strict weak order; stability by tagging. sort/timsort: expected false above 32 elements. *Proved*: `C36_quicksort_sorts` (pcq), `C36_quicksort_range_sorts` (pcq), `C36_quicksort_under_partial_order` (pcq).
* **C37 heapsort sorts.** Each sort modelled on a List with checked reads and writes (out of range = UB outcome), size_t wrap in the partition index; permutation and no-UB for every comparator; sortedness under strict weak order; stability by tagging. sort/timsort: expected false above 32 elements. *Proved*: `C37_heapsort_sorts` (pcq).
* **C38 insertion_sort sorts and is stable.** Each sort modelled on a List with checked reads and writes (out of range = UB outcome), size_t wrap in the partition index; permutation and no-UB for every comparator; sortedness under strict weak order; stability by tagging. sort/timsort: expected false above 32 elements. *Proved*: `C38_insertion_sort_sorts_stably` (pcq).
* **C39 merge_sort_by sorts the given range and only it, stably.** Each sort modelled on a List with checked reads and writes (out of range = UB outcome), size_t wrap in the partition index; permutation and no-UB for every comparator; sortedness under strict weak order; stability by tagging. sort/timsort: expected false above 32 elements. *Partial*: `C39_merge_sort_sorts_range_partial` (pcq), `C39_merge_sort_reverses_equivalents` (pcq), `C39_merge_sort_unstable` (pcq), `C39_merge_sort_stable_for_le` (pcq).
* **C40 sort_unstable sorts.** Each sort modelled on a List with checked reads and writes (out of range = UB outcome), size_t wrap in the partition index; permutation and no-UB for every comparator; sortedness under strict weak order; stability by tagging. sort/timsort: expected false above 32 elements. *Proved*: `C40_sort_unstable_sorts` (pcq), `C40_sort_unstable_under_partial_order` (pcq).
* **C41 sort sorts stably.** Each sort modelled on a List with checked reads and writes (out of range = UB outcome), size_t wrap in the partition index; permutation and no-UB for every comparator; sortedness under strict weak order; stability by tagging. sort/timsort: expected false above 32 elements. *Partial*: `C41_sort_small_partial` (pcq), `C41_sort_sorted_partial` (pcq), `C41_sort_fails` (pcq), `C41_sort_two_runs` (pcq), `C41_sort_iff` (pcq).
* **C42 map applies the function pointwise up to the shortest argument.** Sequences modelled by their read interface (length, nth with an out-of-range outcome) and result containers by Array/ArrVec/Vector cells; each function is the C++ loop; the specification is the core List function. *Proved*: `C42_map` (pcq), `C42_map_with_index` (pcq), `C42_map_pure` (pcq), `C42_map_calls` (pcq), `C42_map_id` (pcq), `C42_map_map` (pcq).
* **C43 filter keeps exactly the satisfying elements in order.** Sequences modelled by their read interface (length, nth with an out-of-range outcome) and result containers by Array/ArrVec/Vector cells; each function is the C++ loop; the specification is the core List function. *Proved*: `C43_filter` (pcq), `C43_filter_pure` (pcq).
* **C44 folds follow the list definition.** Sequences modelled by their read interface (length, nth with an out-of-range outcome) and result containers by Array/ArrVec/Vector cells; each function is the C++ loop; the specification is the core List function. *Proved*: `C44_folds` (pq), `C44_folds_pure` (pq).
* **C45 append concatenates its arguments left to right.** Evaluation order of the pack expansion is a parameter (any permutation); result computed per order; property holds exactly for left-to-right. *Partial*: `C45_append_left_to_right_partial` (pcq), `C45_append_any_order` (pcq), `C45_append_order_dependent` (pcq).
* **C46 concat flattens and intercalate joins.** Sequences modelled by their read interface (length, nth with an out-of-range outcome) and result containers by Array/ArrVec/Vector cells; each function is the C++ loop; the specification is the core List function. *Partial*: `C46_concat` (pcq), `C46_intercalate_partial` (pcq), `C46_intercalate_static_empty` (pcq).
* **C47 from_function tabulates.** Sequences modelled by their read interface (length, nth with an out-of-range outcome) and result containers by Array/ArrVec/Vector cells; each function is the C++ loop; the specification is the core List function. *Proved*: `C47_from_function` (pcq), `C47_from_function_pure` (pcq).
* **C48 take and drop partition any sequence.** Sequences modelled by their read interface (length, nth with an out-of-range outcome) and result containers by Array/ArrVec/Vector cells; each function is the C++ loop; the specification is the core List function. *Proved*: `C48_take_drop` (pq), `C48_types` (pq), `C48_unsafe` (pq), `C48_converted` (pq).
* **C49 slice(start, end, as) is the elements start..end-1 that exist.** Sequences modelled by their read interface (length, nth with an out-of-range outcome) and result containers by Array/ArrVec/Vector cells; each function is the C++ loop; the specification is the core List function. *Partial*: `C49_slice_in_range_partial` (pq), `C49_slice_static_partial` (pq), `C49_slice_overruns` (pcq), `C49_slice_reversed` (pcq), `C49_slice_static_reversed` (pq).
* **C50 head, tail, init, last agree with the list.** Sequences modelled by their read interface (length, nth with an out-of-range outcome) and result containers by Array/ArrVec/Vector cells; each function is the C++ loop; the specification is the core List function. *Proved*: `C50_nonempty` (pq), `C50_empty` (p), `C50_guard` (p).
* **C51 searches return the first match or nothing.** Sequences modelled by their read interface (length, nth with an out-of-range outcome) and result containers by Array/ArrVec/Vector cells; each function is the C++ loop; the specification is the core List function. *Proved*: `C51_find` (pq), `C51_find_pure` (pcq), `C51_elem` (p), `C51_find_indices` (pcq), `C51_find_indices_pure` (pcq), `C51_elem_indices` (pcq).
* **C52 cartesian functions enumerate the product in lexicographic order.** Sequences modelled by their read interface (length, nth with an out-of-range outcome) and result containers by Array/ArrVec/Vector cells; each function is the C++ loop; the specification is the core List function. *Proved*: `C52_cartesian_for_each` (pq), `C52_cartesian_for_index` (pq), `C52_cartesian_map` (pcq), `C52_cartesian_map_pure` (pcq), `combos_mem` (pcq), `combos_count` (pq), `combos_lex` (pcq), `combos_indices` (pcq).
* **C53 iteration functions visit in order with the right index.** Sequences modelled by their read interface (length, nth with an out-of-range outcome) and result containers by Array/ArrVec/Vector cells; each function is the C++ loop; the specification is the core List function. *Proved*: `C53_for_each` (pq), `C53_for_each_mut` (pcq), `C53_for_each_with_index_mut` (pcq), `C53_for_each_mut_one` (pcq), `C53_for_each_with_index_mut_throw` (pcq), `C53_for_each_mut_throw` (pcq).
* **C54 sequence-returning functions never overflow their result type.** Type-level sizes as an inductive type (static / bounded / dynamic); return-type selection as a function; prove run-time length fits. *Proved*: `C54_result_types_suffice` (pq), `C54_intercalate` (pq), `C54_no_capacity_error` (pcq), `C54_intercalate_no_capacity_error` (pcq).
* **C55 map and friends construct resource-owning results properly.** Cell model with kind managed: map into ArrVec/Vector assigns raw cells; negation and the positive Array case. *Partial*: `C55_static_results_partial` (pcq), `C55_dynamic_results_assign_to_raw` (pq).
* **C56 Enum match runs exactly the branch of the stored alternative.** Enum as tag plus cell of the tagged alternative; the switch stamped as in the macro; histories over a store of Enum variables with a ledger; throwing copy as a parameter. *Partial*: `C56_match_partial` (pcq), `C56_well_written_compiles` (pcq), `C56_limit` (pcq).
* **C57 Enum get and move succeed exactly for the stored alternative.** Enum as tag plus cell of the tagged alternative; the switch stamped as in the macro; histories over a store of Enum variables with a ledger; throwing copy as a parameter. *Proved*: `C57_get_index` (pcq), `C57_get_type` (pcq).
* **C58 Enum copies, moves and assignments keep exactly one living alternative.** Enum as tag plus cell of the tagged alternative; the switch stamped as in the macro; histories over a store of Enum variables with a ledger; throwing copy as a parameter. *Proved*: `C58_lifetimes` (pcq), `C58_one_object` (pcq), `C58_no_leak` (pcq).
* **C59 Enum assignment is safe when an element copy throws.** Enum as tag plus cell of the tagged alternative; the switch stamped as in the macro; histories over a store of Enum variables with a ledger; throwing copy as a parameter. *Partial*: `C59_throwing_assignment_unsafe` (pcq), `C59_other_throws_partial` (pcq).
* **C60 Enum equality.** Enum as tag plus cell of the tagged alternative; the switch stamped as in the macro; histories over a store of Enum variables with a ledger; throwing copy as a parameter. *Proved*: `C60_equality` (pcq).
* **C61 Maybe is a lawful functor, applicative and monad.** Maybe over the Enum model; laws as equalities for all functions. *Partial*: `C61_value` (pcq), `C61_fmap` (p), `C61_functor` (pq), `C61_monad` (p), `C61_applicative` (pcq), `C61_maybe_nothing` (p), `C61_fmap_effects` (p), `C61_fmap_effects_compose` (p), `C61_ap_effects` (pcq), `C61_bind_effects` (p).
* **C62 Tuple projections and equality.** Tuple as heterogeneous list indexed by position; comparator recursion from last index to first. *Proved*: `C62_get` (pcq), `C62_assign` (pcq), `C62_equality` (pcq), `C62_match` (pcq).
* **C63 compile-time folds and type lookups.** Each fold as the C++ recursion over a list; lookup by structural recursion; power_2_ceiling over uint8_t arithmetic. *Partial*: `C63_all_any` (p), `C63_maximum_minimum` (pq), `C63_float_maximum` (pq), `C63_sum_product` (pq), `C63_lookup` (pq), `C63_power_2_ceiling_partial` (pcq), `C63_power_2_ceiling_diverges` (pcq).
* **C64 compose applies right to left and is associative.** Sequences modelled by their read interface (length, nth with an out-of-range outcome) and result containers by Array/ArrVec/Vector cells; each function is the C++ loop; the specification is the core List function. *Proved*: `C64_compose` (pq), `C64_associative` (pq).
* **C65 func_ptr gives each function object its own C function pointer.** Registry model: one static slot per closure type; history of registrations; negation for two objects of one type and positive theorem for distinct types. *Partial*: `C65_last_registration_wins` (pq), `C65_own_function_partial` (pq).
* **C66 Line reading splits a file at newlines without loss.** FILE* as byte stream and handle table; read_line loop; ownership ledger; mode bytes as Option (indeterminate after move). *Partial*: `C66_read_line` (pcq), `C66_read_lines_partial` (pcq), `C66_lines_unique` (p), `C66_no_empty_line_partial` (pcq), `C66_empty_line` (pcq), `C66_empty_line_value` (pcq), `C66_final_newline` (pcq), `C66_read_error` (pcq).
* **C67 File handles are released exactly once and keep their mode.** FILE* as byte stream and handle table; read_line loop; ownership ledger; mode bytes as Option (indeterminate after move). *Partial*: `C67_handles_partial` (pcq), `C67_assign_leaks` (pcq), `C67_failed_close` (pcq), `C67_mode_lost` (pq).
* **C68 max_elem, min_elem and max_min find the extrema.** Element type abstracted as a linear order with the value of NumericLimits::min()/max() as a parameter; positive when it is a lower bound, negation for the floating-point value. *Partial*: `C68_extrema_partial` (pq), `C68_float_max` (pq), `C68_max_min` (pq).
* **C69 mean, variance, covariance satisfy their algebra in exact arithmetic.** Exact arithmetic over a field (rationals / ordered fields); floating-point rounding is treated in C119-C123. *Proved*: `C69_mean` (pcq), `C69_variance` (pcq), `C69_covariance` (pcq), `C69_affine` (pcq), `C69_variance_sign` (pcq), `C69_remove_dc` (pcq).
* **C70 linear_regression is the least squares optimum.** Exact arithmetic over a field (rationals / ordered fields); floating-point rounding is treated in C119-C123. *Partial*: `C70_least_squares` (pcq), `C70_collinear` (pcq), `C70_with_index_partial` (pcq), `C70_index_overflow` (pcq), `C70_detrend_partial` (pcq), `C70_detrend_narrow` (pcq).
* **C71 autocovariance is defined for every lag.** int/size_t conversions explicit; expected false for lag > length and negative lag. *Partial*: `C71_lag_out_of_range` (pcq), `C71_lag_partial` (pcq).
* **C72 formatting a sequence lists its elements.** join model over strings; injectivity under separator-free elements. *Partial*: `C72_vector` (pcq), `C72_arrvec` (pcq), `C72_array` (pcq), `C72_vcb` (pcq), `C72_vcq_partial` (pq), `C72_empty_vcq` (pq), `C72_determines_partial` (pq), `C72_ambiguous_empty` (pq).
* **C73 Copying and moving a Vcb preserves the window and its lifetimes.** Same buffer model as C23-C28, plus copies, element writes and own-element pushes; guarded positive theorems, negations where a mirror is missed. *Partial*: `C73_copy_move_partial` (pcq), `C73_self_assign_ub` (pcq).
* **C74 Writing through a Vcq element changes that element of the queue.** Same buffer model as C23-C28, plus copies, element writes and own-element pushes; guarded positive theorems, negations where a mirror is missed. *Partial*: `C74_write_persists_partial` (pcq), `C74_write_lost` (pq).
* **C75 A Vcq can push one of its own elements.** Same buffer model as C23-C28, plus copies, element writes and own-element pushes; guarded positive theorems, negations where a mirror is missed. *Partial*: `C75_push_own_partial` (pq), `C75_push_own_front_ub` (pq).
* **C76 String at, front and back.** Same buffer model as C23-C28, plus copies, element writes and own-element pushes; guarded positive theorems, negations where a mirror is missed. *Proved*: `C76_at` (pcq).
* **C77 A StringView shows the characters it was made from.** StringView as pointer and size into a character block; reuse of the view model. *Partial*: `C77_view_of_cstr` (pcq), `C77_view_of_string` (pcq), `C77_same_range_unequal` (pcq).
* **C78 Every NonBlockingQ operation may run concurrently with every other.** Data race = two threads at conflicting unlocked or differently locked accesses in one reachable state of the transition system. *Partial*: `C78_is_empty_races` (p), `C78_no_race_partial` (pcq), `C78_no_race_bounded_partial` (pcq), `C78_accesses_complete` (p).
* **C79 swap exchanges the two objects.** Functions over values and over lifetimes of function objects; direct proofs for all values. *Proved*: `C79_swap` (pcq).
* **C80 max, min and clamp.** Functions over values and over lifetimes of function objects; direct proofs for all values. *Proved*: `C80_clamp` (p), `C80_max_min` (p).
* **C81 A stored composition can be called later.** Functions over values and over lifetimes of function objects; direct proofs for all values. *Partial*: `C81_dangling` (pq), `C81_alive_partial` (pq).
* **C82 sum and product of an integer sequence.** Integer types as ranges with wrap or overflow-is-undefined arithmetic; floating-point types abstract where needed. *Partial*: `C82_sum_product_partial` (pq), `C82_signed_prefix` (pcq).
* **C83 abs and square of an integer.** Integer types as ranges with wrap or overflow-is-undefined arithmetic; floating-point types abstract where needed. *Partial*: `C83_abs_square_partial` (pq), `C83_abs_lowest` (pq).
* **C84 is_approx compares two numbers up to epsilon.** Integer types as ranges with wrap or overflow-is-undefined arithmetic; floating-point types abstract where needed. *Partial*: `C84_is_approx_partial` (pcq), `C84_truncation` (pcq), `C84_asymmetric` (pcq), `C84_integers_partial` (pcq), `C84_integers_signed_unsigned` (pcq), `C84_integers_overflow` (pq).
* **C85 mean of an integer sequence.** Integer types as ranges with wrap or overflow-is-undefined arithmetic; floating-point types abstract where needed. *Partial*: `C85_mean_integers_partial` (pcq), `C85_narrow_sum` (pcq).
* **C86 Correlations are between -1 and 1.** Exact arithmetic over a field (rationals / ordered fields); floating-point rounding is treated in C119-C123. *Proved*: `C86_correlation` (pcq), `C86_autocorrelation` (pcq).
* **C87 Error measures vanish exactly on agreement.** Exact arithmetic over a field (rationals / ordered fields); floating-point rounding is treated in C119-C123. *Proved*: `C87_errors` (pcq), `C87_rms` (pcq).
* **C88 Files without a handle are inert, and positions can be revisited.** Reads and writes of a File object without handle; stream position arithmetic. *Partial*: `C88_closed_file_partial` (pcq), `C88_seek_tell` (-), `C88_seek_read` (-), `C88_tell_seek` (p).
* **C89 Programs over many Vectors behave like programs over lists.** Programs over a list of variables sharing one ledger (`VecS.runW`), simulated step by step by the same program over lists (`Spec.vwRun`). The invariant relates every variable to its list and the ledger to the sum over all variables. *Partial*: `C89_program_partial` (pcq), `C89_swap` (pcq), `C89_copy_independent` (pcq).
* **C90 A Vector survives exceptions from allocation and from element copies.** Crash-point model (`Verif.Throw`): the state carries the number of further allocations and copies that succeed. Every call is shown to be the ordinary call or an exception that keeps representation and balance; histories by induction. The functions without a roll-back are run to their crash point explicitly. *Partial*: `C90_history_partial` (pcq), `C90_call_strong` (pcq), `C90_copy_ctor_leaks` (pcq), `C90_initializer_list_leaks` (pcq), `C90_assignment_terminates` (pcq), `C90_throwing_move_leaks` (pcq).
* **C91 Fixed-capacity containers survive exceptions from element copies.** The same crash-point model for ArrVec, Vcb and Vcq. For every reachable state and crash point the state left behind is computed and its destructor evaluated. *Partial*: `C91_arrvec_insert_end_strong` (pcq), `C91_arrvec_enough` (pcq), `C91_cyclic_enough` (pq), `C91_vcq_push_room` (pq), `C91_arrvec_push_broken` (pcq), `C91_arrvec_insert_middle_broken` (pcq), `C91_arrvec_copy_ctor_leaks` (pcq), `C91_arrvec_assignment_broken` (pcq), `C91_vcb_push_broken` (pcq), `C91_vcq_push_full_broken` (pq).
* **C92 format strings have a grammar.** Function-by-function model of the parser and writers over byte strings, with reading past the end as an outcome of its own; the specification is an inductive grammar (`Spec.Fmt.Formats`) that scans nothing. Soundness by inverting the parser state machine, completeness by running it on every text of the grammar. *Proved*: `C92_grammar` (pcq), `C92_defined` (pcq), `C92_unique` (pcq), `C92_braces` (pcq).
* **C93 Fields take the arguments they name.** Consequences of the grammar, and of evaluating the scanner on the fields for the error cases; the packed descriptor is modelled bit by bit. *Proved*: `C93_automatic` (pcq), `C93_too_few` (pcq), `C93_index` (pcq), `C93_name` (pcq), `C93_no_mixing` (pcq).
* **C94 Literal text is transparent.** The short scanner and the memchr scanner are both modelled and proved equal for every handler that treats text piecewise; the handler commutes with text already in the buffer. *Proved*: `C94_prefix` (pcq), `C94_suffix` (pcq), `C94_both_scans` (pcq).
* **C95 Integer texts read back.** The two-digits-at-a-time and shift loops with their digit counts by table, against `Nat.toDigits`, read back by a separate reader. *Proved*: `C95_default` (pcq), `C95_bases` (pcq), `C95_injective` (pcq).
* **C96 Padding fills exactly the missing columns.** write_padded with its shift table and the zero padding of write_int_data, against counting columns. *Proved*: `C96_string` (pcq), `C96_integer` (pcq), `C96_zero` (pcq).
* **C97 Precision and width respect UTF-8.** The branchless UTF-8 decoder with its tables, the 4-byte blocks and the padded tail, against the decoder of the Lean library. *Proved*: `C97_precision` (pcq), `C97_columns` (pcq), `C97_any_bytes` (pcq).
* **C98 Width and precision numbers are exact or rejected.** parse_nonnegative_int with its 32-bit accumulator and the 64-bit conversions of dynamic values. *Partial*: `C98_literal_width` (pcq), `C98_dynamic_partial` (pcq), `C98_wraps_128` (pcq), `C98_leading_zeros_rejected` (pcq), `C98_literal_precision` (pcq), `C98_dynamic_precision_partial` (pcq), `C98_precision_wraps_128` (pcq).
* **C102 print is all or nothing on format errors.** print and println over a file that takes a limited number of bytes. *Proved*: `C102_print` (pcq), `C102_println` (pcq), `C102_println_full` (pcq).
* **C99 Debug presentation can be read back.** The escape sequences of a UTF-8 text form a prefix code, so the debug text is injective; escape sequences have fixed-length hexadecimal digits read back by `readNat`. *Partial*: `C99_quoted` (pcq), `C99_plain` (pcq), `C99_printable` (pcq), `C99_printable_bytes` (pcq), `C99_char_text` (pcq), `C99_reversible_partial` (pcq), `C99_char` (pcq), `C99_stray_bytes` (pcq), `C99_char_width_wrong` (pcq).
* **C103 format_to writes the text of format.** Every writer as the list of operations it does on its output buffer (push, append, reserve, direct writes); the operations write the text of the writer and use up what they reserve; a law for `grow` and stores, proved for each kind of buffer, carries this to the output. *Proved*: `C103_append` (pcq), `C103_pointer` (pcq), `C103_iterator` (pcq), `C103_error` (pcq).
* **C104 format_to_n never writes beyond its limit.** As C103, for the buffers that stop at a limit. *Proved*: `C104_pointer` (pcq), `C104_iterator` (pcq), `C104_error` (pcq).
* **C105 formatted_size is the length of the text.** As C103, for the buffer that counts. *Proved*: `C105_size` (pcq), `C105_fits` (pcq), `C105_error` (pcq).
* **C100 memory_buffer programs behave like programs over lists.** Buffers by name over one heap with fresh addresses and an oracle for failing allocations; a buffer is taken out of the world, its code runs under the law of `grow` and stores, and it is put back; the invariant says every block has one owner. *Partial*: `C100_lists` (pcq), `C100_completes` (pcq), `C100_no_leak` (pcq), `C100_own_partial` (pcq), `C100_own_refuted` (pcq).
* **C106 format survives its buffer.** The operations of C103 run in a local buffer of a C100 program, which is destroyed on both ways out. *Proved*: `C106_format` (pcq), `C106_completes` (pcq), `C106_error` (pcq).
* **C107 A float or double in {} reads back as itself, in the fewest digits.** The Dragonbox conversion is modelled with its 128-bit arithmetic and tables. For each of its 2046 exponents one certificate, checked by the kernel, shows that the truncated multiplication decides as the exact one would for all significands (a lattice argument for the smallest distances); the rest is the published proof of Dragonbox. Digits to text by the two-digit loops, against Nat.toDigits. *Proved*: `C107_double_reads_back` (pcq), `C107_float_reads_back` (pcq), `C107_double_shortest` (pcq), `C107_float_shortest` (pcq), `C107_double_injective` (pcq), `C107_float_injective` (pcq), `C107_portable_multiply` (pq).
* **C109 Layout of floating-point texts.** do_write_float branch by branch against the notations of the specification. *Proved*: `C109_zero` (pcq), `C109_nonfinite` (pcq), `C107_double_shortest` (pcq), `C107_float_shortest` (pcq), `C109_nonfinite_options` (pcq).
* **C108 Floats with a precision are rounded correctly.** The bigint arithmetic, the Dragon4 digit generation and the fast path by a cached power are modelled and shown to give the digits of the exact quotient; the layout branches against the notations of the specification; then through the grammar of C92 for all options. *Partial*: `C108_fixed_partial` (pcq), `C108_fixed_fails` (pcq), `C108_scientific` (pcq), `C108_general_partial` (pcq), `C108_general_fails` (pcq), `C108_short` (pcq), `C108_short_zero` (pcq), `C108_fixed_value_partial` (pcq), `C108_fixed_value` (pcq), `C108_scientific_value` (pcq), `C108_general_value` (pcq), `C108_defined` (pcq).
* **C110 Hexadecimal floats are exact.** format_hexfloat with its 64-bit rounding against the exact quotient by a power of 2. *Proved*: `C110_hex` (pcq), `C110_reads_back` (pcq), `C110_precision` (pcq).
* **C111 BlockingQ survives exceptions from element copies.** Two more actions in the schedules of C30 to C32: the copy under the lock throws, the guard unlocks and the thread is outside again. The part of the invariant that does not speak of wake-ups is kept by all of them. *Partial*: `C111_fifo_partial` (pcq), `C111_released_partial` (pcq), `C111_wakeup_partial` (pcq), `C111_lost_wakeup` (pq).
* **C112 DoubleBuffer survives exceptions from element copies.** The same for the DoubleBuffer, where nothing unlocks; the write buffer may be left in any state. *Partial*: `C112_enqueue_throw_locks` (p), `C112_read_buffer_partial` (pcq).
* **C113 The compile-time check of format strings is exact.** The checker is a second handler for the same parser, with a parse context that checks; its loop over the options is related to the run-time loop turn by turn. Acceptance is then shown equivalent to a grammar over types, and that grammar is compared with the grammar of C92 over values. *Partial*: `C113_accepts_iff` (pcq), `C113_rejected` (pcq), `C113_accepted_partial` (pcq), `C113_accepted_static` (pcq), `C113_accepted_throws` (pcq), `C113_accepted_fails` (pcq), `C113_float_showable` (pcq).
* **C114 Containers and joined ranges in format strings.** The formatters of join, bytes, group_digits and the containers become arguments with their own parser, which sees the arguments of the call. A grammar over items is shown equivalent to the grammar of C92 over these arguments. *Proved*: `C114_grammar` (pcq), `C114_defined` (pcq), `C114_container` (pcq), `C114_join` (pcq), `C114_join_options` (pcq), `C114_container_options` (pcq), `C114_vector` (pcq).
* **C115 group_digits separates thousands.** The two loops over group sizes are shown to find the multiples of three; the text is compared with a recursive definition that cuts three digits at a time off the end. *Partial*: `C115_commas` (pcq), `C115_grouped_partial` (pcq), `C115_default_partial` (pcq), `C115_negative` (pcq).
* **C116 bytes are written as they are.** As C114. *Proved*: `C116_bytes` (pcq).
* **C117 The sorts make O(n log n) comparisons.** Every sort is written a second time on a state with a counter of comparisons. A relation between the two versions says that they do the same and bounds the counter; it is proved along the recursion of each sort. *Partial*: `C117_n_log_n_partial` (pcq), `C117_quadratic` (pcq), `C117_quicksort_worst` (pcq), `C117_sort_unstable_worst` (pcq), `C117_quicksort_not_n_log_n` (pcq).
* **C118 The recursion of the sorts is logarithmic.** The recursive functions of the model carry the number of nested calls they may still make, so the depth is the least number with which they do not diverge. *Partial*: `C118_logarithmic_partial` (pcq), `C118_quicksort_depth` (pcq), `C118_quicksort_worst` (pcq).
* **C119 Sums of floating-point numbers are accurate.** IEEE arithmetic is written down over the rationals: a result is the exact one rounded to nearest, ties to even, with signed zeros, infinities and NaN, for any binary format. Rounding is shown to be monotone, exact on numbers of the format and nearest; errors are then followed through the loops by induction. Counterexamples are evaluated in the kernel. *Proved*: `C119_sum_error` (pcq), `C119_sum_exact` (pcq), `C119_sum_nan` (pcq).
* **C120 The mean of floating-point numbers lies between the extremes.** IEEE arithmetic is written down over the rationals: a result is the exact one rounded to nearest, ties to even, with signed zeros, infinities and NaN, for any binary format. Rounding is shown to be monotone, exact on numbers of the format and nearest; errors are then followed through the loops by induction. Counterexamples are evaluated in the kernel. *Partial*: `C120_mean_outside` (pcq), `C120_mean_error_partial` (pcq), `C120_mean_const_partial` (pcq).
* **C121 Variance and standard deviation of floating-point numbers are sound.** IEEE arithmetic is written down over the rationals: a result is the exact one rounded to nearest, ties to even, with signed zeros, infinities and NaN, for any binary format. Rounding is shown to be monotone, exact on numbers of the format and nearest; errors are then followed through the loops by induction. Counterexamples are evaluated in the kernel. *Partial*: `C121_variance_const` (pcq), `C121_variance_nonneg_partial` (pcq), `C121_variance_const_partial` (pcq), `C121_sqrt` (pcq).
* **C122 Covariance, correlation and error measures of floating-point numbers are sound.** IEEE arithmetic is written down over the rationals: a result is the exact one rounded to nearest, ties to even, with signed zeros, infinities and NaN, for any binary format. Rounding is shown to be monotone, exact on numbers of the format and nearest; errors are then followed through the loops by induction. Counterexamples are evaluated in the kernel. *Partial*: `C122_correlation_bound` (pcq), `C122_covariance_comm_partial` (pcq), `C122_sse_partial` (pcq), `C122_nonneg_partial` (pcq).
* **C123 is_approx compares floating-point numbers up to epsilon.** IEEE arithmetic is written down over the rationals: a result is the exact one rounded to nearest, ties to even, with signed zeros, infinities and NaN, for any binary format. Rounding is shown to be monotone, exact on numbers of the format and nearest; errors are then followed through the loops by induction. Counterexamples are evaluated in the kernel. *Partial*: `C123_is_approx_bound` (pcq), `C123_is_approx_partial` (pcq), `C123_is_approx_large_partial` (pcq), `C123_is_approx_nan_partial` (pcq).
* **C124 The queues are free of data races in the C++ memory model.** Every step of the machines of C29 to C34 is annotated with its accesses and lock operations. Happens-before is defined on the resulting lists of operations, independently of the machines. A lock discipline, in which a location belongs either to the lock or to one thread and changes its owner only under the lock, is shown to exclude data races; the machines keep to it. *Partial*: `C124_blocking` (pcq), `C124_blocking_bounded` (pcq), `C124_publication` (pcq), `C124_nonblocking_partial` (pcq), `C124_nonblocking_bounded_partial` (pcq), `C124_double_buffer_partial` (pcq), `C124_is_empty_races` (pq), `C124_two_consumers_race` (pq), `C124_blocking_accesses` (pq), `C124_blocking_mutex` (pq), `C124_nonblocking_ops` (pq), `C124_double_buffer_spinlock` (pq).
* **C125 reserve(n) keeps references valid up to n elements.** The ledger of the Vector model counts allocations and releases. Statements on elements are shown to leave it alone; the growth tests of push_back and insert decide the rest, by induction over the history. *Partial*: `C125_reserve_moves` (pcq), `C125_reserve_partial` (pcq), `C125_removal_stays` (pcq).
* **C126 A sort loses no element when its comparator throws.** The sorts of C117 take any comparator: a function of the number of the call and the two elements whose result may be a throw. A relation on outcomes (returned, thrown, never undefined) is carried along each recursion. *Partial*: `C126_throw_keeps_partial` (pcq), `C126_throw_one_hole_partial` (pcq), `C126_throw_merge_partial` (pcq), `C126_throw_timsort_merge` (pcq), `C126_insertion_loses` (pq), `C126_insertion_duplicates` (pq), `C126_merge_loses` (pq), `C126_sort_unstable_loses` (pq).
* **C127 A throwing function leaves nothing behind.** The bodies of the list functions are run with the destructor of the result when client code throws. An invariant of the result object that implies a clean destructor is carried through every statement and every throw. *Partial*: `C127_map_partial` (pcq), `C127_map_with_index_partial` (pcq), `C127_cartesian_map_partial` (pcq), `C127_from_function_partial` (pcq), `C127_filter` (pcq), `C127_find_indices` (pcq), `C127_dynamic_results_destroy_raw` (pq).
* **C128 UTF-8, UTF-16 and UTF-32 convert into each other.** The loops over code points and units are modelled on lists of bytes and units; UTF-16 and UTF-32 are specified character by character, and the reading of arbitrary units as an inductive relation. Induction over the text and over the reading. *Partial*: `C128_to_utf16` (pcq), `C128_to_utf16_refuses` (pcq), `C128_from_utf32` (pcq), `C128_from_utf32_refuses` (pcq), `C128_from_utf16_partial` (pcq), `C128_from_utf16_loses` (pcq), `C128_from_utf16_fails` (pcq), `C128_from_utf16_refuses` (pcq), `C128_from_utf16_replaces_partial` (pcq), `C128_from_utf16_replaces_loses` (pcq), `C128_round_trip_partial` (pcq).
* **C129 format_int shows the integer.** The buffer of 22 bytes is a list of cells that may be unset; the digits come from the model of format_decimal. The length of the digits of a 64-bit number bounds the writes. *Proved*: `C129_format_int` (pcq).
* **C130 Reporting a system error needs no memory.** The functions run on the model of memory_buffer with allocations that fail at the choice of an adversary; noexcept turns an exception into the end of the program. The law of a buffer that has room shows that the short report does not allocate. *Partial*: `C130_report` (pcq), `C130_format_partial` (pcq), `C130_moved_from_fails` (pcq).
* **C131 format prints the value that was passed.** The overloads of arg_mapper::map are a function from the type and value the caller passes to the stored argument, with the conversions between integer types modulo the width. Ranges of the types decide that the conversions keep the value; C93 does the rest. *Proved*: `C131_values` (pcq), `C131_integer` (pcq), `C131_named` (pcq).
* **C132 string_view compares like a dictionary.** char_traits::compare reads byte lists and fails at their ends. Induction over the two texts against an inductive dictionary order. *Proved*: `C132_compare` (pcq), `C132_operators` (pcq), `C132_total` (pcq), `C132_transitive` (pcq), `C132_starts_with` (pq), `C132_remove_prefix` (pq).
* **C133 A vector that cannot grow throws and keeps its elements.** A second model of VectorBase computes sizes modulo 2^w and asks an allocator that fails at the choice of an adversary; std::allocator checks the product with sizeof, efp::Allocator lets it wrap. An invariant bounds the capacity by half the address space, which rules out every overflow and reduces each call to the model of C01 or to an exception. *Partial*: `C133_history_partial` (pcq), `C133_call` (pcq), `C133_resize_partial` (pcq), `C133_resize_max` (pcq), `C133_resize_false` (p), `C133_freestanding_reserve` (pq).
* **C134 A string can be given a pointer into its own text.** The pointer is an offset into the block of the string together with the number of allocations at the time of the call; a read finds the cell as it is then and is undefined once the block was replaced. Invariants of the shifting and writing loops, cell by cell, give the exact text insert leaves. *Partial*: `C134_assign` (pcq), `C134_append_partial` (pcq), `C134_append_ub` (pcq), `C134_insertN` (pcq), `C134_insert` (pcq), `C134_insert_partial` (pcq), `C134_insert_wrong` (pcq).
* **C135 The bounded queues survive exceptions from element copies.** The machine of C33 and C34 gets steps in which a copy throws; what a failed push leaves behind is computed by the crash model of Vcq::push_back. An invariant lets the queue own cells that are built but dead to it, at most one per failed second copy. A call that threw is one followed by the next call of its thread. *Partial*: `C135_blocking_partial` (pcq), `C135_released_partial` (pcq), `C135_wakeup_partial` (pcq), `C135_nonblocking_partial` (pcq), `C135_full_broken` (pcq), `C135_full_broken_nonblocking` (pcq).
* **C136 A dequeue of NonBlockingQ that throws loses no element.** The same machine with a further step: the construction of the returned Maybe throws after the pop. Counting over schedules shows that pops exceed returns by exactly these steps. *Partial*: `C136_fifo_partial` (pcq), `C136_loss_partial` (pq), `C136_released_partial` (pcq), `C136_element_lost` (p), `C136_always_lost` (pcq).
* **C137 A string edit that runs out of memory leaves the text as it was.** The model of C133 is extended to string.hpp: an adversary decides at every turn of every loop whether the next allocation succeeds. The specification is a pair of text and capacity; each call is proved to have exactly its outcome, and the plain statements are derived from it. *Partial*: `C137_history_partial` (pcq), `C137_call_partial` (pcq), `C137_enough` (pcq), `C137_append_without_memory` (pcq), `C137_assign_without_memory` (pcq), `C137_full_broken` (pcq), `C137_fill_broken` (pq), `C137_substr` (pcq).
* **C138 A sort survives elements that throw.** `Verif/SortFault.lean` models the sorts again with every construction and assignment of an element as a call that may throw, leaving arbitrary living objects in the slots it moved from and assigned to. An invariant with one pit (`Pit`: the slots hold a permutation, except perhaps one) is carried through each algorithm. `Tracks` shows that without failures the programs are those of `Verif/Sort.lean`. Concrete failing runs refute that no element is lost. In `merge`, all that can throw in one `push_back` to a temporary is one point. *Partial*: `C138_two_holes_partial` (pcq), `C138_one_hole_partial` (pcq), `C138_merge_partial` (pcq), `C138_quiet` (pq), `C138_insertion_loses` (pcq), `C138_heapsort_loses` (pcq), `C138_quicksort_loses` (pcq), `C138_merge_loses` (pcq), `C138_pivot` (pq).
* **C139 Programs over many strings keep texts apart and release every block the way it was allocated.** `Verif/StrWorld.lean` runs programs over a list of string variables and records for every block which allocation function it came from. A relation between the counters before and after each call (`Fair`) makes the sum of wrong releases and array blocks still held, and the balance of blocks, invariants of every program. Texts are a simulation as in C89, without its condition on spare capacity. *Partial*: `C139_release` (pq), `C139_every_fill_wrong` (pcq), `C139_release_partial` (pq), `C139_no_leak` (pcq), `C139_texts_partial` (pcq).
* **C140 max_elem and min_elem of floating-point numbers.** `Verif/SciFloatMore.lean`: the folds of `Verif/Numeric.lean` run on IEEE numbers with the limits of the format. A fold that keeps the better of two (`keep`) is analysed for any order that is total away from NaN. *Partial*: `C140_refuted` (pcq), `C140_nan` (pcq), `C140_extrema_partial` (pcq), `C140_wrong` (pcq).
* **C141 product of floating-point numbers.** The product is a fold of rounded multiplications; the error bound is an induction over the beginnings of the sequence, exactness uses that integers below `2^prec` are represented. *Partial*: `C141_refuted` (pcq), `C141_product_error_partial` (pcq), `C141_product_exact_partial` (pcq), `C141_product_nan` (pcq), `C141_product_zero_partial` (pcq).
* **C142 autocovariance and autocorrelation of floating-point numbers at lag zero.** The loop of `autocovariance` is proved to be the left-to-right sum of rounded products; at lag zero the list of products and the divisor are those of `variance`. *Partial*: `C142_autocovariance` (pcq), `C142_refuted` (pcq), `C142_autocorrelation_partial` (pcq), `C142_nan` (pcq), `C142_lag` (pcq).
* **C143 remove_dc of floating-point numbers.** The error of the mean (C120) is combined with one rounding; a difference of two numbers below half the range rounds below the range. *Partial*: `C143_refuted` (pcq), `C143_remove_dc_partial` (pcq).
* **C144 Every call on a BlockingQ returns.** `Spec/Fair.lean` runs the machine of C29 to C32 for ever under a scheduler; weak fairness is processor time for everyone, strong fairness a fair lock. `FairLemmas.lean` proves progress for any machine with one lock by ranking steps inside the critical section. Refutations are periodic schedules, proved by induction over the rounds. *Partial*: `C144_refuted` (pcq), `C144_enqueue_partial` (pcq), `C144_enqueue_bounded_partial` (pcq), `C144_dequeue_partial` (pcq), `C144_dequeue_bounded_partial` (pcq), `C144_one_consumer_partial` (pcq).
* **C145 Every call on a NonBlockingQ returns.** The same lemmas on the machine of C33. Without a fair lock: some thread holds the lock whenever the starving one cannot move, and ends its call. *Partial*: `C145_refuted` (pcq), `C145_others_partial` (pcq), `C145_others_bounded_partial` (pcq), `C145_returns_partial` (pcq), `C145_returns_bounded_partial` (pcq).
* **C146 Every call on a DoubleBuffer returns.** The same lemmas on the machine of C34, with the discipline of one consumer; the spinning thread goes round its loop without effect. *Partial*: `C146_refuted` (pcq), `C146_consumer_partial` (pcq), `C146_others_partial` (pcq), `C146_returns_partial` (pcq).
* **C147 Growing costs a constant per element added, removals mixed in.** `Growth.lean` shows that the size, capacity, relocations and allocations of a vector or string follow a small machine of four numbers; a potential function on it bounds the relocations, an invariant the allocations. *Proved*: `C147_vector` (pcq), `C147_string` (pcq).
* **C148 Capacity stays within twice the largest size.** An invariant of the same machine, with the largest size as a ghost. *Proved*: `C148_vector` (pcq), `C148_string` (pcq).
* **C149 Inserting texts costs a constant per character added.** The same machine run on the bad history, in closed form by induction; the bound per insertion by the potential function. *Partial*: `C149_refuted` (pcq), `C149_insert_partial` (pcq).
* **C150 Threads can share a const String.** `StringShared.lean` gives every const member as its loads and stores on the shared size and characters; a machine interleaves the threads access by access and executes them. Races are those of `Spec/HappensBefore.lean`. An invariant relates what is left of every thread to its sequential result. *Partial*: `C150_refuted` (pcq), `C150_one_caller_partial` (pcq).
* **C151 The concurrent queues give back what they hold.** `QueueLife.lean` models construction with failing allocations and destruction; the invariants of C29 to C34 show that the buffers are in order in every reachable state, and the destructor of the cyclic queue does the rest. *Partial*: `C151_refuted` (-), `C151_create_partial` (p), `C151_double_buffer_partial` (pcq), `C151_blocking_partial` (pcq), `C151_nonblocking_partial` (pcq).
* **C152 Nested list functions and named results behave like lists.** `Pipeline.lean` nests the functions of `Prelude.lean` and `View.lean` and numbers blocks, so that the end of a full expression kills the temporaries; induction on the expression, then on the definitions. *Partial*: `C152_expression` (pcq), `C152_names_partial` (pcq), `C152_refuted` (pcq).
* **C153 A vector of vectors behaves like a list of lists.** `Nested.lean` is the vector model once more with vectors as elements and one ledger for both levels; an invariant with a list of lists, each step by the lemmas of C01 to C09 on the slot it touches. *Partial*: `C153_partial` (pcq), `C153_refuted` (pcq).
* **C154 Sorting floating-point numbers.** `SortMap.lean` shows that every sort commutes with renaming the elements, so that a run on the elements present is a run on a type where the comparator is an order everywhere; quicksort is proved again under a strict partial order, which `<` on doubles is; insertion sort is identified with a function on lists, from which the effect of a NaN is read off. *Partial*: `C154_order_among_elements` (pcq), `C154_numbers_ascend_partial` (pcq), `C154_quicksort_with_nan` (pcq), `C154_nan_is_a_wall` (pcq), `C154_nan_is_a_wall_for_sort` (pcq), `C154_refuted` (pcq).
* **C155 Removing the trend in floating point.** every intermediate value of the three programs is shown to be a multiple of a quarter with at most 53 bits, and an operation whose exact result is representable does not round; the sums are closed forms over the rationals, by induction on the length. *Partial*: `C155_regression_with_index_partial` (pcq), `C155_regression_partial` (pcq), `C155_detrend_partial` (pcq), `C155_refuted` (pcq).
* **C156 Views of cyclic containers.** a view is a slot of the buffer; a slot holds the element whose distance from the read position is the slot modulo n in either mirror, and the read position after a history is known from C23 and C25. *Partial*: `C156_vcb_view_partial` (pcq), `C156_vcq_view_partial` (pq), `C156_vcq_view_kept` (pcq), `C156_vcb_view_refuted` (pcq), `C156_vcq_view_refuted` (pq), `C156_vcq_popped_dead` (pq).
* **C157 List functions over cyclic containers.** the window (C23) and the contents (C25) of the container are the values of an argument of type array n or arrVec n; composed with the theorems of C42-C44. *Proved*: `C157_vcb_argument` (pcq), `C157_vcq_argument` (pq), `C157_vcb_foldl` (pcq), `C157_vcb_map` (pcq), `C157_vcq_filter` (pcq).
* **C158 Square roots of integers.** conversion to double, the correctly rounded root (C121) and truncation back to the integer type; the nearest double of the root is compared with the doubles just below the next integer. *Partial*: `C158_refuted` (pcq), `C158_sqrt_partial` (pcq), `C158_squares_partial` (pcq), `C158_at_most_one_more_partial` (pcq), `C158_negative` (pcq).
* **C159 Copying bytes.** memory as a list of bytes, the loop as it stands; an invariant that says which byte of the original memory each byte is after i rounds. *Partial*: `C159_refuted` (p), `C159_copy_partial` (pcq), `C159_overlap` (pcq), `C159_builds_agree` (pcq).
* **C160 Texts of errors.** a program around errors: buffers that are written and end, errors that are made and copied; the two representations of an error run side by side. *Partial*: `C160_hosted` (p), `C160_refuted` (p), `C160_dangling` (p), `C160_freestanding_partial` (p), `C160_copies` (p), `C160_made` (pq).
* **C161 Formatters built on nested_formatter.** the two parsing passes of nested_formatter over the modelled parse_format_specs; a lemma that the first pass stops at precision, locale flag, type or brace; the padded result is compared with that of a string argument. *Partial*: `C161_pads_whole_partial` (pcq), `C161_width_argument` (pcq), `C161_refuted` (pcq).
* **C162 Standard containers as arguments.** the trait functions over a type of standard containers, with references kept apart from reading through them; the list functions by their theorems for valid arguments. *Partial*: `C162_nth_partial` (p), `C162_argument_partial` (pq), `C162_folds_partial` (pq), `C162_filter_partial` (pcq), `C162_map_partial` (pcq), `C162_assign_partial` (p), `C162_refuted` (p), `C162_bool_argument` (p), `C162_past_the_end` (p).
* **C163 What match returns.** matchOp of C56 with a return type per branch; the return statement as a conversion to the type of the branch of the first alternative. *Partial*: `C163_result` (pcq), `C163_same_type_partial` (pcq), `C163_refuted` (pcq).
* **C164 Forwarding keeps type and value category.** types in a normal form of reference, qualifiers and core; deduction and reference collapsing as functions on it. *Proved*: `C164_forward` (p), `C164_move` (p), `C164_removed` (p).
* **C165 Questions about types are answered correctly.** template specialisations as matches on that normal form; each answer characterised by an equivalence over all types. *Partial*: `C165_arguments_partial` (p), `C165_arguments_sound` (p), `C165_call_operator_partial` (p), `C165_ct_const_partial` (pq), `C165_default_only_void` (p), `C165_func_ptr` (p), `C165_refuted` (p).
* **C166 Elements lie in bytes of their own at addresses their types allow.** sizes, alignments and addresses as numbers, classes laid out by the rule of the Itanium ABI; induction over the nesting of types. *Partial*: `C166_inline` (pcq), `C166_apart` (pq), `C166_fields` (pq), `C166_fields_inside` (pcq), `C166_slots` (pq), `C166_types` (pq), `C166_heap_partial` (pcq), `C166_overaligned` (pq), `C166_refuted` (p).
* **C167 No hidden copies.** each operation as the list of special member functions of the element type it calls; counted over all programs by induction. *Partial*: `C167_vector_partial` (pq), `C167_arrvec` (pcq), `C167_queue` (pq), `C167_buffer` (-), `C167_reserved` (pq), `C167_freestanding` (pq), `C167_refuted` (-).
* **C168 Sines, cosines and tangents.** the platform function as a parameter with an error bound over the real numbers; truncation as floor or ceiling. *Partial*: `C168_float_partial` (pcq), `C168_integers` (pcq), `C168_three_values` (pcq), `C168_refuted` (pcq).
* **C169 To complex numbers and back.** the overloads that take part in a call as a list of results, by cases on the value and the direction. *Proved*: `C169_one` (pcq), `C169_round` (pcq).
* **C170 Normalised errors do not depend on units.** the exact-arithmetic model of scientific.hpp with any square root function; scaling and shifting as list maps. *Partial*: `C170_nrmse_mean` (pcq), `C170_nrmse_mean_scale` (pcq), `C170_nrmse_max_min_partial` (pcq), `C170_nrmse_max_min_affine_partial` (pcq), `C170_refuted` (pcq).
* **C171 Assigning to a Vcb yields the Vcb.** move assignment followed by the copy constructor, on the buffers of target, source and returned object. *Partial*: `C171_result_partial` (pcq), `C171_refuted` (pcq).
* **C172 Elements pass through a chain of queues in order.** a product of BlockingQ machines with the variable of each forwarding loop; per thread, what it enqueued and holds is what it dequeued; the rest from C29. *Partial*: `C172_conserved` (pcq), `C172_order_partial` (pcq), `C172_bounded_order_partial` (pcq), `C172_bounded_no_duplicates` (pcq), `C172_one_each` (pcq), `C172_refuted` (pq).
* **C173 Floating-point data compared with itself has no error.** rmse, mean and max_min in IEEE arithmetic; a difference of finite numbers is zero only if they are equal (gradual underflow), so the divisor is zero exactly for constant data. *Partial*: `C173_zero` (pcq), `C173_mean_partial` (pcq), `C173_max_min_partial` (pcq), `C173_refuted` (pcq).
* **C174 Error measures of floating-point numbers are accurate.** every step of map, foldl, division and square root multiplies the exact result by a factor between 1-u and 1+u; differences and sums also where results are subnormal. *Proved*: `C174_errors` (pcq), `C174_rms` (pcq), `C174_out_of_range` (pcq).
* **C175 Variance of floating-point numbers is accurate up to the error of the mean.** C174 for the deviations from the computed mean, and the exact identity that moving the centre away from the average adds n times the squared distance. *Proved*: `C175_variance` (pcq), `C175_mean_error` (pcq).
* **C176 Covariance of floating-point numbers is accurate up to the errors of the means.** the roundings of differences, products, sums and the division as relative errors of the magnitudes plus an absolute error; the exact identity for moving both centres. *Proved*: `C176_covariance` (pcq), `C176_overflow` (pcq).
* **C177 Autocovariance of floating-point numbers is accurate at every lag.** the loop as a sum over the sequence zipped with itself without its first lag elements; then as C176. *Proved*: `C177_autocovariance` (pcq).
* **C178 The slope of a regression line in double arithmetic is accurate.** C174 for the sum of squares and C176 for the sum of products; then the error of a quotient of two sums. *Proved*: `C178_slope` (pcq).
* **C179 A correlation of doubles is accurate and exceeds one by rounding errors only.** C175 for the two variances, C176 for the covariance, the Cauchy-Schwarz inequality on the exact sums of deviations, then the errors of the two square roots, the product and the quotient. The exact correlation is a real number, stated with Real.sqrt. *Proved*: `C179_correlation` (pcq).
* **C180 The autocorrelation of doubles is accurate and bounded.** C177 for the numerator, C175 for the denominator, the Cauchy-Schwarz inequality for the products a lag apart, then the error of a quotient. *Proved*: `C180_autocorrelation` (pcq).
* **C181 The slope of linear_regression_with_index is accurate.** The indices, their mean and their sum of squares are exact doubles; C176 bounds the error of the sum of products; the sum of the deviations of the indices is zero, so the error of the mean cancels; then the error of a quotient. *Proved*: `C181_slope` (pcq).
* **C182 What detrend leaves of doubles is the residual of the least-squares line, up to rounding.** C120 for the mean, C181 and the Cauchy-Schwarz inequality for the slope, then the errors of the five roundings of each element. *Proved*: `C182_detrend` (pcq).
* **C183 Mean, variance and covariance of bounded doubles are close to the exact ones.** C120 for the means, then C176 with the deviations bounded by 5/2 M; the error of the means enters only through its square. *Proved*: `C183_mean` (pcq), `C183_covariance` (pcq), `C183_variance` (pcq).

## Findings

Properties the code does not have. Each is refuted by a theorem about the model, in general form or with a concrete
witness; the `_partial` theorems keep what is true.

* **C04 Vector insert and erase in the middle are safe for resource-owning elements.** Property is false of the code: refuted for every reachable vector and every middle index; the end case holds.
* **C05 Vector copy assignment makes the target equal to the source.** Property is false of the code: exact result characterised, iff condition for correctness, witness, and undefined behaviour for resource-owning elements.
* **C06 Vector copy construction yields an equal independent vector.** Holds exactly for sources that own a block; refuted for never-allocated sources.
* **C12 ArrVec move leaves no living element behind.** Contents part holds; the lifetime part is false for resource-owning elements (leak count proved).
* **C13 Widening ArrVec conversion copies exactly the source elements.** Holds for full sources only; refuted for every partially filled source.
* **C16 View equality compares the viewed contents.** False: view equality compares addresses, so views of distinct storage never compare equal whatever their contents (proved). Proved part: equal views show the same contents. StringView is modelled with the strings.
* **C17 Pushing an own element is safe.** False when the push reallocates; exact condition proved.
* **C19 c_str returns the NUL-terminated contents.** False: c_str() writes through null for String(), and behind the block for String(n, c) and after insert(pos, cstr) fills the block (all proved, the latter two for every argument). Proved part: all other histories.
* **C20 String compare orders strings lexicographically.** False when one string is a proper prefix of the other: equal, or a read of an unwritten character (proved for all such pairs). Right for all other pairs.
* **C21 Appending a string to itself doubles it.** False for every non-empty string: the loop never ends normally and reads through a dangling reference (proved).
* **C22 String comparison with a C string is exact.** False only for strings without storage: String() == "" is false (proved).
* **C24 Writing through a Vcb element persists until evicted.** False: v[i] = x reaches only one of the two mirrors, so a value written behind the wrap of the buffer is lost when the buffer wraps (proved, for every such history). The exact condition under which it persists is proved.
* **C26 Copying or moving a Vcq preserves its contents.** False: copies read source slots from 0 instead of from the front, so a queue whose front has moved is copied rotated, or reads elements that do not exist; moves move every element out twice; q = q destroys its elements first, and overwrites elements it has yet to read (all proved). Proved part: queues whose front is at slot 0.
* **C27 Iterating a Vcq visits exactly its elements.** False for the empty queue, whose begin() and end() are n apart (proved); right for every non-empty queue.
* **C34 DoubleBuffer delivers elements in enqueue order.** False as stated: swapping before the read buffer is drained reorders elements (proved with a schedule). Proved: accounting (no loss without overflow), absence of races and linearizability for one consumer; order if the consumer drains before it swaps. The accesses counted are all there are.
* **C39 merge_sort_by sorts the given range and only it, stably.** Sorting and range-locality proved. Stability is false for strict orders: equivalent elements come out exactly reversed (proved); it holds for <=-like comparators (proved).
* **C41 sort sorts stably.** False for every length over 32 (inverted early-exit test in timsort_merge). Exact for every vector: the result is a rearrangement, and is sorted (and then stable) if and only if no element is greater than one in a later block of 32.
* **C45 append concatenates its arguments left to right.** False in general: the per-argument appends are function arguments, whose evaluation order is unspecified. Proved for left-to-right evaluation; for any order the result is the concatenation in that order; a two-argument witness shows the orders differ.
* **C46 concat flattens and intercalate joins.** concat in full; intercalate except for an empty list of static size, where the result type underflows and the result is not empty (proved).
* **C49 slice(start, end, as) is the elements start..end-1 that exist.** False: slice does not clamp run-time bounds and reversed bounds wrap (proved); in-range bounds and static bounds on arrays are right.
* **C55 map and friends construct resource-owning results properly.** False for ArrVec and Vector results: every call producing an element assigns to raw storage (proved). Holds for Array results.
* **C56 Enum match runs exactly the branch of the stored alternative.** False beyond 128 alternatives: with 129 to 256 alternatives (256 are documented) no Enum operation can be instantiated (proved). Proved for 1 to 128 alternatives, every branch list over typed parameters and a wild card; generic lambdas are not modelled.
* **C59 Enum assignment is safe when an element copy throws.** False: assignment destroys the old value first, so a throwing copy leaves no object behind (proved for every program state). Every other throwing construction leaves all variables intact.
* **C61 Maybe is a lawful functor, applicative and monad.** Proved for every A other than Nothing, also for functions with effects, which are called exactly once or not at all; for Maybe<Nothing> left identity fails (proved).
* **C63 compile-time folds and type lookups.** False for _maximum over floating-point values (starts from the least positive value) and for power_2_ceiling above 128 (never ends); both proved. Everything else proved.
* **C65 func_ptr gives each function object its own C function pointer.** False for two function objects of the same closure type (proved). Proved for every program in which no other object of the closure type is registered and the object is alive.
* **C66 Line reading splits a file at newlines without loss.** False in three ways, each proved: a final newline is lost, a read error looks like the end of the file, and the string of every empty line returned by read_lines or value() has an uninitialised data pointer, so destroying it is undefined behaviour. The splitting itself is proved for every content, position and line length.
* **C67 File handles are released exactly once and keep their mode.** False, each way proved: every write through a File obtained from open reads an uninitialised mode; move assignment to an open File leaks its handle; a failing close leads to a second fclose. Proved for every history without those.
* **C68 max_elem, min_elem and max_min find the extrema.** False for max_elem on floating-point sequences whose elements are all below the least positive normal value (proved). min_elem, and max_elem on every other sequence, proved; max_min exact when representable.
* **C70 linear_regression is the least squares optimum.** linear_regression proved in full. linear_regression_with_index and detrend overflow int from 1291 elements on (proved), and detrend is wrong where the element type cannot hold the index (proved); both proved correct otherwise.
* **C71 autocovariance is defined for every lag.** False: negative lags and lags beyond the length read out of bounds (proved). Proved for 0 <= lag < n.
* **C72 formatting a sequence lists its elements.** False for an empty cyclic queue (its first, unconstructed slot is read: undefined behaviour, proved) and in that the text of an empty sequence equals that of a one-element sequence whose element prints as nothing (proved). Proved for all other sequences and sequence types. The text of a single element is a parameter.
* **C73 Copying and moving a Vcb preserves the window and its lifetimes.** All but self copy-assignment, which destroys each managed element before reading it (proved).
* **C74 Writing through a Vcq element changes that element of the queue.** False: q[i] = x reaches only one mirror; behind the wrap pop_front returns the old value (proved). In front of the wrap it holds for every later history.
* **C75 A Vcq can push one of its own elements.** All but a full queue of managed elements pushing its front (undefined behaviour, proved).
* **C77 A StringView shows the characters it was made from.** Contents and comparison with C strings are right; two views of the same characters at the same address can be unequal (proved).
* **C78 Every NonBlockingQ operation may run concurrently with every other.** False: is_empty reads the queue without the lock (proved). No race in states where nobody is inside is_empty. Statements not counted as reads or writes neither depend on the queue nor change it.
* **C81 A stored composition can be called later.** False: a composition holds references, so calling it after a temporary function object died is undefined behaviour (proved).
* **C82 sum and product of an integer sequence.** False for int and wider signed types: an intermediate overflow is undefined even when the result is representable (proved). Proved for wrapping types and whenever all prefixes are representable.
* **C83 abs and square of an integer.** False at the lowest value of every signed type (proved); proved elsewhere.
* **C84 is_approx compares two numbers up to epsilon.** False when a floating-point value meets an integer type of at least its size: both are truncated first; then the result also depends on the order of the arguments (both proved). For integer types a negative value equals its unsigned conversion, and a signed difference that is not representable is undefined (both proved). Proved otherwise.
* **C85 mean of an integer sequence.** False for unsigned and narrow element types when the sum is not representable in the element type (proved). Proved when every prefix sum is representable.
* **C88 Files without a handle are inert, and positions can be revisited.** False for seek and tell, which pass a null FILE* to the C library (proved). Proved for the other operations and for open files. flush(NULL), which flushes every stream, is not modelled.
* **C89 Programs over many Vectors behave like programs over lists.** Proved for every program without the steps other properties show to be wrong: copying an empty vector (C04), copy assignment between different lengths (C05), and insertion or removal in the middle for resource-owning elements (C03).
* **C90 A Vector survives exceptions from allocation and from element copies.** Proved for all histories of member calls when moves do not throw. Refuted for the copy constructor and the initializer-list constructor (they leak), for copy assignment (declared noexcept, so the program is terminated) and for reallocation with throwing moves (leaks).
* **C91 Fixed-capacity containers survive exceptions from element copies.** Refuted by this code for every state: after a throwing copy in ArrVec::push_back, a middle insert, an ArrVec assignment, Vcb::push_back or a full Vcq::push_back the destructor is undefined, and the ArrVec copy constructor leaks. Holds for insertion at the end of an ArrVec and for the first copy of Vcq::push_back with room.
* **C98 Width and precision numbers are exact or rejected.** Refuted for 128-bit integer arguments, whose value is taken modulo 2^64, and for a precision with more than ten digits, rejected even if leading zeros make it small. Proved for widths in the format string, for precisions of up to ten digits in it, and for widths and precisions from integers of at most 64 bits.
* **C99 Debug presentation can be read back.** Quotes and no control bytes: proved for all bytes; different texts: for every string that is UTF-8 and for every char. Refuted for strings with stray bytes: the byte 85 and the encoding of U+0085 are both shown as \x85. With a width, a char in debug presentation is padded as if it took one column.
* **C100 memory_buffer programs behave like programs over lists.** Proved for all programs and all allocation failures. Refuted for a buffer whose own elements are appended to it: on the heap and without room it reads freed storage (C100_own_refuted); with room, or while the elements are in the object, it is proved (C100_own_partial).
* **C108 Floats with a precision are rounded correctly.** For float and double. False for type f when the number has more than 767 digits before and after the point, and for # with g and a precision above 767: the digits beyond are missing (C108_fixed_fails, C108_general_fails). The partial theorems cover everything else; for types e and E every precision but INT_MAX, which is an error.
* **C111 BlockingQ survives exceptions from element copies.** For the unbounded queue. False for wake-ups: when the copy in dequeue throws, the notification is used up and other consumers sleep on with an element queued (C111_lost_wakeup). The rest holds for every schedule.
* **C112 DoubleBuffer survives exceptions from element copies.** False: a copy that throws in enqueue leaves the spinlock locked for ever, so no later enqueue or swap_buffer returns (C112_enqueue_throw_locks, in every reachable state). Only the elements in the read buffer can still be dequeued.
* **C113 The compile-time check of format strings is exact.** Acceptance is characterised by a grammar, and rejected strings always fail at run time. The converse is false: a width or precision taken from a bool or char, or from a name that no argument has, passes the check and throws (C113_accepted_throws, C113_accepted_fails). True when every argument used as width or precision is an integer in range (C113_accepted_partial); literal numbers have fewer than ten digits there. For compilers where is_constant_evaluated is trusted (not GCC before 12).
* **C115 group_digits separates thousands.** False for negative numbers: they are cast to unsigned, so that group_digits(-1) is 18,446,744,073,709,551,615 (C115_negative). True for all others.
* **C117 The sorts make O(n log n) comparisons.** False for quicksort and sort_unstable: the pivot is the last element, so sorted vectors and vectors of equal elements take n (n - 1) / 2 comparisons. Proved for the others, with a quadratic bound for these two.
* **C118 The recursion of the sorts is logarithmic.** False for quicksort_by (and so sort_unstable): n nested calls on sorted vectors and on vectors of equal elements. Proved for merge_sort_by and max_heapify_by.
* **C120 The mean of floating-point numbers lies between the extremes.** False: the mean of three times 0.1 is greater than 0.1, and the mean of two finite doubles can be infinite. Proved: the bound on the distance to the exact average, and exactness for constants whose multiples are numbers of the format.
* **C121 Variance and standard deviation of floating-point numbers are sound.** False: the variance of three times 0.1 is positive. Proved: never negative or NaN, and zero for constants whose multiples are numbers of the format; sqrt correctly rounded in the model.
* **C122 Covariance, correlation and error measures of floating-point numbers are sound.** False: the correlation of 0, 0, 1 with itself exceeds 1, with a constant sequence it is NaN, and sse of different sequences can underflow to zero. Proved: symmetry to the bit, variance as covariance, zero for data that agree, never negative or NaN.
* **C123 is_approx compares floating-point numbers up to epsilon.** False at the margin, where the difference is rounded to epsilon, and for equal infinities. Proved: both directions up to that rounding, reflexive and symmetric for finite numbers, equality from magnitude 2 on, never for NaN.
* **C124 The queues are free of data races in the C++ memory model.** False for NonBlockingQ::is_empty and for a DoubleBuffer with two consumers: refuted. Proved for BlockingQ, for NonBlockingQ without is_empty, and for DoubleBuffer with one consumer. The recorded operations on memory and lock are proved to be all there are.
* **C125 reserve(n) keeps references valid up to n elements.** False: the n-th push_back after reserve(n) reallocates, for every n. Proved: no allocation while there are fewer than n elements, and none by removals and overwriting.
* **C126 A sort loses no element when its comparator throws.** False for insertion_sort, sort, sort_unstable and merge_sort, which lose an element when the comparator throws: refuted. Proved for heapsort and quicksort; for the others proved: no undefined behaviour, all elements after a return, and what exactly may be missing after a throw.
* **C127 A throwing function leaves nothing behind.** Proved for filter and find_indices with every element type, and for the functions that resize their result when its elements are trivial or its size is static. False for resource-owning results of dynamic size, whose destructor meets elements that were never constructed: refuted.
* **C128 UTF-8, UTF-16 and UTF-32 convert into each other.** Proved for UTF-8 to UTF-16 and for UTF-32 to UTF-8. False for UTF-16 to UTF-8: characters written as a pair of surrogates are read and not written. Proved for texts without such characters, with the exact text that comes out for the others.
* **C130 Reporting a system error needs no memory.** Proved for report_system_error. For format_system_error proved for buffers with the capacity of a new one; false for a memory_buffer that was moved from, which has no capacity: refuted.
* **C133 A vector that cannot grow throws and keeps its elements.** False in two places. resize(SIZE_MAX) wraps the capacity to 0 and returns with no storage (C133_resize_max). With the freestanding efp::Allocator n * sizeof(T) wraps, so reserve returns a block that is too small (C133_freestanding_reserve). Proved for std::allocator and every other call.
* **C134 A string can be given a pointer into its own text.** False. append and insert read through a dangling pointer when they have to grow; an insert in place puts in other characters when the piece reaches beyond the position or lies behind it. assign is right for every offset, append and insert in the remaining cases.
* **C135 The bounded queues survive exceptions from element copies.** False of a full queue: push_back destroys the oldest element before it copies, so a throwing copy leaves a dead element that the next dequeue and the destructor touch. While the queue has room the claim holds, except that a failed second copy leaks an element.
* **C136 A dequeue of NonBlockingQ that throws loses no element.** False: the Maybe that dequeue returns is constructed after the element has left the queue; if that throws the element is lost. The theorems show that exactly those elements are lost, that all else stays in order, and that the lock is released.
* **C137 A string edit that runs out of memory leaves the text as it was.** False in two ways. append, += and assign work character by character: when growing fails half-way they keep what they appended, and assign has already dropped the old text. String(n, c) multiplies n by the character size without a check, so for wide characters the product can wrap and the constructor writes outside its block. Proved: the exact text, capacity and exceptions of every history; insert and the inherited calls leave the text alone when they throw; enough memory means no exception; nothing leaks.
* **C138 A sort survives elements that throw.** Proved for every comparator, element type and point of failure: behaviour is defined, every slot holds a living object, and at most two slots lose their element (one, if moves that throw leave their source alone; in merge sort every other slot holds some element). Without failures each sort does what the sorts of C35-C41 do. That no element is lost is false, and refuted for every sort.
* **C139 Programs over many strings keep texts apart and release every block the way it was allocated.** Matching release is false and refuted exactly: in every program that runs to its end each use of String(n, c) gives one block from operator new[] to operator delete; programs without that constructor release everything correctly. No leak is proved for every program that runs. Texts are proved inside the claim (no copies of empty strings, no copy assignment between different lengths, no v += v: C04, C05, C21 refute those).
* **C140 max_elem and min_elem of floating-point numbers.** False of the code and refuted: the search for the maximum starts from NumericLimits::min(), the least positive normal number, so that max_elem of negative numbers is positive; a NaN makes both searches forget what came before it. Exactly when and what they return is proved.
* **C141 product of floating-point numbers.** Without NaN is false and refuted (overflow times zero). Accuracy is proved while all partial products stay among the normal numbers, exactness for integers that fit. A zero factor among finite numbers gives a zero or NaN, a zero if what stands before it does not overflow.
* **C142 autocovariance and autocorrelation of floating-point numbers at lag zero.** The autocovariance part is proved in full. The autocorrelation part is false if the variance is zero, infinite or NaN (refuted) and proved for every other sequence.
* **C143 remove_dc of floating-point numbers.** False if the sum overflows (refuted); proved if twice the sum of magnitudes cannot overflow.
* **C144 Every call on a BlockingQ returns.** False of the code and refuted by never-ending executions: an unfair lock can starve an enqueue, and notify_one can starve a dequeue even with a fair lock and endless elements. With a fair lock every enqueue returns, a dequeue that never returns sees the queue empty again and again, and the calls of a single consumer all return if enough is enqueued.
* **C145 Every call on a NonBlockingQ returns.** False of the code and refuted: the queue takes a mutex, and an unfair one starves a caller. Proved: a call that never returns is overtaken for ever by calls of others that do return; with a fair lock every call returns.
* **C146 Every call on a DoubleBuffer returns.** False of the code and refuted: an enqueue may spin for ever. dequeue and empty always return; an enqueue or swap that never returns is overtaken for ever; with a fair spinlock every call returns.
* **C149 Inserting texts costs a constant per character added.** False of the code and refuted: insert(pos, text) reserves exactly what it needs, so n insertions of one character at the end relocate n(n-1)/2 characters. Proved: an insertion of a text costs at most three times the largest size, mixed with any other calls.
* **C150 Threads can share a const String.** False of the code and refuted for every string: c_str() const writes the NUL, so two threads that call it race. Proved: if at most one thread calls c_str(), no schedule has a data race in the C++ memory model, nothing is undefined, and every thread gets the sequential results.
* **C151 The concurrent queues give back what they hold.** False of the code and refuted: if the second new in the constructor of DoubleBuffer throws, the first buffer leaks. Proved: in every state any schedule reaches (one consumer for DoubleBuffer) the destructor is defined, destroys every element once and gives back both blocks.
* **C152 Nested list functions and named results behave like lists.** Inside one expression proved in full. For names false of the code: a non-empty view of a temporary is undefined to read in the next statement, refuted for every such expression. Proved for all sequences of definitions in which every named view looks at a named container.
* **C153 A vector of vectors behaves like a list of lists.** False of the code: copies of default-constructed inner vectors, or of an outer vector that never allocated, hold an uninitialised pointer and their destruction is undefined, refuted after every program. Proved for all programs that copy only non-empty vectors; inner vectors of resource-owning elements change at the end only (C04).
* **C154 Sorting floating-point numbers.** False of the code when a NaN is in the vector: refuted for insertion_sort, sort, heapsort and merge_sort_by. Proved for every vector without NaN (sort: up to 32 elements, see C41), and for quicksort and sort_unstable the numbers ascend whatever NaNs are among them; for insertion_sort a NaN is shown to be a wall between two separately sorted parts.
* **C155 Removing the trend in floating point.** False of the code in general: refuted for three equal numbers 0.1, of which detrend leaves three negative numbers, and for one element, of which it leaves NaN (from 1291 elements on the index arithmetic overflows, C70). Proved for 2 to 1290 integers on a line with slope up to 2^22 and offset up to 2^40: no rounding happens at all.
* **C156 Views of cyclic containers.** False of the code: one push onto a Vcb or a full Vcq changes what a view shows, and after pop_front of a class that frees something reading the view is undefined. Proved: exactly what each element of the view shows after any further history; a view of a Vcq is kept while no element leaves the queue, element i of a view of a Vcb while at most i values are pushed.
* **C158 Square roots of integers.** False of the code in 64 bits: sqrt of 2^52 + 2^27 is one too large. Proved below that number, so for all types of up to 32 bits, and for all squares; every other result is the integer root or one more. The root of a negative integer is undefined behaviour.
* **C159 Copying bytes.** False of the freestanding copy if dest lies inside the source, behind its beginning (undefined in hosted builds): the bytes before dest are repeated, proved exactly. Proved for all other positions; where the hosted copy is defined both builds agree.
* **C160 Texts of errors.** Proved for hosted builds. False of freestanding builds, whose errors keep only a pointer: proved there for every history that leaves the buffer alone, so for string literals.
* **C161 Formatters built on nested_formatter.** Proved for options without sign, # and zero flag whose numbers are literal: the result is that of the text of the whole as a string with fill, alignment and width, with every member as in a field of its own with the rest. False otherwise: a width after a sign, # or zero flag goes to every member, a width from an argument is ignored whatever it is (proved), a precision from an argument is refused.
* **C162 Standard containers as arguments.** Proved for every container but std::vector<bool>. False of that one: nth returns a reference to a temporary, so reading any element is undefined.
* **C163 What match returns.** Proved if all branches have one return type. False otherwise: the result is converted to the type that the branch of the first alternative returns, so a double becomes an int, and a value becomes a dangling reference if that branch returns a reference. C163_result says what is returned in every case.
* **C165 Questions about types are answered correctly.** Each question is characterised exactly. False of the code: IsDefaultConstructible is true for void only; HasCallOperator denies overloaded call operators; Arguments does not know functions and, since C++17, noexcept signatures, so a noexcept lambda is no wild card; IsCtConst denies constants with a qualifier.
* **C166 Elements lie in bytes of their own at addresses their types allow.** Proved for every nesting of the inline containers, Enum, Maybe and Tuple, with no restriction on alignments, and for vectors of types that are not over-aligned. False for vectors of over-aligned types: the block comes from the plain operator new (C166_refuted, C166_overaligned).
* **C167 No hidden copies.** Proved for vectors on hosted platforms and for bounded vectors. False of vectors in freestanding builds: efp::Allocator::construct copies whatever it is given, so each move of the hosted build is a copy (C167_freestanding is exact). Vcq copies each element twice and Vcb three times, exactly.
* **C168 Sines, cosines and tangents.** True of floating-point types. False of integer types: the result is truncated to the type of the argument, so it is 0 wherever the function is below 1 in magnitude (C168_integers).
* **C170 Normalised errors do not depend on units.** In exact arithmetic. nrmse_mean in full. nrmse_max_min proved if some element of the second sequence is at least NumericLimits::min(); false if all are below (all negative, say): it divides by the distance to that limit, refuted for all such data.
* **C171 Assigning to a Vcb yields the Vcb.** False of the code and refuted: move assignment returns a copy, so what is pushed onto the result is lost. Proved: the copy shows the window of the target, and target, source and copy are destroyed cleanly.
* **C172 Elements pass through a chain of queues in order.** The order is kept if one thread works between each two neighbouring queues, for every schedule; with two threads there one may overtake the other (refuted). That nothing is lost or duplicated is proved for any number of threads. With bounded queues in the chain, what arrives is a part of what was sent, in order.
* **C173 Floating-point data compared with itself has no error.** False of the code: NaN if the mean is zero (nrmse_mean), for constant data (nrmse_max_min) and without elements. Proved: exactly which data give NaN, and zero for all other finite data.

## What is modelled

| Source | Model | Covered | Left out |
|---|---|---|---|
| sequence.hpp | Vector, VectorLimits, VecWorld, ArrVec, ArrVecWorld, Array, View, Throw, StdSequence | all members of Array, ArrVec, Vector, the views, and the length/nth/data accessors; element copies that throw; `size_t` arithmetic and allocations that fail; programs over many containers | the standard containers themselves: `std::array`, `std::vector` and `std::basic_string` are lists of values (StdSequence) |
| string.hpp | String, StringOwn, StringLimits, StrWorld | all members of String and StringView; pointers into the own text; allocations that fail; programs over many strings and the allocation functions they use | wide character types (same code), `std::char_traits` itself (assumed to be strlen / strncmp on characters) |
| cyclic.hpp | Cyclic | all members of Vcb and Vcq | compile-time traits |
| concurrency.hpp | Concurrency, DoubleBuffer, ConcurrencyThrow, ConcurrencyCopies, HappensBefore, FairBlocking, FairNonBlocking, FairDoubleBuffer | BlockingQ, NonBlockingQ (bounded and unbounded), DoubleBuffer with its spinlock; acquire and release of mutex and spinlock; element copies that throw; never-ending executions under fair schedulers | weaker behaviour than interleaving (C124 shows that there are no data races, for which the C++ standard guarantees interleaving), `arc`, destruction while threads run |
| sort.hpp | Sort, SortQuick, SortHeap, SortMerge, SortTim, SortCost*, SortAny, SortFault | every sort, the number of comparisons it makes and the depth of its recursion; comparators that are no order; elements and comparators that throw | nothing |
| prelude.hpp | Prelude, PreludeRuns, PreludeUnwind, View, Callable | every list function and `compose`; callbacks that throw | `id` |
| enum.hpp, maybe.hpp | Enum, EnumResult | construction, copy, move, assignment, destruction, get, move, match and what it returns, equality, Maybe operations | overload resolution for generic lambdas, const `move` (cannot be instantiated) |
| meta.hpp | Meta, TypeTraits | compile-time folds, lookups, Tuple, swap, clamp, power_2_ceiling, operators used by the algorithms, forward and move, qualifier removal, questions about callable types | IsInvocable, InvokeResult, Common and the other direct names for standard traits |
| c_utility.hpp | Callable | `func_ptr` | type computations |
| numeric.hpp | Numeric, NumericApprox, NumericSqrt, SciFloat, SciFloatMore | sum, product, extrema, abs, square, is_approx, all also in IEEE arithmetic; sqrt of integers | sin, cos, tan, complex_cast |
| scientific.hpp | Scientific, SciFloat, SciFloatMore, Ieee | every function in exact arithmetic in an ordered field; mean, rms, sse, mse, rmse, variance, standard_deviation, covariance, correlation, autocovariance, autocorrelation and remove_dc also in IEEE arithmetic | rounding in linear regression, detrend and cumulative functions; trusted: float and double are IEEE binary32 and binary64, rounded to nearest after every operation, without extended precision, contraction or fast-math options |
| io.hpp | IO | File: open, moves, destruction, read_line, read_lines, write, seek, tell, close | flush, the operating system, text-mode translation |
| format.hpp | Format, Fmt/Format | the sequence formatters and the join they use; `format`, `print`, `println` | - |
| fmt/core.h, fmt/format.h, fmt/format-inl.h | Fmt/* | format strings and replacement fields, argument lists and names, integers, characters, strings, booleans, pointers, padding, UTF-8 decoding and widths, debug escapes, dynamic width and precision; the output buffers and `format_to`, `format_to_n`, `formatted_size`; `memory_buffer` with its heap storage; `float` and `double`: the conversion to shortest digits with its tables, digits with a precision through bigints, hexadecimal notation, layout, infinities and NaNs; containers, `join`, `bytes` and `group_digits` as arguments; the compile-time check of format strings; mapping of argument types; error reporting; UTF-8 to UTF-16 | `long double` (a parameter of the model), wide characters, locales, Windows consoles |
| cpp_core.hpp | Freestanding | `_memcpy` and the error classes of both builds | - |
| allocator.hpp | Layout | the size asked for and the addresses `operator new` may return; `construct` always copying (CopyCount); otherwise through its contract | `rebind`, `max_size` |

## Trusted base

* Lean 4.33.0 kernel. Axioms of the property theorems: at most `propext`, `Classical.choice`, `Quot.sound` (listed per
  theorem above). No axioms are added; no `sorry`, `native_decide` or `bv_decide`.
* The reading of the C++ source into the model (cited per definition).
* Assumed behaviour of what is not modelled: `new`/`std::allocator` return fresh storage of the
  requested size, `std::mutex`/`std::condition_variable`/`std::queue` behave as specified by the
  standard, `Traits::length/compare` are strlen/memcmp-like, the C library's streams behave as documented in
  `Verif/IO.lean`, client function objects are deterministic functions of the modelled state.
