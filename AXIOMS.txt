Axioms each theorem of MANIFEST.json depends on (output of #print axioms)

Codon.Arith.c01_fold_agrees_with_run_partial: propext, Classical.choice, Quot.sound
Codon.Arith.c01_run_meaning: propext, Classical.choice, Quot.sound
Codon.Arith.c01_fold_defined: propext, Classical.choice, Quot.sound
Codon.Arith.c01_violation_host_overflow: propext, Quot.sound
Codon.Arith.c01_zero_divisor_not_folded: propext, Quot.sound
Codon.Arith.c01_unary: propext, Classical.choice, Quot.sound
Codon.Fold.c02_fold_preserves_partial: propext, Classical.choice, Quot.sound
Codon.Fold.c02_fold_preserves_pure_partial: propext, Classical.choice, Quot.sound
Codon.Fold.c02_violation_mul_zero_drops_effect: propext, Quot.sound
Codon.Fold.c02_violation_zero_div_drops_effect: propext, Quot.sound
Codon.Fold.c02_violation_zero_div_zero: propext, Quot.sound
Codon.Canon.c03_canonicalise: propext, Classical.choice, Quot.sound
Codon.Canon.c03_value: propext, Classical.choice, Quot.sound
Codon.Canon.c03_inequality: propext, Classical.choice, Quot.sound
Codon.Canon.c03_series: propext, Quot.sound
Codon.Dce.c04_dce_partial: propext, Classical.choice, Quot.sound
Codon.Dce.c04_pure_function_partial: propext, Classical.choice, Quot.sound
Codon.Dce.c04_violation_generator: propext
Codon.Dce.c04_violation_endless: propext
Codon.Flow.BitSet.c05_bitset_operations: propext, Classical.choice, Quot.sound
Codon.Flow.c05_terminates: propext, Classical.choice, Quot.sound
Codon.Flow.c05_reaching: propext, Classical.choice, Quot.sound
Codon.Flow.c05_precise: propext, Classical.choice, Quot.sound
Codon.Flow.c06_terminates: propext, Classical.choice, Quot.sound
Codon.Flow.c06_sound: propext, Classical.choice, Quot.sound
Codon.Flow.c06_complete_partial: propext, Classical.choice, Quot.sound
Codon.Flow.c06_isDominated_sound: propext, Classical.choice, Quot.sound
Codon.Flow.c06_isDominated_complete_partial: propext, Classical.choice, Quot.sound
Codon.Flow.c06_violation_no_predecessors: propext, Classical.choice, Quot.sound
Codon.Flow.c07_const_prop: propext, Classical.choice, Quot.sound
Codon.Flow.c08_graph_covers_partial: propext, Classical.choice, Quot.sound
Codon.Flow.c08_graph_ok: propext, Classical.choice, Quot.sound
Codon.Flow.c08_const_prop_partial: propext, Classical.choice, Quot.sound
Codon.Flow.c08_violation_while_test: propext, Quot.sound
Codon.Flow.c08_violation_while_in_try: propext, Quot.sound
Codon.Flow.c08_violation_after_break: propext, Quot.sound
Codon.Flow.c08_violation_loop_bound: propext, Quot.sound
Codon.Flow.c08_violation_finally_blocks: propext, Quot.sound
Codon.Flow.c08_violation_next_raises: propext, Quot.sound
Codon.PassMgr.c09_current: propext, Classical.choice, Quot.sound
Codon.PassMgr.c09_valid: propext, Classical.choice, Quot.sound
Codon.PassMgr.c09_run_completes: propext, Classical.choice, Quot.sound
Codon.PassMgr.c09_keys_distinct: propext, Classical.choice, Quot.sound
Codon.PassMgr.c09_standard: propext, Classical.choice, Quot.sound
Codon.PassMgr.c09_order: propext, Classical.choice, Quot.sound
Codon.Unify.c10_failure_leaves_no_trace: propext, Classical.choice, Quot.sound
Codon.Unify.c10_undo_after_any_result: propext, Classical.choice, Quot.sound
Codon.Unify.c10_query_changes_nothing: propext, Quot.sound
Codon.Unify.c11_success_partial: propext, Classical.choice, Quot.sound
Codon.Unify.c11_frame_partial: propext, Classical.choice, Quot.sound
Codon.Unify.c11_violation_trait: propext, Quot.sound
Codon.Unify.c11_violation_hidden: propext, Quot.sound
Codon.C3.c12_merge: propext, Classical.choice, Quot.sound
Codon.C3.c12_hierarchy: propext, Classical.choice, Quot.sound
Codon.C3.c12_reject: propext, Classical.choice, Quot.sound
Codon.CallArgs.c13_each_once_partial: propext, Classical.choice, Quot.sound
Codon.CallArgs.c13_partial_call: propext, Classical.choice, Quot.sound
Codon.CallArgs.c13_binding_partial: propext, Classical.choice, Quot.sound
Codon.CallArgs.c13_none_dropped_partial: propext, Classical.choice, Quot.sound
Codon.CallArgs.c13_violation_star_name: propext, Classical.choice, Quot.sound
Codon.StaticEval.c14_static_agrees_partial: propext, Classical.choice, Quot.sound
Codon.StaticEval.c14_div_zero_rejected: propext, Classical.choice, Quot.sound
Codon.StaticEval.c14_violation_host_overflow: propext, Quot.sound
Codon.StaticEval.c14_violation_not_string_kind: propext, Quot.sound
Codon.StaticEval.c15_static_slice_partial: propext, Classical.choice, Quot.sound
Codon.StaticEval.c15_zero_step_rejected: propext, Classical.choice, Quot.sound
Codon.StaticEval.c15_violation_step_overflow: propext, Classical.choice, Quot.sound
Codon.StaticEval.c15_static_index: propext, Quot.sound
Codon.Esc.c16_roundtrip_partial: propext, Classical.choice, Quot.sound
Codon.Esc.c16_injective_partial: propext, Classical.choice, Quot.sound
Codon.Esc.c16_violation: propext
Codon.Exc.c17_uleb_partial: propext, Classical.choice, Quot.sound
Codon.Exc.c17_sleb_partial: propext, Classical.choice, Quot.sound
Codon.Exc.c17_violation: propext, Quot.sound
Codon.Exc.c18_first_clause: propext, Classical.choice, Quot.sound
Codon.Exc.c18_personality: propext, Classical.choice, Quot.sound
Codon.Exc.c18_no_table: propext, Quot.sound
Codon.Exc.c18_routing: propext, Classical.choice, Quot.sound
Codon.KHash.c19_history: propext, Classical.choice, Quot.sound
Codon.KHash.c19_lookup_after_history: propext, Classical.choice, Quot.sound
Codon.KHash.c19_update: propext, Classical.choice, Quot.sound
Codon.KHash.c19_eq: propext, Classical.choice, Quot.sound
Codon.KHash.c20_iteration_after_history: propext, Classical.choice, Quot.sound
Codon.KHash.c20_popitem: propext, Classical.choice, Quot.sound
Codon.KHash.SetM.c21_history: propext, Classical.choice, Quot.sound
Codon.KHash.SetM.c21_iteration_after_history: propext, Classical.choice, Quot.sound
Codon.KHash.SetM.c21_pop: propext, Classical.choice, Quot.sound
Codon.KHash.SetM.c22_union: propext, Classical.choice, Quot.sound
Codon.KHash.SetM.c22_difference: propext, Classical.choice, Quot.sound
Codon.KHash.SetM.c22_intersection: propext, Classical.choice, Quot.sound
Codon.KHash.SetM.c22_symmetric_difference: propext, Classical.choice, Quot.sound
Codon.KHash.SetM.c22_difference_update: propext, Classical.choice, Quot.sound
Codon.KHash.SetM.c22_difference_update_self: propext, Classical.choice, Quot.sound
Codon.KHash.SetM.c22_update: propext, Classical.choice, Quot.sound
Codon.KHash.SetM.c22_intersection_update: propext, Classical.choice, Quot.sound
Codon.KHash.SetM.c22_symmetric_difference_update_partial: propext, Classical.choice, Quot.sound
Codon.KHash.SetM.c22_violation_symmetric_difference_update: propext, Classical.choice, Quot.sound
Codon.KHash.SetM.c22_isdisjoint: propext, Classical.choice, Quot.sound
Codon.KHash.SetM.c22_issubset: propext, Classical.choice, Quot.sound
Codon.KHash.SetM.c22_eq: propext, Classical.choice, Quot.sound
Codon.KHash.SetM.c22_lt: propext, Classical.choice, Quot.sound
Codon.ListM.c23_step_agrees_with_python_partial: propext, Classical.choice, Quot.sound
Codon.ListM.c23_history_agrees_with_python_partial: propext, Classical.choice, Quot.sound
Codon.ListM.c23_fresh_list_history_partial: propext, Classical.choice, Quot.sound
Codon.ListM.c23_python_observation_unique: propext, Quot.sound
Codon.ListM.c23_assign_self_partial: propext, Classical.choice, Quot.sound
Codon.ListM.c23_comparison_is_lexicographic: propext, Classical.choice, Quot.sound
Codon.ListM.c23_violation_full_slice_self_assign: propext
Codon.ListM.c23_violation_remove_missing: propext, Quot.sound
Codon.Slice.c24_zero_step_rejected: propext, Classical.choice, Quot.sound
Codon.Slice.c24_adjust_selects_python_positions: propext, Classical.choice, Quot.sound
Codon.Slice.c24_stop_agrees_with_length: propext, Classical.choice, Quot.sound
Codon.Slice.c25_iter64_partial: propext, Classical.choice, Quot.sound
Codon.Slice.c25_iter64_violation_nonterminating: propext
Codon.Slice.c25_iter64_violation_value: propext, Classical.choice, Quot.sound
Codon.Slice.c25_zero_step_rejected: propext
Codon.Slice.c25_iter_is_progression: propext, Classical.choice, Quot.sound
Codon.Slice.c25_progression_unique: propext, Classical.choice, Quot.sound
Codon.Slice.c25_len: propext, Classical.choice, Quot.sound
Codon.Slice.c25_getitem: propext, Classical.choice, Quot.sound
Codon.Slice.c25_contains: propext, Classical.choice, Quot.sound
Codon.Slice.c25_index_count: propext, Classical.choice, Quot.sound
Codon.Slice.c25_reversed: propext, Classical.choice, Quot.sound
Codon.Slice.c25_slice: propext, Classical.choice, Quot.sound
Codon.Deque.c26_step_partial: propext, Classical.choice, Quot.sound
Codon.Deque.c26_history_partial: propext, Classical.choice, Quot.sound
Codon.Deque.c26_unbounded: propext, Classical.choice, Quot.sound
Codon.Deque.c26_bounded_partial: propext, Classical.choice, Quot.sound
Codon.Deque.c26_maxlen_partial: propext, Classical.choice, Quot.sound
Codon.Deque.c26_from_iterable: propext, Classical.choice, Quot.sound
Codon.Deque.c26_violation_maxlen: propext
Codon.Deque.c26_violation_maxlen_zero: propext
Codon.Deque.c26_violation_deepcopy: propext
Codon.Heapq.c27_heapify: propext, Classical.choice, Quot.sound
Codon.Heapq.c27_heappush: propext, Classical.choice, Quot.sound
Codon.Heapq.c27_heappop: propext, Classical.choice, Quot.sound
Codon.Heapq.c27_heappop_empty: propext
Codon.Heapq.c27_heapreplace: propext, Classical.choice, Quot.sound
Codon.Heapq.c27_heappushpop: propext, Classical.choice, Quot.sound
Codon.Heapq.c27_heapsort: propext, Classical.choice, Quot.sound
Codon.Heapq.c27_max_variants: propext, Quot.sound
Codon.Bisect.c28_bisect_left_splits: propext, Classical.choice, Quot.sound
Codon.Bisect.c28_bisect_right_splits: propext, Classical.choice, Quot.sound
Codon.Bisect.c28_split_unique: propext, Quot.sound
Codon.Bisect.c28_negative_lo: propext
Codon.Bisect.c28_insort_left: propext, Classical.choice, Quot.sound
Codon.Bisect.c28_insort_right: propext, Classical.choice, Quot.sound
Codon.Bisect.c28_insort_adds_one: propext, Quot.sound
Codon.Sort.c29_sorts: propext, Classical.choice, Quot.sound
Codon.Sort.c29_list_sort: propext, Classical.choice, Quot.sound
Codon.Sort.c29_algorithms_agree: propext, Classical.choice, Quot.sound
Codon.Sort.c29_subrange: propext, Classical.choice, Quot.sound
Codon.Sort.c30_violation: propext
Codon.Sort.c30_reverse_violation: propext
Codon.Sort.c30_tim_partial: propext, Classical.choice, Quot.sound
Codon.Sort.c30_insertion_partial: propext, Classical.choice, Quot.sound
Codon.Sort.c30_merge_stable_partial: propext, Classical.choice, Quot.sound
Codon.Str.c31_find: propext, Classical.choice, Quot.sound
Codon.Str.c31_contains: propext, Classical.choice, Quot.sound
Codon.Str.c31_index: propext, Classical.choice, Quot.sound
Codon.Str.c31_count: propext, Classical.choice, Quot.sound
Codon.Str.c31_partition: propext, Classical.choice, Quot.sound
Codon.Str.c32_rfind_partial: propext, Classical.choice, Quot.sound
Codon.Str.c32_violation: propext, Classical.choice, Quot.sound
Codon.Str.c32_oob_violation: propext, Classical.choice, Quot.sound
Codon.Str.c32_rpartition_partial: propext, Classical.choice, Quot.sound
Codon.Str.c33_split: propext, Classical.choice, Quot.sound
Codon.Str.c33_empty_separator: propext
Codon.Str.c33_unique: propext, Classical.choice, Quot.sound
Codon.Str.c33_split_join: propext, Classical.choice, Quot.sound
Codon.Str.c33_join: propext, Classical.choice, Quot.sound
Codon.Str.c33_rsplit_partial: propext, Classical.choice, Quot.sound
Codon.Str.c33_rsplit_violation: propext, Classical.choice, Quot.sound
Codon.Str.c34_replace: propext, Classical.choice, Quot.sound
Codon.Str.c34_replace_empty: propext, Classical.choice, Quot.sound
Codon.Str.c35_operators: propext, Classical.choice, Quot.sound
Codon.Str.c35_total_order: propext, Classical.choice, Quot.sound
Codon.Str.c36_startswith_partial: propext, Classical.choice, Quot.sound
Codon.Str.c36_endswith_partial: propext, Classical.choice, Quot.sound
Codon.Str.c36_startswith_violation: propext, Classical.choice, Quot.sound
Codon.Str.c36_both_negative_violation: propext, Classical.choice, Quot.sound
Codon.Str.c36_empty_violation: propext, Classical.choice, Quot.sound
Codon.Esc.c37_repr: propext, Quot.sound
Codon.Esc.c37_repr_injective: propext, Quot.sound
Codon.CounterM.c38_most_common_all: propext, Classical.choice, Quot.sound
Codon.CounterM.c38_most_common_n: propext, Classical.choice, Quot.sound
Codon.CounterM.c38_iadd: propext, Classical.choice, Quot.sound
Codon.CounterM.c38_isub: propext, Classical.choice, Quot.sound
Codon.CounterM.c38_ior: propext, Classical.choice, Quot.sound
Codon.CounterM.c38_iand_partial: propext, Classical.choice, Quot.sound
Codon.CounterM.c38_iand_subset_partial: propext, Classical.choice, Quot.sound
Codon.CounterM.c38_violation_iand: propext, Classical.choice, Quot.sound
Codon.CounterM.c38_add: propext, Classical.choice, Quot.sound
Codon.CounterM.c38_sub: propext, Classical.choice, Quot.sound
Codon.CounterM.c38_or: propext, Classical.choice, Quot.sound
Codon.CounterM.c38_and_partial: propext, Classical.choice, Quot.sound
Codon.CounterM.c38_pos: propext, Classical.choice, Quot.sound
Codon.CounterM.c38_neg: propext, Classical.choice, Quot.sound
Codon.CounterM.c38_update_elements: propext, Classical.choice, Quot.sound
Codon.CounterM.c38_subtract_elements: propext, Classical.choice, Quot.sound
Codon.CounterM.c38_counter_of_elements: propext, Classical.choice, Quot.sound
Codon.CounterM.c38_update_counter: propext, Classical.choice, Quot.sound
Codon.CounterM.c38_getitem: propext, Classical.choice, Quot.sound
Codon.CounterM.c38_elements: propext, Classical.choice, Quot.sound
Codon.CounterM.c38_elements_round_trip: propext, Classical.choice, Quot.sound
Codon.CounterM.c38_total: propext, Classical.choice, Quot.sound
Codon.CounterM.c38_eq_partial: propext, Classical.choice, Quot.sound
Codon.CounterM.c38_violation_eq: propext, Quot.sound
Codon.Iter.c39_combinations: propext, Classical.choice, Quot.sound
Codon.Iter.c39_combinations_negative: propext
Codon.Iter.c39_combinations_with_replacement: propext, Classical.choice, Quot.sound
Codon.Iter.c39_product: propext, Classical.choice, Quot.sound
Codon.Iter.c39_product_static: propext, Classical.choice, Quot.sound
Codon.Iter.c39_product_generators: propext, Quot.sound
Codon.Iter.c39_product_single: propext
Codon.Iter.c39_product_violation: propext
Codon.Iter.c39_permutations: propext, Classical.choice, Quot.sound
Codon.Iter.c39_permutations_default: propext
Codon.Iter.c40_takewhile: propext
Codon.Iter.c40_dropwhile: propext, Quot.sound
Codon.Iter.c40_filterfalse: propext, Quot.sound
Codon.Iter.c40_compress: propext
Codon.Iter.c40_starmap: propext
Codon.Iter.c40_chain: propext, Quot.sound
Codon.Iter.c40_accumulate_initial: propext, Classical.choice, Quot.sound
Codon.Iter.c40_accumulate: propext, Classical.choice, Quot.sound
Codon.Iter.c40_grouping_unique: propext, Classical.choice, Quot.sound
Codon.Iter.c40_groupby: propext, Classical.choice, Quot.sound
Codon.Iter.c40_islice_stop_partial: propext, Classical.choice, Quot.sound
Codon.Iter.c40_islice_stop_violation: none
Codon.Iter.c40_islice: propext, Classical.choice, Quot.sound
Codon.Iter.c40_islice_errors: propext, Quot.sound
Codon.Iter.c40_zip_longest_two: propext, Classical.choice, Quot.sound
Codon.Iter.c40_zip_longest: propext, Classical.choice, Quot.sound
Codon.Iter.c40_zip_longest_none_partial: propext, Classical.choice, Quot.sound
Codon.Iter.c40_zip_longest_none_violation: propext
Codon.Iter.c40_count: propext, Quot.sound
Codon.Iter.c40_cycle: propext, Classical.choice, Quot.sound
Codon.Iter.c40_repeat: propext, Classical.choice, Quot.sound
Codon.Iter.c40_tee: propext, Classical.choice, Quot.sound
Codon.SortedList.c41_contents: propext, Classical.choice, Quot.sound
Codon.SortedList.c41_progress: propext, Classical.choice, Quot.sound
Codon.SortedList.c41_balanced: propext, Classical.choice, Quot.sound
Codon.Date.c42_constructor: propext, Classical.choice, Quot.sound
Codon.Date.c42_fromordinal: propext, Classical.choice, Quot.sound
Codon.Date.c42_fromordinal_range: propext, Classical.choice, Quot.sound
Codon.Date.c42_toordinal: propext, Classical.choice, Quot.sound
Codon.Date.c42_next: propext, Classical.choice, Quot.sound
Codon.Date.c42_weekday: propext, Classical.choice, Quot.sound
Codon.Date.c42_isocalendar: propext, Classical.choice, Quot.sound
Codon.Date.c42_fromisocalendar: propext, Classical.choice, Quot.sound
Codon.Date.c43_timedelta_fields: propext, Classical.choice, Quot.sound
Codon.Date.c43_timedelta_new_partial: propext, Classical.choice, Quot.sound
Codon.Date.c43_violation_timedelta_new: none
Codon.Date.c43_violation_floordiv: none
Codon.Date.c43_floordiv_partial: propext, Quot.sound
Codon.Date.c43_mod_partial: propext, Classical.choice, Quot.sound
Codon.Date.c43_violation_mod: propext
Codon.Date.c43_date_add: propext, Classical.choice, Quot.sound
Codon.Date.c43_date_sub: propext, Classical.choice, Quot.sound
Codon.Date.c43_date_add_sub: propext, Classical.choice, Quot.sound
Codon.Date.c43_date_diff: propext, Classical.choice, Quot.sound
Codon.Date.c43_date_order: propext, Classical.choice, Quot.sound
Codon.Date.c43_time_constructor: propext, Classical.choice, Quot.sound
Codon.Date.c43_time_replace: propext, Classical.choice, Quot.sound
Codon.Date.c43_date_replace: propext, Classical.choice, Quot.sound
Codon.Date.c43_time_order: propext, Classical.choice, Quot.sound
Codon.Date.c43_datetime_add: propext, Classical.choice, Quot.sound
Codon.Date.c43_datetime_sub: propext, Classical.choice, Quot.sound
Codon.Date.c43_datetime_add_sub: propext, Classical.choice, Quot.sound
Codon.Date.c43_datetime_diff: propext, Classical.choice, Quot.sound
Codon.Date.c43_datetime_order: propext, Classical.choice, Quot.sound
Codon.MathM.c44_gcd_partial: propext, Classical.choice, Quot.sound
Codon.MathM.c44_lcm_partial: propext, Classical.choice, Quot.sound
Codon.MathM.c44_lcm_fits_of_nonzero_partial: propext, Classical.choice, Quot.sound
Codon.MathM.c44_violation_gcd_least_integer: propext, Quot.sound
Codon.MathM.c44_violation_lcm_least_integer: propext, Quot.sound
Codon.Random.c45_getrandbits_partial: propext, Classical.choice, Quot.sound
Codon.Random.c45_getrandbits_refuses: propext, Quot.sound
Codon.Random.c45_randbelow_ends: propext, Quot.sound
Codon.Random.c45_randrange_partial: propext, Classical.choice, Quot.sound
Codon.Random.c45_randint_partial: propext, Classical.choice, Quot.sound
Codon.Random.c45_choice: propext, Classical.choice, Quot.sound
Codon.Random.c45_shuffle: propext, Classical.choice, Quot.sound
Codon.Random.c45_sample: propext, Classical.choice, Quot.sound
Codon.Random.c45_violation_randint: propext, Quot.sound
Codon.Random.c45_violation_stop_zero: propext, Classical.choice, Quot.sound
Codon.Random.c45_violation_rounding: propext, Classical.choice, Quot.sound
Codon.Random.c45_violation_width: propext, Quot.sound
Codon.Random.c45_violation_getrandbits: propext, Quot.sound
Codon.Twister.c46_refines: propext, Classical.choice, Quot.sound
Codon.Twister.c46_index: propext, Classical.choice, Quot.sound
Codon.Twister.c46_restore: propext, Classical.choice, Quot.sound
Codon.Twister.c46_seed_key: propext, Classical.choice, Quot.sound
Codon.Omp.c47_sequential: propext, Classical.choice, Quot.sound
Codon.Omp.c47_static_partial: propext, Classical.choice, Quot.sound
Codon.Omp.c47_chunked_partial: propext, Classical.choice, Quot.sound
Codon.Omp.c47_chunked_empty: propext, Classical.choice, Quot.sound
Codon.Omp.c47_dynamic_partial: propext, Classical.choice, Quot.sound
Codon.Omp.c47_collapse_partial: propext, Classical.choice, Quot.sound
Codon.Omp.c47_violation_chunk_overflow: propext, Classical.choice, Quot.sound
Codon.Omp.c47_violation_length: propext
Codon.Omp.c47_violation_collapse_triangle: none
Codon.Async.c48_fifo_partial: propext, Classical.choice, Quot.sound
Codon.Async.c48_work: propext, Classical.choice, Quot.sound
Codon.Async.c48_drained_partial: propext, Classical.choice, Quot.sound
Codon.Async.c48_accounted_partial: propext, Classical.choice, Quot.sound
Codon.Async.c48_cancelled: propext, Classical.choice, Quot.sound
Codon.Async.c48_cancel_queued_partial: propext, Classical.choice, Quot.sound
Codon.Async.c48_timers_ordered: propext, Classical.choice, Quot.sound
Codon.Async.c48_timers_due: propext, Classical.choice, Quot.sound
Codon.Async.c48_timers_across: propext, Classical.choice, Quot.sound
Codon.Async.c48_timer_cancelled: propext, Classical.choice, Quot.sound
Codon.Async.c48_defined: propext, Classical.choice, Quot.sound
Codon.Async.c48_violation_stop: propext, Quot.sound
Codon.Async.c48_violation_cancel_after_run: propext, Quot.sound
Codon.Async.c48_violation_timer_cancel: propext, Quot.sound
Codon.Async.c48_violation_call_at: propext, Quot.sound
Codon.Async.c48_violation_threadsafe: propext, Quot.sound
Codon.ForLow.c49_source_to_lowered: propext, Classical.choice, Quot.sound
Codon.ForLow.c49_lowered_to_source: propext, Classical.choice, Quot.sound
Codon.ForLow.c49_none_left: propext, Quot.sound
Codon.KHash.Fusion.c50_getitem_partial: propext, Classical.choice, Quot.sound
Codon.KHash.Fusion.c50_get_const_partial: propext, Classical.choice, Quot.sound
Codon.KHash.Fusion.c50_violation_variable_default: propext, Classical.choice, Quot.sound
Codon.KHash.Fusion.c50_violation_raising_operator: propext, Classical.choice, Quot.sound
Codon.KHash.Fusion.c50_violation_second_operand_order: propext, Classical.choice, Quot.sound
Codon.Str.c51_split_whitespace: propext, Classical.choice, Quot.sound
Codon.Str.c51_rsplit_whitespace: propext, Classical.choice, Quot.sound
Codon.Str.c51_strip: propext, Classical.choice, Quot.sound
Codon.Str.c51_splitlines: propext, Classical.choice, Quot.sound
Codon.Str.c51_lines_join: propext
Codon.Unify.c54_shared_not_generalised_partial: propext, Classical.choice, Quot.sound
Codon.Canon.c55_mirrored_partial: none
Codon.Canon.c55_in_order_partial: none
Codon.Canon.c55_violation_swap: none
Codon.Exc.Try.c52_finally_partial: propext, Classical.choice, Quot.sound
Codon.Exc.Try.c52_once_partial: propext, Classical.choice, Quot.sound
Codon.Exc.Try.Cases.c52_handler_raises_violation: propext
Codon.Exc.Try.Cases.c52_handler_returns_violation: propext
Codon.Exc.Try.Cases.c52_else_returns_violation: propext
Codon.Exc.Try.Cases.c52_finally_try_violation: propext
Codon.Exc.Try.Cases.c52_finally_break_violation: propext
Codon.Exc.Try.Cases.c52_handler_try_violation: propext
Codon.CallArgs.c53_in_order_partial: propext, Classical.choice, Quot.sound
Codon.CallArgs.OrderCases.c53_variable_violation: propext, Classical.choice, Quot.sound
Codon.CallArgs.OrderCases.c53_variable_last_violation: propext
Codon.CallArgs.OrderCases.c53_record_violation: propext, Classical.choice, Quot.sound
Codon.CallArgs.OrderCases.c53_yield_violation: propext
Codon.Unify.c56_complete_partial: propext, Classical.choice, Quot.sound
Codon.Unify.c56_failure_partial: propext, Classical.choice, Quot.sound
Codon.Unify.c56_violation_static: propext, Quot.sound
Codon.Unify.c56_violation_generic: propext
Codon.Unify.c56_succeeds_partial: propext, Classical.choice, Quot.sound
Codon.Unify.c57_terminates_partial: propext, Classical.choice, Quot.sound
Codon.Unify.c57_violation_knot: propext, Classical.choice, Quot.sound
Codon.Operator.c58_program_partial: propext, Classical.choice, Quot.sound
Codon.Operator.c58_condition_partial: propext, Classical.choice, Quot.sound
Codon.Operator.c58_violation_or_operand: propext, Quot.sound
Codon.Operator.c58_violation_or_in_condition: none
Codon.Operator.c58_violation_chain_operand: none
Codon.Operator.c58_violation_callee: none
Codon.Operator.c58_violation_in_order: none
Codon.Operator.c58_violation_chain_value: none
Codon.Assign.c59_assign_name_partial: propext, Quot.sound
Codon.Assign.c59_assign_item_partial: propext, Quot.sound
Codon.Assign.c59_assign_attr_partial: propext, Quot.sound
Codon.Assign.c59_aug_name_partial: propext, Quot.sound
Codon.Assign.c59_aug_name_inplace_partial: propext, Quot.sound
Codon.Assign.c59_aug_item_partial: propext, Quot.sound
Codon.Assign.c59_aug_attr_partial: propext, Quot.sound
Codon.Assign.c59_chain_names_partial: propext, Quot.sound
Codon.Assign.c59_violation_order: propext
Codon.Assign.c59_violation_aug_container: propext
Codon.Assign.c59_violation_aug_index: propext
Codon.Assign.c59_violation_aug_object: propext
Codon.Assign.c59_violation_aug_result: propext
Codon.Assign.c59_violation_chain_item: propext
Codon.Assign.c59_violation_chain_order: propext
Codon.Assign.c60_unpack_partial: propext, Quot.sound
Codon.Assign.c60_accepts: propext, Quot.sound
Codon.Assign.c60_violation_surplus: propext
Codon.Assign.c60_violation_missing: propext
Codon.Assign.c60_violation_star_short: propext
Codon.Assign.c60_violation_reread: propext
Codon.Assign.c60_violation_alias: propext
Codon.Assign.c60_violation_star_tuple: propext
Codon.Numpy.c61_flatten_c: propext, Classical.choice, Quot.sound
Codon.Numpy.c61_flatten_f_partial: propext, Classical.choice, Quot.sound
Codon.Numpy.c61_flatten_a: propext, Classical.choice, Quot.sound
Codon.Numpy.c61_flatten_k: propext, Classical.choice, Quot.sound
Codon.Numpy.c61_ravel_c: propext, Classical.choice, Quot.sound
Codon.Numpy.c61_ravel_f_partial: propext, Classical.choice, Quot.sound
Codon.Numpy.c61_tobytes_c: propext, Classical.choice, Quot.sound
Codon.Numpy.c61_tobytes_f_partial: propext, Classical.choice, Quot.sound
Codon.Numpy.c61_tobytes_a: propext, Classical.choice, Quot.sound
Codon.Numpy.c61_item: propext, Classical.choice, Quot.sound
Codon.Numpy.c61_flat_iter_partial: propext, Classical.choice, Quot.sound
Codon.Numpy.c61_coords: propext, Classical.choice, Quot.sound
Codon.Numpy.c61_violation_seven_dims: propext, Classical.choice, Quot.sound
Codon.Numpy.c61_violation_seven_dims_outside: propext, Classical.choice, Quot.sound
Codon.Numpy.c61_violation_flat_scalar: propext, Classical.choice, Quot.sound
Codon.Numpy.c62_copy: propext, Classical.choice, Quot.sound
Codon.Numpy.c62_copy_layout: propext, Classical.choice, Quot.sound
Codon.Numpy.c62_reshape_c: propext, Classical.choice, Quot.sound
Codon.Numpy.c62_reshape_f: propext, Classical.choice, Quot.sound
Codon.Numpy.c62_reshape_a: propext, Classical.choice, Quot.sound
Codon.Numpy.c62_reshape_error: propext, Classical.choice, Quot.sound
Codon.Numpy.c62_reshape_k_partial: propext
Codon.Numpy.c62_round_trip: propext, Classical.choice, Quot.sound
Codon.Numpy.c62_violation_tuple: propext, Classical.choice, Quot.sound
Codon.Numpy.c62_violation_k: propext
Codon.Numpy.c63_index: propext, Classical.choice, Quot.sound
Codon.Numpy.c63_index_error: propext, Classical.choice, Quot.sound
Codon.Numpy.c63_index_compile: propext, Quot.sound
Codon.Numpy.c63_index_injective: propext, Classical.choice, Quot.sound
Codon.Numpy.c63_transpose: propext, Classical.choice, Quot.sound
Codon.Numpy.c63_transpose_axes_partial: propext, Classical.choice, Quot.sound
Codon.Numpy.c63_transpose_list_partial: propext, Classical.choice, Quot.sound
Codon.Numpy.c63_swapaxes: propext, Classical.choice, Quot.sound
Codon.Numpy.c63_violation_one_axis: propext
Codon.Numpy.c63_violation_list: propext
Codon.Numpy.c64_shapes: propext, Classical.choice, Quot.sound
Codon.Numpy.c64_binary: propext, Classical.choice, Quot.sound
Codon.Numpy.c64_rbinary: propext, Classical.choice, Quot.sound
Codon.Numpy.c64_binary_error: propext, Classical.choice, Quot.sound
Codon.Numpy.c64_unary: propext, Classical.choice, Quot.sound
Codon.Numpy.c64_inplace_partial: propext, Classical.choice, Quot.sound
Codon.Numpy.c64_inplace_unary: propext, Classical.choice, Quot.sound
Codon.Numpy.c64_inplace_self: propext, Classical.choice, Quot.sound
Codon.Numpy.c64_violation_inplace_shape: propext
Codon.Numpy.c64_violation_overlap: propext, Quot.sound
Codon.Numpy.c65_unary: propext, Classical.choice, Quot.sound
Codon.Numpy.c65_unary_number: propext
Codon.Numpy.c65_unary_out_partial: propext, Classical.choice, Quot.sound
Codon.Numpy.c65_unary_out_error: propext, Classical.choice, Quot.sound
Codon.Numpy.c65_unary_number_out: propext, Classical.choice, Quot.sound
Codon.Numpy.c65_binary_partial: propext, Classical.choice, Quot.sound
Codon.Numpy.c65_binary_numbers: propext
Codon.Numpy.c65_binary_error: propext, Classical.choice, Quot.sound
Codon.Numpy.c65_binary_out_partial: propext, Classical.choice, Quot.sound
Codon.Numpy.c65_binary_out_error_partial: propext, Classical.choice, Quot.sound
Codon.Numpy.c65_violation_scalar_first: propext, Quot.sound
Codon.Numpy.c65_violation_one_element: propext, Classical.choice, Quot.sound
Codon.Numpy.c65_violation_out_rows: propext, Quot.sound
Codon.Numpy.c65_violation_second_unchecked: propext
Codon.Numpy.c65_violation_where_number: propext
Codon.Fuse.c66_fused_as_written_partial: propext, Classical.choice, Quot.sound
Codon.Fuse.c66_fused_elements_partial: propext, Classical.choice, Quot.sound
Codon.Fuse.c66_descending_slice_violation: propext, Classical.choice, Quot.sound
Codon.Fuse.c66_empty_slice_violation: propext, Quot.sound
Codon.Fuse.c66_later_operand_violation: propext, Quot.sound
Codon.Fuse.c66_zero_step_violation: propext, Quot.sound
Codon.Gen.c67_sum_partial: propext, Quot.sound
Codon.Gen.c67_any_all_partial: propext, Quot.sound
Codon.Gen.c67_without_try: propext, Quot.sound
Codon.Gen.c67_outcome_unique: propext, Quot.sound
Codon.Gen.c67_exception_of_consumer_violation: propext
Codon.Gen.c67_finally_violation: propext
Codon.Gen.c67_return_violation: propext
Verif.Scope.c68_accept: propext, Classical.choice, Quot.sound
Verif.Scope.c68_follow_partial: propext, Classical.choice, Quot.sound
Verif.Scope.c68_defined_partial: propext, Classical.choice, Quot.sound
Verif.Scope.c68_same_partial: propext, Classical.choice, Quot.sound
Verif.Scope.c68_loop_violation: propext, Classical.choice, Quot.sound
Verif.Scope.c68_reject_violation: propext, Quot.sound
Verif.Scope.c68_walrus_violation: propext, Classical.choice, Quot.sound
Verif.Ctl.c69_same_partial: propext, Classical.choice, Quot.sound
Verif.Ctl.c69_defined_partial: propext, Classical.choice, Quot.sound
Verif.Ctl.c69_reject_partial: propext
Verif.Ctl.c69_break_violation: propext
Verif.Ctl.c69_continue_violation: propext, Quot.sound
Verif.Ctl.c69_guard_violation: propext
Verif.Ctl.c69_else_violation: propext
Verif.Ctl.c69_tuple_else_violation: propext
Verif.Ctl.c69_tuple_assign_violation: propext
Verif.Ctl.c69_reject_violation: propext
Codon.Bounds.c70_in_range_partial: propext, Classical.choice, Quot.sound
Codon.Bounds.c70_same_access_partial: propext, Classical.choice, Quot.sound
Codon.Bounds.c70_other_array_violation: propext, Quot.sound
Codon.Bounds.c70_constant_index_violation: propext, Quot.sound
Codon.Bounds.c70_empty_array_violation: propext, Quot.sound
Codon.Bounds.c70_falling_index_violation: propext, Quot.sound
Codon.Bounds.c70_last_element_violation: propext, Quot.sound
Codon.Bounds.c70_double_length_violation: propext, Quot.sound
Codon.Bounds.c70_overflow_violation: propext, Quot.sound
Codon.Bounds.c70_counter_overflow_violation: propext, Quot.sound
Codon.Bounds.c70_size_violation: propext, Quot.sound
Codon.Bounds.c70_stale_copy_violation: propext, Quot.sound
Codon.NpFuse.c71_optimised_partial: propext, Classical.choice, Quot.sound
Codon.NpFuse.c71_same_partial: propext, Classical.choice, Quot.sound
Codon.NpFuse.c71_ends: propext, Classical.choice, Quot.sound
Codon.NpFuse.c71_violation_order: propext
Codon.NpFuse.c71_violation_empty: propext
Codon.NpFuse.c71_violation_vectorized: propext, Quot.sound
Codon.Pickle.c72_number: propext, Classical.choice, Quot.sound
Codon.Pickle.c72_str: propext, Classical.choice, Quot.sound
Codon.Pickle.c72_list: propext, Classical.choice, Quot.sound
Codon.Pickle.c72_tuple: propext, Quot.sound
Codon.Pickle.c72_dict: propext, Classical.choice, Quot.sound
Codon.Pickle.c72_set: propext, Classical.choice, Quot.sound
Codon.Pickle.c72_dump_load: propext
Codon.Pickle.c72_two: propext
Codon.Pickle.c72_array_partial: propext, Classical.choice, Quot.sound
Codon.Pickle.c72_violation_fortran: propext
Codon.Pickle.c72_violation_padding: propext
Codon.IntN.c73_int_of_int: propext, Quot.sound
Codon.IntN.c73_int_of_int_fits: propext, Quot.sound
Codon.IntN.c73_uint_of_int: propext, Classical.choice, Quot.sound
Codon.IntN.c73_uint_of_uint: propext
Codon.IntN.c73_int: propext, Quot.sound
Codon.IntN.c73_int_of_uint_partial: propext, Classical.choice, Quot.sound
Codon.IntN.c73_violation_sext: propext
Codon.IntN.c73_parse: propext, Classical.choice, Quot.sound
Codon.IntN.c73_violation_parse: propext
Codon.IntN.c73_divmod: propext, Classical.choice, Quot.sound
Codon.IntN.c73_divmod_undefined: propext, Quot.sound
Codon.IntN.c73_udivmod: propext
Codon.IntN.c73_shifts: propext, Classical.choice, Quot.sound
Codon.IntN.c73_upow: propext, Classical.choice, Quot.sound
Codon.IntN.c73_pow_partial: propext, Classical.choice, Quot.sound
Codon.IntN.c73_violation_pow: propext, Quot.sound
Codon.IntN.c73_popcnt_partial: propext, Quot.sound
Codon.IntN.c73_violation_popcnt: propext
Codon.IntN.c73_ubit_length: propext, Quot.sound
Codon.IntN.c73_bit_length: propext, Classical.choice, Quot.sound
Codon.FileM.c74_file: propext, Classical.choice, Quot.sound
Codon.FileM.c74_bz: propext, Classical.choice, Quot.sound
Codon.FileM.c74_gz_partial: propext, Classical.choice, Quot.sound
Codon.FileM.c74_bz_error: propext, Classical.choice, Quot.sound
Codon.FileM.c74_gz_error_partial: propext, Classical.choice, Quot.sound
Codon.FileM.c74_violation_error: none
Codon.FileM.c74_violation_zero: propext
Codon.FileM.c74_violation_before: propext
Codon.FileM.c74_read_n: propext, Quot.sound
Codon.FileM.c74_read_partial: propext, Quot.sound
Codon.FileM.c74_closed: none
Codon.FileM.c74_write_read: propext, Quot.sound
Codon.FileM.c74_write_gen: propext, Quot.sound
Codon.FileM.c74_violation_pipe: none
Codon.FileM.c74_violation_behind: none
Codon.NpFwd.c75_block_partial: propext, Classical.choice, Quot.sound
Codon.NpFwd.c75_effect: propext
Codon.NpFwd.c75_otherBlock_violation: propext, Quot.sound
Codon.NpFwd.c75_pure: propext
Codon.NpFwd.c75_branch_violation: propext
Codon.NpFwd.c75_chain_violation: propext
Codon.NpFwd.c75_call_violation: propext
Codon.NpSel.c76_partition_partial: propext, Classical.choice, Quot.sound
Codon.NpSel.c76_positions: propext, Classical.choice, Quot.sound
Codon.NpSel.c76_argpartition_partial: propext, Classical.choice, Quot.sound
Codon.NpSel.c76_less: propext, Quot.sound
Codon.NpSort.c77_timsort_partial: propext, Classical.choice, Quot.sound
Codon.NpSort.c77_radix_partial: propext, Classical.choice, Quot.sound
Codon.NpSort.c77_argsort_partial: propext, Classical.choice, Quot.sound
Codon.NpSort.c77_argsort_ints_partial: propext, Classical.choice, Quot.sound
Codon.NpSort.c77_lexsort_partial: propext, Classical.choice, Quot.sound
Codon.NpSort.c77_lexsort_ints_partial: propext, Classical.choice, Quot.sound
Codon.NpSort.c77_byte_violation: propext
Codon.NpSort.c77_heapsort_partial: propext, Classical.choice, Quot.sound
Codon.NpSort.c77_quicksort_partial: propext, Classical.choice, Quot.sound
Codon.NpSort.c77_argsort_quick_partial: propext, Classical.choice, Quot.sound
Codon.NpSort.c77_nan: propext, Classical.choice, Quot.sound
Codon.NpLine.c78_line_by_line: propext, Classical.choice, Quot.sound
Codon.NpLine.c78_sort_inplace_partial: propext, Classical.choice, Quot.sound
Codon.NpLine.c78_sort_partial: propext, Classical.choice, Quot.sound
Codon.NpLine.c78_sort_none_partial: propext, Classical.choice, Quot.sound
Codon.NpLine.c78_errors: propext
Codon.NpLine.c78_partition_partial: propext, Classical.choice, Quot.sound
Codon.NpLine.c78_argsort_partial: propext, Classical.choice, Quot.sound
Codon.NpIdx.c79_assign_number: propext, Classical.choice, Quot.sound
Codon.NpIdx.c79_assign_partial: propext, Classical.choice, Quot.sound
Codon.NpIdx.c79_assign_errors: propext, Quot.sound
Codon.NpIdx.c79_mask_get: propext, Classical.choice, Quot.sound
Codon.NpIdx.c79_mask_chosen: propext, Classical.choice, Quot.sound
Codon.NpIdx.c79_mask_number: propext, Classical.choice, Quot.sound
Codon.NpIdx.c79_mask_set_partial: propext, Classical.choice, Quot.sound
Codon.NpIdx.c79_mask_scalar_array: propext, Classical.choice, Quot.sound
Codon.NpIdx.c79_mask_errors: propext, Classical.choice, Quot.sound
Codon.NpIdx.c79_take_partial: propext, Classical.choice, Quot.sound
Codon.NpIdx.c79_put_partial: propext, Classical.choice, Quot.sound
Codon.NpIdx.c79_take_errors: propext, Classical.choice, Quot.sound
Codon.NpIdx.c79_violation_overlap: propext
Codon.NpIdx.c79_violation_mask_strides: propext
Codon.NpIdx.c79_violation_put_overlap: propext, Classical.choice, Quot.sound
Codon.NpIdx.c79_violation_int_apart: propext
Codon.NpIdx.c79_violation_half_done: propext
Codon.NpIdx.c79_violation_unchecked: propext
Codon.StrM.c80_index: propext, Classical.choice, Quot.sound
Codon.StrM.c80_slice: propext, Classical.choice, Quot.sound
Codon.StrM.c80_repeat_partial: propext, Classical.choice, Quot.sound
Codon.StrM.c80_violation_negative: propext, Classical.choice, Quot.sound
Codon.StrM.c80_violation_wrap: propext, Classical.choice, Quot.sound
Codon.StrM.c80_kinds: propext, Classical.choice, Quot.sound
Codon.StrM.c80_cases: propext, Quot.sound
Codon.StrM.c80_istitle: propext, Classical.choice, Quot.sound
Codon.StrM.c80_isidentifier: propext, Quot.sound
Codon.StrM.c80_space_partial: propext, Classical.choice, Quot.sound
Codon.StrM.c80_printable_partial: propext, Classical.choice, Quot.sound
Codon.StrM.c80_violation_kinds: propext, Quot.sound
Codon.StrM.c80_lower_upper: propext, Quot.sound
Codon.StrM.c80_capitalize: propext, Quot.sound
Codon.StrM.c80_title: propext, Classical.choice, Quot.sound
Codon.StrM.c80_just: propext, Classical.choice, Quot.sound
Codon.StrM.c80_fill_error: propext, Quot.sound
Codon.StrM.c80_center_partial: propext, Classical.choice, Quot.sound
Codon.StrM.c80_violation_center: propext, Classical.choice, Quot.sound
Codon.StrM.c80_zfill: propext, Classical.choice, Quot.sound
Codon.StrM.c80_expandtabs: propext, Classical.choice, Quot.sound
Codon.StrM.c80_expanded: propext, Quot.sound
Codon.StrM.c80_translate: propext, Quot.sound
Codon.CatOpt.c81_add_partial: propext, Quot.sound
Codon.CatOpt.c81_add_flat: propext, Classical.choice, Quot.sound
Codon.CatOpt.c81_print_text: propext, Quot.sound
Codon.CatOpt.c81_print_partial: propext, Quot.sound
Codon.CatOpt.c81_write_partial: propext, Quot.sound
Codon.CatOpt.c81_program_partial: propext, Quot.sound
Codon.CatOpt.c81_violation_sep: propext
Codon.CatOpt.c81_violation_list: propext
Codon.CatOpt.c81_violation_user_add: propext, Quot.sound
Codon.CatOpt.c81_violation_empty: propext
Codon.WithM.c82_with_partial: propext, Quot.sound
Codon.WithM.c82_no_target: propext, Quot.sound
Codon.WithM.c82_balanced: propext, Quot.sound
Codon.WithM.c82_violation_enter: propext
Codon.WithM.c82_violation_failed_enter: propext
Codon.WithM.c82_violation_rebound: propext
Codon.WithM.c82_violation_same_target: propext
Codon.WithM.c82_violation_swallow: propext
Codon.Demote.c83_which: propext, Quot.sound
Codon.Demote.c83_main: propext, Quot.sound
Codon.Demote.c83_program_partial: propext, Quot.sound
Codon.Demote.c83_violation_kept: propext
Codon.Demote.c83_violation_recursive: propext
Codon.HeapN.c84_nsmallest_partial: propext, Classical.choice, Quot.sound
Codon.HeapN.c84_nsmallest_key_partial: propext, Classical.choice, Quot.sound
Codon.HeapN.c84_nlargest_partial: propext, Classical.choice, Quot.sound
Codon.HeapN.c84_nlargest_key_partial: propext, Classical.choice, Quot.sound
Codon.HeapN.c84_merge_partial: propext, Classical.choice, Quot.sound
Codon.HeapN.c84_merge_key_partial: propext, Classical.choice, Quot.sound
Codon.HeapN.c84_violation_eq: propext, Classical.choice, Quot.sound
Codon.IntStr.c85_base: propext, Quot.sound
Codon.IntStr.c85_parse_partial: propext, Classical.choice, Quot.sound
Codon.IntStr.c85_trimmed: propext, Classical.choice, Quot.sound
Codon.IntStr.c85_format: propext, Classical.choice, Quot.sound
Codon.IntStr.c85_roundtrip_partial: propext, Classical.choice, Quot.sound
Codon.IntStr.c85_violation_short: propext, Classical.choice, Quot.sound
Codon.IntStr.c85_violation_sign: propext, Classical.choice, Quot.sound
Codon.IntStr.c85_violation_min: propext, Classical.choice, Quot.sound
Codon.IntStr.c85_violation_zero: propext, Classical.choice, Quot.sound
Codon.IntStr.c85_violation_py: propext, Classical.choice, Quot.sound
Codon.Bltin.c86_zip_partial: propext, Classical.choice, Quot.sound
Codon.Bltin.c86_zip_empty: propext
Codon.Bltin.c86_violation_zip_twice: propext
Codon.Bltin.c86_violation_zip_end: propext
Codon.Bltin.c86_map: propext, Quot.sound
Codon.Bltin.c86_enumerate: propext, Quot.sound
Codon.Bltin.c86_filter: propext, Quot.sound
Codon.Bltin.c86_any: propext, Quot.sound
Codon.Bltin.c86_all: propext, Quot.sound
Codon.Bltin.c86_any_forever: propext, Quot.sound
Codon.Bltin.c86_next_partial: propext, Quot.sound
Codon.Bltin.c86_violation_next_twice: propext
Codon.Bltin.c86_violation_loop_twice: propext
Codon.Bltin.c86_min_max: propext, Quot.sound
Codon.Bltin.c86_min_max_empty: propext
Codon.Bltin.c86_min_max_args_partial: propext, Quot.sound
Codon.Bltin.c86_violation_nan: propext
Codon.Inl.c87_inline_partial: propext, Classical.choice, Quot.sound
Codon.Inl.c87_ends_partial: propext, Classical.choice, Quot.sound
Codon.Inl.c87_not_aggressive: propext, Quot.sound
Codon.Inl.c87_aggressive: propext, Quot.sound
Codon.Inl.c87_violation_recursive: propext, Quot.sound
Codon.Inl.c87_violation_self: propext, Quot.sound
Codon.Inl.c87_violation_none: propext, Quot.sound
Codon.Inl.c87_violation_end: propext, Quot.sound
Codon.NpRed.c88_axis_error: propext, Classical.choice, Quot.sound
Codon.NpRed.c88_sum: propext, Classical.choice, Quot.sound
Codon.NpRed.c88_prod: propext, Classical.choice, Quot.sound
Codon.NpRed.c88_min: propext, Classical.choice, Quot.sound
Codon.NpRed.c88_min_error: propext, Classical.choice, Quot.sound
Codon.NpRed.c88_ptp: propext, Classical.choice, Quot.sound
Codon.NpRed.c88_any: propext, Classical.choice, Quot.sound
Codon.NpRed.c88_all: propext, Classical.choice, Quot.sound
Codon.NpRed.c88_count_nonzero: propext, Classical.choice, Quot.sound
Codon.NpRed.c88_arg_axis: propext, Classical.choice, Quot.sound
Codon.NpRed.c88_arg_all_partial: propext, Classical.choice, Quot.sound
Codon.NpRed.c88_violation_order: propext
Codon.NpRed.c88_violation_empty: propext, Quot.sound
Codon.NpRed.c88_violation_nan: propext
Codon.PowM.c89_pow: propext, Classical.choice, Quot.sound
Codon.PowM.c89_pow_exact: propext, Classical.choice, Quot.sound
Codon.PowM.c89_pow_mod_partial: propext, Classical.choice, Quot.sound
Codon.PowM.c89_pow_mod_error: propext, Quot.sound
Codon.PowM.c89_violation_mod: propext, Quot.sound
Codon.PowM.c89_violation_least: propext, Quot.sound
Codon.PowM.c89_violation_inverse: propext, Quot.sound
Codon.PowM.c89_divmod_partial: propext, Classical.choice, Quot.sound
Codon.PowM.c89_violation_divmod: propext, Quot.sound
Codon.PowM.c89_sum: propext, Classical.choice, Quot.sound
Codon.PowM.c89_sum_bool: propext, Classical.choice, Quot.sound
Codon.PowM.c89_factorial: propext, Classical.choice, Quot.sound
Codon.Compr.c90_comprehension_partial: propext, Classical.choice, Quot.sound
Codon.Compr.c90_comprehension_plain: propext, Classical.choice, Quot.sound
Codon.Compr.c90_display: propext, Quot.sound
Codon.Compr.c90_star_list: propext
Codon.Compr.c90_len_violation: propext, Quot.sound
Codon.NpCal.c91_set_days: propext, Classical.choice, Quot.sound
Codon.NpCal.c91_days_partial: propext, Classical.choice, Quot.sound
Codon.NpCal.c91_days_py: propext, Classical.choice, Quot.sound
Codon.NpCal.c91_one_to_one: propext, Classical.choice, Quot.sound
Codon.NpCal.c91_month_number: propext, Classical.choice, Quot.sound
Codon.NpCal.c91_value: propext, Classical.choice, Quot.sound
Codon.NpCal.c91_value_months: propext, Classical.choice, Quot.sound
Codon.NpCal.c91_floor_partial: propext, Classical.choice, Quot.sound
Codon.NpCal.c91_floor_months: propext, Classical.choice, Quot.sound
Codon.NpCal.c91_cast_partial: propext, Classical.choice, Quot.sound
Codon.NpCal.c91_round_trip_partial: propext, Classical.choice, Quot.sound
Codon.NpCal.c91_violation_days: propext, Classical.choice, Quot.sound
Codon.NpBus.c92_calendar_partial: propext, Classical.choice, Quot.sound
Codon.NpBus.c92_mask_digits: propext, Classical.choice, Quot.sound
Codon.NpBus.c92_mask_names: propext, Classical.choice, Quot.sound
Codon.NpBus.c92_mask_small: propext, Classical.choice, Quot.sound
Codon.NpBus.c92_empty_mask: propext
Codon.NpBus.c92_violation_nat_holiday: propext, Quot.sound
Codon.NpBus.c92_is_busday: propext, Classical.choice, Quot.sound
Codon.NpBus.c92_roll_nat: propext
Codon.NpBus.c92_roll: propext, Classical.choice, Quot.sound
Codon.NpBus.c92_month: propext, Classical.choice, Quot.sound
Codon.NpBus.c92_nth_unique: propext, Classical.choice, Quot.sound
Codon.NpBus.c92_offset: propext, Classical.choice, Quot.sound
Codon.NpBus.c92_busday_offset: propext, Classical.choice, Quot.sound
Codon.NpBus.c92_offset_nat: propext
Codon.NpBus.c92_count: propext, Classical.choice, Quot.sound
Codon.Getopt.c93_short: propext
Codon.Getopt.c93_long: propext, Quot.sound
Codon.Getopt.c93_getopt_partial: propext, Classical.choice, Quot.sound
Codon.Getopt.c93_unique: propext, Classical.choice, Quot.sound
Codon.Getopt.c93_violation_first_operand: propext, Classical.choice, Quot.sound
Codon.Getopt.c93_violation_empty_value: propext, Classical.choice, Quot.sound
Codon.Getopt.c93_violation_flag_value: propext, Classical.choice, Quot.sound
Codon.Rx.c94_search: propext, Quot.sound
Codon.Rx.c94_spans: propext, Classical.choice, Quot.sound
Codon.Rx.c94_finditer_partial: propext, Classical.choice, Quot.sound
Codon.Rx.c94_nonempty: none
Codon.Rx.c94_bounds: propext, Classical.choice, Quot.sound
Codon.Rx.c94_subn: propext, Classical.choice, Quot.sound
Codon.Rx.c94_subn_negative: propext
Codon.Rx.c94_nothing_lost: propext, Classical.choice, Quot.sound
Codon.Rx.c94_violation_twice: propext, Classical.choice, Quot.sound
Codon.Rx.c94_violation_passed_over: propext, Classical.choice, Quot.sound
Codon.NpSrch.c95_searchsorted: propext, Classical.choice, Quot.sound
Codon.NpSrch.c95_sorter: propext, Classical.choice, Quot.sound
Codon.NpSrch.c95_refused: propext, Quot.sound
Codon.NpSrch.c95_refuses: propext, Quot.sound
Codon.NpSrch.c95_place_unique: propext, Quot.sound
Codon.NpSrch.c95_one: propext, Quot.sound
Codon.NpSrch.c95_digitize_up: propext, Classical.choice, Quot.sound
Codon.NpSrch.c95_digitize_down: propext, Classical.choice, Quot.sound
Codon.NpSrch.c95_digitize_refused: propext, Quot.sound
Codon.NpSrch.c95_guess: propext, Classical.choice, Quot.sound
Codon.NpSrch.c95_guess_free: propext, Classical.choice, Quot.sound
Codon.NpSrch.c95_bincount_partial: propext, Classical.choice, Quot.sound
Codon.NpSrch.c95_bincount_refused: propext, Quot.sound
Codon.NpSrch.c95_violation_bincount_empty: none
Codon.RxT.c96_expand_partial: propext, Classical.choice, Quot.sound
Codon.RxT.c96_plain: propext, Quot.sound
Codon.RxT.c96_bad_escape: propext, Quot.sound
Codon.RxT.c96_violation_octal: propext, Classical.choice, Quot.sound
Codon.RxT.c96_violation_quote: propext, Classical.choice, Quot.sound
Codon.RxT.c96_violation_end: propext, Classical.choice, Quot.sound
Codon.RxT.c96_violation_octal_range: propext, Classical.choice, Quot.sound
Codon.NpBits.c97_ravel: propext, Classical.choice, Quot.sound
Codon.NpBits.c97_modes: propext, Classical.choice, Quot.sound
Codon.NpBits.c97_ravel_refused: propext, Classical.choice, Quot.sound
Codon.NpBits.c97_unravel: propext, Classical.choice, Quot.sound
Codon.NpBits.c97_unravel_refused: propext, Quot.sound
Codon.NpBits.c97_round_trip: propext, Classical.choice, Quot.sound
Codon.NpBits.c97_diagonal: propext, Classical.choice, Quot.sound
Codon.NpBits.c97_packbits: propext, Classical.choice, Quot.sound
Codon.NpBits.c97_unpackbits: propext, Quot.sound
Codon.NpBits.c97_unpackbits_refused: propext, Quot.sound
Codon.NpBits.c97_unpack_pack: propext, Classical.choice, Quot.sound
Codon.NpBits.c97_pack_unpack: propext, Classical.choice, Quot.sound
Codon.NpRearr.c98_roll: propext, Classical.choice, Quot.sound
Codon.NpRearr.c98_array_split: propext, Quot.sound
Codon.NpRearr.c98_resize: propext, Classical.choice, Quot.sound
Codon.NpRearr.c98_resize_empty: propext, Classical.choice, Quot.sound
Codon.NpRearr.c98_repeat: propext, Classical.choice, Quot.sound
Codon.NpRearr.c98_repeat_refused: propext, Quot.sound
Codon.NpRearr.c98_delete: propext, Classical.choice, Quot.sound
Codon.NpRearr.c98_delete_refused: propext, Classical.choice, Quot.sound
Codon.NpRearr.c98_delete_one: propext, Classical.choice, Quot.sound
Codon.NpRearr.c98_delete_one_refused: propext, Classical.choice, Quot.sound
Codon.NpRearr.c98_delete_mask: propext, Classical.choice, Quot.sound
Codon.NpIns.c99_insert_partial: propext, Classical.choice, Quot.sound
Codon.NpIns.c99_insert_one: propext, Quot.sound
Codon.NpIns.c99_insert_refused: propext, Classical.choice, Quot.sound
Codon.NpIns.c99_insert_violation_values_lost: propext
Codon.NpIns.c99_insert_violation_mismatch: propext, Classical.choice, Quot.sound
Codon.NpIns.c99_insert_violation_no_values: propext
Codon.NpApp.c100_append_flat_partial: propext, Quot.sound
Codon.NpApp.c100_append_axis_partial: propext, Quot.sound
Codon.NpApp.c100_append_size: propext, Quot.sound
Codon.NpApp.c100_append_violation_overwritten: propext, Quot.sound
Codon.NpApp.c100_append_violation_offset: none
Codon.NpApp.c100_append_violation_strided: none
