{
 "claims": [
  {
   "property": "C01",
   "status": "partial",
   "theorems": [
    "Codon.Arith.c01_fold_agrees_with_run_partial",
    "Codon.Arith.c01_run_meaning",
    "Codon.Arith.c01_fold_defined",
    "Codon.Arith.c01_violation_host_overflow",
    "Codon.Arith.c01_zero_divisor_not_folded",
    "Codon.Arith.c01_unary"
   ],
   "note": "Agreement proved for every operator/mode/operands whenever the compile-time C++ operation is defined; exactly the overflowing cases are C++ UB (violation theorem). c01_fold_defined shows folding is defined whenever the mathematical result is representable."
  },
  {
   "property": "C02",
   "status": "partial",
   "theorems": [
    "Codon.Fold.c02_fold_preserves_partial",
    "Codon.Fold.c02_fold_preserves_pure_partial",
    "Codon.Fold.c02_violation_mul_zero_drops_effect",
    "Codon.Fold.c02_violation_zero_div_drops_effect",
    "Codon.Fold.c02_violation_zero_div_zero"
   ],
   "note": "All rules except x*0, 0*x, 0//x proved for arbitrary effectful operands and any rule order; with all rules proved for pure operands and C numerics. Violations: dropped side effects, dropped ZeroDivisionError."
  },
  {
   "property": "C03",
   "status": "proved",
   "theorems": [
    "Codon.Canon.c03_canonicalise",
    "Codon.Canon.c03_value",
    "Codon.Canon.c03_inequality",
    "Codon.Canon.c03_series"
   ],
   "note": "int values and series of statements; rules in any order, any ranks, any valuation. Undefined behaviour and non-termination of pure operands are not told apart. Other types (float commutativity, IntN) not modelled."
  },
  {
   "property": "C04",
   "status": "partial",
   "theorems": [
    "Codon.Dce.c04_dce_partial",
    "Codon.Dce.c04_pure_function_partial",
    "Codon.Dce.c04_violation_generator",
    "Codon.Dce.c04_violation_endless"
   ],
   "note": "c04_dce_partial: for every module, a terminating call has the same result, output and visible variables after the pass, and no other outcome. Assumes functions declared pure are pure, and that no generator object is resumed: a call that only drains a generator is erased (c04_violation_generator). Endless loops without effects are erased too (c04_violation_endless). Not modelled: InsertInstr (field assignment), pointers, pipelines, yield/await, plugin nodes."
  },
  {
   "property": "C05",
   "status": "proved",
   "theorems": [
    "Codon.Flow.BitSet.c05_bitset_operations",
    "Codon.Flow.c05_terminates",
    "Codon.Flow.c05_reaching",
    "Codon.Flow.c05_precise"
   ],
   "note": "Proved on arbitrary graphs, with termination, the precision direction, and the word-array bit sets. Whether the graph contains all executions is C08."
  },
  {
   "property": "C06",
   "status": "partial",
   "theorems": [
    "Codon.Flow.c06_terminates",
    "Codon.Flow.c06_sound",
    "Codon.Flow.c06_complete_partial",
    "Codon.Flow.c06_isDominated_sound",
    "Codon.Flow.c06_isDominated_complete_partial",
    "Codon.Flow.c06_violation_no_predecessors"
   ],
   "note": "Termination and soundness for all graphs; completeness needs every block but the entry to have a predecessor. The graphs of imperative for loops do not (the update block, cfg.cpp:262-265), and there dominators are missed: c06_violation_no_predecessors."
  },
  {
   "property": "C07",
   "status": "proved",
   "theorems": [
    "Codon.Flow.c07_const_prop"
   ],
   "note": "Proved for local variables on arbitrary graphs. Whether the graph contains all executions is C08. The tuple case (ExtractInstr) and global variables are not modelled."
  },
  {
   "property": "C08",
   "status": "partial",
   "theorems": [
    "Codon.Flow.c08_graph_covers_partial",
    "Codon.Flow.c08_graph_ok",
    "Codon.Flow.c08_const_prop_partial",
    "Codon.Flow.c08_violation_while_test",
    "Codon.Flow.c08_violation_while_in_try",
    "Codon.Flow.c08_violation_after_break",
    "Codon.Flow.c08_violation_loop_bound",
    "Codon.Flow.c08_violation_finally_blocks",
    "Codon.Flow.c08_violation_next_raises"
   ],
   "note": "Proved for bodies without the constructs of CfgViol (good): every execution is on a path of the graph built, and constant propagation is right for every execution. The full statement is false for the code: six concrete programs whose graph lacks an execution, each with a wrong constant."
  },
  {
   "property": "C09",
   "status": "proved",
   "theorems": [
    "Codon.PassMgr.c09_current",
    "Codon.PassMgr.c09_valid",
    "Codon.PassMgr.c09_run_completes",
    "Codon.PassMgr.c09_keys_distinct",
    "Codon.PassMgr.c09_standard",
    "Codon.PassMgr.c09_order"
   ],
   "note": "Pass manager modelled completely (registration, dependencies, running, invalidation, repetition). c09_current: on any history of registrations, runs and edits of the module, every analysis a pass asks for is cached and was computed after the last invalidation of it or of anything it depends on. c09_valid: the same in terms of right results when passes keep their contracts. c09_standard: for the standard list of passes the results are right whatever the passes do to the module, since nothing stays cached. c09_run_completes, c09_keys_distinct: running never gets stuck, keys never clash."
  },
  {
   "property": "C10",
   "status": "proved",
   "theorems": [
    "Codon.Unify.c10_failure_leaves_no_trace",
    "Codon.Unify.c10_undo_after_any_result",
    "Codon.Unify.c10_query_changes_nothing"
   ],
   "note": "Proved for link, class, literal types with traits, levels and static kinds, also for undoing a success. Functions, unions, __NTuple__ and callable traits are outside the model. TypecheckVisitor::unify (infer.cpp:32-42) runs unify once more without undoing before it raises its error; that caller is not covered by the property."
  },
  {
   "property": "C11",
   "status": "partial",
   "theorems": [
    "Codon.Unify.c11_success_partial",
    "Codon.Unify.c11_frame_partial",
    "Codon.Unify.c11_violation_trait",
    "Codon.Unify.c11_violation_hidden"
   ],
   "note": "Proved when traits and hidden generics have no variables; both restrictions are needed: c11_violation_trait (the occurs check runs before the trait is unified) and c11_violation_hidden (it ignores hidden generics) tie a knot."
  },
  {
   "property": "C12",
   "status": "proved",
   "theorems": [
    "Codon.C3.c12_merge",
    "Codon.C3.c12_hierarchy",
    "Codon.C3.c12_reject"
   ],
   "note": "mergeC3 and the way parseBaseClasses calls it, for dynamically inherited classes; class equality by canonical name. c12_merge: the result is exactly the C3 merge and the empty (error) result is returned iff no common order exists; c12_hierarchy lifts this to whole accepted hierarchies; c12_reject: a class is rejected iff no consistent order exists."
  },
  {
   "property": "C13",
   "status": "partial",
   "theorems": [
    "Codon.CallArgs.c13_each_once_partial",
    "Codon.CallArgs.c13_partial_call",
    "Codon.CallArgs.c13_binding_partial",
    "Codon.CallArgs.c13_none_dropped_partial",
    "Codon.CallArgs.c13_violation_star_name"
   ],
   "note": "Proved for calls that are not partial and whose keywords are not the name of the *args parameter: an accepted call is bound exactly as in Python and Python reports no error; a reported error is one Python reports; no argument is lost. c13_violation_star_name: f(args=1) with def f(*args) is accepted and the argument silently dropped (slots[starArgIndex] = extra overwrites it). Partial calls (known flags, ellipsis) are in the model but outside the theorem."
  },
  {
   "property": "C14",
   "status": "partial",
   "theorems": [
    "Codon.StaticEval.c14_static_agrees_partial",
    "Codon.StaticEval.c14_div_zero_rejected",
    "Codon.StaticEval.c14_violation_host_overflow",
    "Codon.StaticEval.c14_violation_not_string_kind"
   ],
   "note": "Proved for whole expressions (int/bool/str literals, short-circuit) wherever compile-time evaluation is defined; violations: host signed overflow, not of a string has int kind."
  },
  {
   "property": "C15",
   "status": "partial",
   "theorems": [
    "Codon.StaticEval.c15_static_slice_partial",
    "Codon.StaticEval.c15_zero_step_rejected",
    "Codon.StaticEval.c15_violation_step_overflow",
    "Codon.StaticEval.c15_static_index"
   ],
   "note": "Proved for all lengths/bounds/steps with len+|step| < 2^63; beyond that the compiler's loop counter overflows (violation)."
  },
  {
   "property": "C16",
   "status": "partial",
   "theorems": [
    "Codon.Esc.c16_roundtrip_partial",
    "Codon.Esc.c16_injective_partial",
    "Codon.Esc.c16_violation"
   ],
   "note": "False in general (\\x escapes are not padded: \"\\x01a\" and \"\\x1a\" print alike, c16_violation). Proved: unescape(escape s) = s exactly for the strings in which no byte of 0-6,14,15 is followed by a hex digit; escape is injective on those."
  },
  {
   "property": "C17",
   "status": "partial",
   "theorems": [
    "Codon.Exc.c17_uleb_partial",
    "Codon.Exc.c17_sleb_partial",
    "Codon.Exc.c17_violation"
   ],
   "note": "Exact characterisation of which encodings the readers decode correctly (at most five bytes and value below 2^31 for ULEB128; the signed analogue); c17_violation gives encodings that are decoded wrongly or shift out of range."
  },
  {
   "property": "C18",
   "status": "partial",
   "theorems": [
    "Codon.Exc.c18_first_clause",
    "Codon.Exc.c18_personality",
    "Codon.Exc.c18_no_table",
    "Codon.Exc.c18_routing"
   ],
   "note": "The personality function picks the first matching clause for every table (c18_first_clause, c18_personality, c18_no_table), and the emitted dispatch code of nested try statements takes an exception raised in a try body to the first matching clause after exactly the finally blocks in between (c18_routing). Missing: exceptions raised in except/else/finally parts; reading the code, one raised in a handler of a try with a finally part is dispatched with selector 0 in the enclosing try and so misses its typed clauses (see DESIGN.md)."
  },
  {
   "property": "C19",
   "status": "proved",
   "theorems": [
    "Codon.KHash.c19_history",
    "Codon.KHash.c19_lookup_after_history",
    "Codon.KHash.c19_update",
    "Codon.KHash.c19_eq"
   ],
   "note": "Every history, arbitrary hash function; refinement to a finite map incl. no out-of-bounds access and termination. Resource bound: the dict never holds more than 2^38 keys and resize never asks for more than 2^41 buckets (beyond that the allocation fails first)."
  },
  {
   "property": "C20",
   "status": "proved",
   "theorems": [
    "Codon.KHash.c20_iteration_after_history",
    "Codon.KHash.c20_popitem"
   ],
   "note": "len, items, keys, popitem after every history (same resource bound as C19)."
  },
  {
   "property": "C21",
   "status": "proved",
   "theorems": [
    "Codon.KHash.SetM.c21_history",
    "Codon.KHash.SetM.c21_iteration_after_history",
    "Codon.KHash.SetM.c21_pop"
   ],
   "note": "Every history, arbitrary hash function (same resource bound as C19)."
  },
  {
   "property": "C22",
   "status": "partial",
   "theorems": [
    "Codon.KHash.SetM.c22_union",
    "Codon.KHash.SetM.c22_difference",
    "Codon.KHash.SetM.c22_intersection",
    "Codon.KHash.SetM.c22_symmetric_difference",
    "Codon.KHash.SetM.c22_difference_update",
    "Codon.KHash.SetM.c22_difference_update_self",
    "Codon.KHash.SetM.c22_update",
    "Codon.KHash.SetM.c22_intersection_update",
    "Codon.KHash.SetM.c22_symmetric_difference_update_partial",
    "Codon.KHash.SetM.c22_violation_symmetric_difference_update",
    "Codon.KHash.SetM.c22_isdisjoint",
    "Codon.KHash.SetM.c22_issubset",
    "Codon.KHash.SetM.c22_eq",
    "Codon.KHash.SetM.c22_lt"
   ],
   "note": "All operations proved for arbitrary table layouts, also when discarding while iterating; symmetric_difference_update computes the difference only (violation theorem + partial). Not modelled: s |= s, which may resize the table it iterates over."
  },
  {
   "property": "C23",
   "status": "partial",
   "theorems": [
    "Codon.ListM.c23_step_agrees_with_python_partial",
    "Codon.ListM.c23_history_agrees_with_python_partial",
    "Codon.ListM.c23_fresh_list_history_partial",
    "Codon.ListM.c23_python_observation_unique",
    "Codon.ListM.c23_assign_self_partial",
    "Codon.ListM.c23_comparison_is_lexicographic",
    "Codon.ListM.c23_violation_full_slice_self_assign",
    "Codon.ListM.c23_violation_remove_missing"
   ],
   "note": "Every history of calls agrees with Python and stays inside the buffer, for every content, capacity and index, except: remove of a missing element returns False instead of raising ValueError (violation theorem), and a[:] = a empties the list (violation theorem). Appending to a list while iterating over it is not modelled."
  },
  {
   "property": "C24",
   "status": "proved",
   "theorems": [
    "Codon.Slice.c24_zero_step_rejected",
    "Codon.Slice.c24_adjust_selects_python_positions",
    "Codon.Slice.c24_stop_agrees_with_length"
   ],
   "note": "Unbounded integers; enumeration by length and by range(start, stop, step) both equal Python's positions for every length/start/stop/step."
  },
  {
   "property": "C25",
   "status": "partial",
   "theorems": [
    "Codon.Slice.c25_iter64_partial",
    "Codon.Slice.c25_iter64_violation_nonterminating",
    "Codon.Slice.c25_iter64_violation_value",
    "Codon.Slice.c25_zero_step_rejected",
    "Codon.Slice.c25_iter_is_progression",
    "Codon.Slice.c25_progression_unique",
    "Codon.Slice.c25_len",
    "Codon.Slice.c25_getitem",
    "Codon.Slice.c25_contains",
    "Codon.Slice.c25_index_count",
    "Codon.Slice.c25_reversed",
    "Codon.Slice.c25_slice"
   ],
   "note": "All operations proved on unbounded integers. On 64-bit ints iteration is proved when the last increment does not overflow (c25_iter64_partial); otherwise the code loops forever (violation theorems)."
  },
  {
   "property": "C26",
   "status": "partial",
   "theorems": [
    "Codon.Deque.c26_step_partial",
    "Codon.Deque.c26_history_partial",
    "Codon.Deque.c26_unbounded",
    "Codon.Deque.c26_bounded_partial",
    "Codon.Deque.c26_maxlen_partial",
    "Codon.Deque.c26_from_iterable",
    "Codon.Deque.c26_violation_maxlen",
    "Codon.Deque.c26_violation_maxlen_zero",
    "Codon.Deque.c26_violation_deepcopy"
   ],
   "note": "All histories for unbounded deques (c26_unbounded, c26_from_iterable) and for every maxlen not of the form 2^k-1. For maxlen = 2^k-1 the code holds one element too many (c26_violation_maxlen); deepcopy drops maxlen."
  },
  {
   "property": "C27",
   "status": "proved",
   "theorems": [
    "Codon.Heapq.c27_heapify",
    "Codon.Heapq.c27_heappush",
    "Codon.Heapq.c27_heappop",
    "Codon.Heapq.c27_heappop_empty",
    "Codon.Heapq.c27_heapreplace",
    "Codon.Heapq.c27_heappushpop",
    "Codon.Heapq.c27_heapsort",
    "Codon.Heapq.c27_max_variants"
   ],
   "note": "All histories of heapify/heappush/heappop/heapreplace/heappushpop, any strict weak order; heap sort and max variants."
  },
  {
   "property": "C28",
   "status": "proved",
   "theorems": [
    "Codon.Bisect.c28_bisect_left_splits",
    "Codon.Bisect.c28_bisect_right_splits",
    "Codon.Bisect.c28_split_unique",
    "Codon.Bisect.c28_negative_lo",
    "Codon.Bisect.c28_insort_left",
    "Codon.Bisect.c28_insort_right",
    "Codon.Bisect.c28_insort_adds_one"
   ],
   "note": "All inputs, any strict weak order; lo/hi bounds included."
  },
  {
   "property": "C29",
   "status": "proved",
   "theorems": [
    "Codon.Sort.c29_sorts",
    "Codon.Sort.c29_list_sort",
    "Codon.Sort.c29_algorithms_agree",
    "Codon.Sort.c29_subrange"
   ],
   "note": "All five algorithms, list.sort/sorted with auto choice, key, reverse. Comparison assumed a strict weak order (excludes NaN)."
  },
  {
   "property": "C30",
   "status": "partial",
   "theorems": [
    "Codon.Sort.c30_violation",
    "Codon.Sort.c30_reverse_violation",
    "Codon.Sort.c30_tim_partial",
    "Codon.Sort.c30_insertion_partial",
    "Codon.Sort.c30_merge_stable_partial"
   ],
   "note": "False for the default key sort: runs of equal keys are reversed (violation theorems). Proved: insertion sort stable, timsort stable without equal neighbours, merge step stable."
  },
  {
   "property": "C31",
   "status": "proved",
   "theorems": [
    "Codon.Str.c31_find",
    "Codon.Str.c31_contains",
    "Codon.Str.c31_index",
    "Codon.Str.c31_count",
    "Codon.Str.c31_partition"
   ],
   "note": "find/index/count/in/partition of str over the 16-byte vector search (forward_find); the SIMD masks are modelled bit by bit. Strings are byte lists; lengths are unbounded integers."
  },
  {
   "property": "C32",
   "status": "partial",
   "theorems": [
    "Codon.Str.c32_rfind_partial",
    "Codon.Str.c32_violation",
    "Codon.Str.c32_oob_violation",
    "Codon.Str.c32_rpartition_partial"
   ],
   "note": "rfind/rpartition proved when the pattern has at most one byte or the number of candidate positions mod 16 is at most 9; strings.codon:304 steps to i + 10 instead of i - 10, which misses occurrences and reads past the end (c32_violation, c32_oob_violation)."
  },
  {
   "property": "C33",
   "status": "partial",
   "theorems": [
    "Codon.Str.c33_split",
    "Codon.Str.c33_empty_separator",
    "Codon.Str.c33_unique",
    "Codon.Str.c33_split_join",
    "Codon.Str.c33_join",
    "Codon.Str.c33_rsplit_partial",
    "Codon.Str.c33_rsplit_violation"
   ],
   "note": "split, join and their inverse laws proved in full. rsplit only for separators where the corrected rfind window applies: strings.codon:304 has the typo j = i + 10, so rsplit with a multi-byte separator can miss cuts (c33_rsplit_violation); proved for the restricted case."
  },
  {
   "property": "C34",
   "status": "proved",
   "theorems": [
    "Codon.Str.c34_replace",
    "Codon.Str.c34_replace_empty"
   ],
   "note": "replace equals new.join(split(old, maxcount)) for every non-empty pattern and interleaving for the empty one, including exact buffer sizes and the OverflowError condition."
  },
  {
   "property": "C35",
   "status": "proved",
   "theorems": [
    "Codon.Str.c35_operators",
    "Codon.Str.c35_total_order"
   ],
   "note": "Comparison is the lexicographic order of the bytes."
  },
  {
   "property": "C36",
   "status": "partial",
   "theorems": [
    "Codon.Str.c36_startswith_partial",
    "Codon.Str.c36_endswith_partial",
    "Codon.Str.c36_startswith_violation",
    "Codon.Str.c36_both_negative_violation",
    "Codon.Str.c36_empty_violation"
   ],
   "note": "Proved for non-negative start (or a valid negative start with non-negative end); other negative arguments read out of bounds or give wrong answers (violations)."
  },
  {
   "property": "C37",
   "status": "proved",
   "theorems": [
    "Codon.Esc.c37_repr",
    "Codon.Esc.c37_repr_injective"
   ],
   "note": "repr is read back by the literal grammar and unescape, consuming exactly that text."
  },
  {
   "property": "C38",
   "status": "partial",
   "theorems": [
    "Codon.CounterM.c38_most_common_all",
    "Codon.CounterM.c38_most_common_n",
    "Codon.CounterM.c38_iadd",
    "Codon.CounterM.c38_isub",
    "Codon.CounterM.c38_ior",
    "Codon.CounterM.c38_iand_partial",
    "Codon.CounterM.c38_iand_subset_partial",
    "Codon.CounterM.c38_violation_iand",
    "Codon.CounterM.c38_add",
    "Codon.CounterM.c38_sub",
    "Codon.CounterM.c38_or",
    "Codon.CounterM.c38_and_partial",
    "Codon.CounterM.c38_pos",
    "Codon.CounterM.c38_neg",
    "Codon.CounterM.c38_update_elements",
    "Codon.CounterM.c38_subtract_elements",
    "Codon.CounterM.c38_counter_of_elements",
    "Codon.CounterM.c38_update_counter",
    "Codon.CounterM.c38_getitem",
    "Codon.CounterM.c38_elements",
    "Codon.CounterM.c38_elements_round_trip",
    "Codon.CounterM.c38_total",
    "Codon.CounterM.c38_eq_partial",
    "Codon.CounterM.c38_violation_eq"
   ],
   "note": "& and &= keep keys absent from the right operand and == compares stored items (violations); all other operations incl. most_common proved."
  },
  {
   "property": "C39",
   "status": "partial",
   "theorems": [
    "Codon.Iter.c39_combinations",
    "Codon.Iter.c39_combinations_negative",
    "Codon.Iter.c39_combinations_with_replacement",
    "Codon.Iter.c39_product",
    "Codon.Iter.c39_product_static",
    "Codon.Iter.c39_product_generators",
    "Codon.Iter.c39_product_single",
    "Codon.Iter.c39_product_violation",
    "Codon.Iter.c39_permutations",
    "Codon.Iter.c39_permutations_default"
   ],
   "note": "combinations, combinations_with_replacement, permutations and product (both overloads) proved for all pools and lengths when the arguments can be iterated repeatedly. Missing: product of generator arguments, where the literal overload with two or three arguments iterates a finished generator again (c39_product_violation)."
  },
  {
   "property": "C40",
   "status": "partial",
   "theorems": [
    "Codon.Iter.c40_takewhile",
    "Codon.Iter.c40_dropwhile",
    "Codon.Iter.c40_filterfalse",
    "Codon.Iter.c40_compress",
    "Codon.Iter.c40_starmap",
    "Codon.Iter.c40_chain",
    "Codon.Iter.c40_accumulate_initial",
    "Codon.Iter.c40_accumulate",
    "Codon.Iter.c40_grouping_unique",
    "Codon.Iter.c40_groupby",
    "Codon.Iter.c40_islice_stop_partial",
    "Codon.Iter.c40_islice_stop_violation",
    "Codon.Iter.c40_islice",
    "Codon.Iter.c40_islice_errors",
    "Codon.Iter.c40_zip_longest_two",
    "Codon.Iter.c40_zip_longest",
    "Codon.Iter.c40_zip_longest_none_partial",
    "Codon.Iter.c40_zip_longest_none_violation",
    "Codon.Iter.c40_count",
    "Codon.Iter.c40_cycle",
    "Codon.Iter.c40_repeat",
    "Codon.Iter.c40_tee"
   ],
   "note": "takewhile, dropwhile, filterfalse, compress, chain, starmap, accumulate, groupby (unique grouping into maximal runs), islice, zip_longest (all versions), count, cycle, repeat and tee (every schedule) meet their list specifications for all inputs. Two disagreements: islice(it, stop) takes one element too many out of the iterator (c40_islice_stop_violation), zip_longest without fillvalue ends at a row of None elements (c40_zip_longest_none_violation). Callbacks are pure; elements consumed after the end by the 4-argument islice are not modelled."
  },
  {
   "property": "C41",
   "status": "proved",
   "theorems": [
    "Codon.SortedList.c41_contents",
    "Codon.SortedList.c41_progress",
    "Codon.SortedList.c41_balanced"
   ],
   "note": "SortedList modelled completely over sequences (the list class is C23, bisect is C28). Any load factor of at least 1, any strict weak order."
  },
  {
   "property": "C42",
   "status": "proved",
   "theorems": [
    "Codon.Date.c42_constructor",
    "Codon.Date.c42_fromordinal",
    "Codon.Date.c42_fromordinal_range",
    "Codon.Date.c42_toordinal",
    "Codon.Date.c42_next",
    "Codon.Date.c42_weekday",
    "Codon.Date.c42_isocalendar",
    "Codon.Date.c42_fromisocalendar"
   ],
   "note": "Dates of the years 1-9999 and all integer ordinals; integers are mathematical (no 64-bit wrap), hashing and localtime not modelled."
  },
  {
   "property": "C43",
   "status": "partial",
   "theorems": [
    "Codon.Date.c43_timedelta_fields",
    "Codon.Date.c43_timedelta_new_partial",
    "Codon.Date.c43_violation_timedelta_new",
    "Codon.Date.c43_violation_floordiv",
    "Codon.Date.c43_floordiv_partial",
    "Codon.Date.c43_mod_partial",
    "Codon.Date.c43_violation_mod",
    "Codon.Date.c43_date_add",
    "Codon.Date.c43_date_sub",
    "Codon.Date.c43_date_add_sub",
    "Codon.Date.c43_date_diff",
    "Codon.Date.c43_date_order",
    "Codon.Date.c43_time_constructor",
    "Codon.Date.c43_time_replace",
    "Codon.Date.c43_date_replace",
    "Codon.Date.c43_time_order",
    "Codon.Date.c43_datetime_add",
    "Codon.Date.c43_datetime_sub",
    "Codon.Date.c43_datetime_add_sub",
    "Codon.Date.c43_datetime_diff",
    "Codon.Date.c43_datetime_order"
   ],
   "note": "date/time/datetime/timedelta arithmetic proved exact; float arguments and timedelta/float, timedelta//timedelta (float division) not modelled; three violations recorded (constructor rounds integer arguments above 2^53, // int truncates, % overflows for divisors above 2^62)."
  },
  {
   "property": "C44",
   "status": "partial",
   "theorems": [
    "Codon.MathM.c44_gcd_partial",
    "Codon.MathM.c44_lcm_partial",
    "Codon.MathM.c44_lcm_fits_of_nonzero_partial",
    "Codon.MathM.c44_violation_gcd_least_integer",
    "Codon.MathM.c44_violation_lcm_least_integer"
   ],
   "note": "gcd and lcm meet the divisibility specification for all argument lists without -2**63 (gcd) and whose running lcm fits in 64 bits; the excluded inputs are shown to violate the claim by c44_violation_*."
  },
  {
   "property": "C45",
   "status": "partial",
   "theorems": [
    "Codon.Random.c45_getrandbits_partial",
    "Codon.Random.c45_getrandbits_refuses",
    "Codon.Random.c45_randbelow_ends",
    "Codon.Random.c45_randrange_partial",
    "Codon.Random.c45_randint_partial",
    "Codon.Random.c45_choice",
    "Codon.Random.c45_shuffle",
    "Codon.Random.c45_sample",
    "Codon.Random.c45_violation_randint",
    "Codon.Random.c45_violation_stop_zero",
    "Codon.Random.c45_violation_rounding",
    "Codon.Random.c45_violation_width",
    "Codon.Random.c45_violation_getrandbits"
   ],
   "note": "Any source of 32-bit words. getrandbits, _randbelow, randrange, randint, choice, shuffle and sample return exactly the values they should (none other, each of them for some words). Missing because the code deviates: a stop of 0 counts as not given (randint(-5, -1) always raises, randrange(5, 0) returns a number), widths of 2**63 overflow, the number of values goes through a float for steps other than 1 (stop itself may be returned), getrandbits(64) may be negative. Not modelled: choices and the continuous distributions (floats)."
  },
  {
   "property": "C46",
   "status": "proved",
   "theorems": [
    "Codon.Twister.c46_refines",
    "Codon.Twister.c46_index",
    "Codon.Twister.c46_restore",
    "Codon.Twister.c46_seed_key"
   ],
   "note": "Model of the Mersenne Twister (random.codon:9-161) on memory blocks; refinement of an array-free sequence specification for all programs over several generators; getrandbits seeding key; floats abstract. init_array's key pointer must have the stated length (only keys built by seed(int) or given as lists)."
  },
  {
   "property": "C47",
   "status": "partial",
   "theorems": [
    "Codon.Omp.c47_sequential",
    "Codon.Omp.c47_static_partial",
    "Codon.Omp.c47_chunked_partial",
    "Codon.Omp.c47_chunked_empty",
    "Codon.Omp.c47_dynamic_partial",
    "Codon.Omp.c47_collapse_partial",
    "Codon.Omp.c47_violation_chunk_overflow",
    "Codon.Omp.c47_violation_length",
    "Codon.Omp.c47_violation_collapse_triangle"
   ],
   "note": "Every schedule (static, chunked, dynamic, collapsed nests of rectangular loops) runs exactly the iterations of the loop, for all bounds, steps, thread counts and runtime assignments meeting the stated contract of the OpenMP runtime. Missing: cases where the length or the next chunk overflows 64 bits and nests whose inner bounds depend on outer variables; c47_violation_* show the code is wrong there."
  },
  {
   "property": "C48",
   "status": "partial",
   "theorems": [
    "Codon.Async.c48_fifo_partial",
    "Codon.Async.c48_work",
    "Codon.Async.c48_drained_partial",
    "Codon.Async.c48_accounted_partial",
    "Codon.Async.c48_cancelled",
    "Codon.Async.c48_cancel_queued_partial",
    "Codon.Async.c48_timers_ordered",
    "Codon.Async.c48_timers_due",
    "Codon.Async.c48_timers_across",
    "Codon.Async.c48_timer_cancelled",
    "Codon.Async.c48_defined",
    "Codon.Async.c48_violation_stop",
    "Codon.Async.c48_violation_cancel_after_run",
    "Codon.Async.c48_violation_timer_cancel",
    "Codon.Async.c48_violation_call_at",
    "Codon.Async.c48_violation_threadsafe"
   ],
   "note": "All histories of call_soon/call_later/cancel/stop/run/close/step: run order is a sublist of enqueue order, each at most once, payload as scheduled, cancelled handles and timers never run, timers by deadline, nothing left behind when idle, no undefined access. Violations recorded: stop loses the callback it dequeued; Handle.cancel after the run raises ValueError; a timer cancelled after it fired still runs; call_at takes absolute time as a delay; call_soon_threadsafe deadlocks. Task bookkeeping and futures not modelled."
  },
  {
   "property": "C49",
   "status": "proved",
   "theorems": [
    "Codon.ForLow.c49_source_to_lowered",
    "Codon.ForLow.c49_lowered_to_source",
    "Codon.ForLow.c49_none_left"
   ],
   "note": "For every program of the modelled IR (nested loops, break/continue, exceptions, calls with arbitrary effects, other generators, non-termination) the lowered program has exactly the same behaviours. Parallel loops are the subject of C47; finally blocks are not in this IR."
  },
  {
   "property": "C50",
   "status": "partial",
   "theorems": [
    "Codon.KHash.Fusion.c50_getitem_partial",
    "Codon.KHash.Fusion.c50_get_const_partial",
    "Codon.KHash.Fusion.c50_violation_variable_default",
    "Codon.KHash.Fusion.c50_violation_raising_operator",
    "Codon.KHash.Fusion.c50_violation_second_operand_order"
   ],
   "note": "Correct for a second operand that is quiet, and an operator that does not raise (get) / any operator (getitem). Violations: non-constant default, raising operator, second operand changing the dict."
  },
  {
   "property": "C51",
   "status": "proved",
   "theorems": [
    "Codon.Str.c51_split_whitespace",
    "Codon.Str.c51_rsplit_whitespace",
    "Codon.Str.c51_strip",
    "Codon.Str.c51_splitlines",
    "Codon.Str.c51_lines_join"
   ],
   "note": "Whitespace splits, strip family and splitlines against independent specifications."
  },
  {
   "property": "C54",
   "status": "partial",
   "theorems": [
    "Codon.Unify.c54_shared_not_generalised_partial"
   ],
   "note": "Proved under the same restrictions as C11 (traits and hidden generics without variables); generalisation of function types and traits is not modelled."
  },
  {
   "property": "C55",
   "status": "partial",
   "theorems": [
    "Codon.Canon.c55_mirrored_partial",
    "Codon.Canon.c55_in_order_partial",
    "Codon.Canon.c55_violation_swap"
   ],
   "note": "Holds for classes with mirrored methods or operands in rank order; c55_violation_swap: the rule looks only at the method names, so a < b becomes b > a of a class whose methods are not mirror images."
  },
  {
   "property": "C52",
   "status": "partial",
   "theorems": [
    "Codon.Exc.Try.c52_finally_partial",
    "Codon.Exc.Try.c52_once_partial",
    "Codon.Exc.Try.Cases.c52_handler_raises_violation",
    "Codon.Exc.Try.Cases.c52_handler_returns_violation",
    "Codon.Exc.Try.Cases.c52_else_returns_violation",
    "Codon.Exc.Try.Cases.c52_finally_try_violation",
    "Codon.Exc.Try.Cases.c52_finally_break_violation",
    "Codon.Exc.Try.Cases.c52_handler_try_violation"
   ],
   "note": "Whole-function equality of the emitted blocks with the structured meaning for all statements in the class Good (stated in TryProps.lean): finally parts without try/return/outer break, handlers and else parts of a try-with-finally without return or try and, if that try is nested in the body of another, without uncaught exceptions. Outside that class the code is wrong: six witnessed violations (return in except/else skips finally; exception in a handler is lost or reaches unreachable; try in a finally swallows the pending exception; break in finally leaves a pending return; try in a handler skips finally). Coroutines are not modelled."
  },
  {
   "property": "C53",
   "status": "partial",
   "theorems": [
    "Codon.CallArgs.c53_in_order_partial",
    "Codon.CallArgs.OrderCases.c53_variable_violation",
    "Codon.CallArgs.OrderCases.c53_variable_last_violation",
    "Codon.CallArgs.OrderCases.c53_record_violation",
    "Codon.CallArgs.OrderCases.c53_yield_violation"
   ],
   "note": "Equality of the evaluation of the reordered call (state, values per parameter, exception) with evaluation in written order, for every call accepted by the model of reorderNamedArgs (hypotheses of C13), provided the arguments hasSideEffect calls harmless are harmless and stable. Violations: variables read late, also after saving; **record with fields out of order reads an unassigned temporary; yield. Partial calls and defaults not modelled."
  },
  {
   "property": "C56",
   "status": "partial",
   "theorems": [
    "Codon.Unify.c56_complete_partial",
    "Codon.Unify.c56_failure_partial",
    "Codon.Unify.c56_violation_static",
    "Codon.Unify.c56_violation_generic",
    "Codon.Unify.c56_succeeds_partial"
   ],
   "note": "Every solution (assignment of closed types to variables satisfying all links, respecting static kinds) that equates the two types survives; failure implies there is none; with C57 success is guaranteed. Hypotheses: no traits, distinct numbers of variables. Two violations: static against runtime variable depends on the order; bare generics are refused. FuncType, UnionType, __NTuple__, callable traits not modelled."
  },
  {
   "property": "C57",
   "status": "partial",
   "theorems": [
    "Codon.Unify.c57_terminates_partial",
    "Codon.Unify.c57_violation_knot"
   ],
   "note": "Termination for all acyclic stores without traits, well-formed class arities, hidden generics without variables; violation: the knot tied by a trait (C11) makes the next unification run forever. FuncType, UnionType, __NTuple__ not modelled."
  },
  {
   "property": "C58",
   "status": "partial",
   "theorems": [
    "Codon.Operator.c58_program_partial",
    "Codon.Operator.c58_condition_partial",
    "Codon.Operator.c58_violation_or_operand",
    "Codon.Operator.c58_violation_or_in_condition",
    "Codon.Operator.c58_violation_chain_operand",
    "Codon.Operator.c58_violation_callee",
    "Codon.Operator.c58_violation_in_order",
    "Codon.Operator.c58_violation_chain_value"
   ],
   "note": "Proved for expressions in which and/or are used for their truth value wherever a condition or chain surrounds them, in-tests have operands that commute, and chain operators return bools; otherwise false (c58_violation_*)."
  },
  {
   "property": "C59",
   "status": "partial",
   "theorems": [
    "Codon.Assign.c59_assign_name_partial",
    "Codon.Assign.c59_assign_item_partial",
    "Codon.Assign.c59_assign_attr_partial",
    "Codon.Assign.c59_aug_name_partial",
    "Codon.Assign.c59_aug_name_inplace_partial",
    "Codon.Assign.c59_aug_item_partial",
    "Codon.Assign.c59_aug_attr_partial",
    "Codon.Assign.c59_chain_names_partial",
    "Codon.Assign.c59_violation_order",
    "Codon.Assign.c59_violation_aug_container",
    "Codon.Assign.c59_violation_aug_index",
    "Codon.Assign.c59_violation_aug_object",
    "Codon.Assign.c59_violation_aug_result",
    "Codon.Assign.c59_violation_chain_item",
    "Codon.Assign.c59_violation_chain_order"
   ],
   "note": "Proved for name targets, for item and attribute targets whose parts have no effects visible to each other, and for chains of names; otherwise false (c59_violation_*)."
  },
  {
   "property": "C60",
   "status": "partial",
   "theorems": [
    "Codon.Assign.c60_unpack_partial",
    "Codon.Assign.c60_accepts",
    "Codon.Assign.c60_violation_surplus",
    "Codon.Assign.c60_violation_missing",
    "Codon.Assign.c60_violation_star_short",
    "Codon.Assign.c60_violation_reread",
    "Codon.Assign.c60_violation_alias",
    "Codon.Assign.c60_violation_star_tuple"
   ],
   "note": "Proved for all nested and starred patterns when the lengths fit, starred parts come from lists, and the targets do not change an identifier on the right side; otherwise false (c60_violation_*). c60_accepts: exactly the patterns with at most one star per level are accepted."
  },
  {
   "property": "C61",
   "status": "partial",
   "theorems": [
    "Codon.Numpy.c61_flatten_c",
    "Codon.Numpy.c61_flatten_f_partial",
    "Codon.Numpy.c61_flatten_a",
    "Codon.Numpy.c61_flatten_k",
    "Codon.Numpy.c61_ravel_c",
    "Codon.Numpy.c61_ravel_f_partial",
    "Codon.Numpy.c61_tobytes_c",
    "Codon.Numpy.c61_tobytes_f_partial",
    "Codon.Numpy.c61_tobytes_a",
    "Codon.Numpy.c61_item",
    "Codon.Numpy.c61_flat_iter_partial",
    "Codon.Numpy.c61_coords",
    "Codon.Numpy.c61_violation_seven_dims",
    "Codon.Numpy.c61_violation_seven_dims_outside",
    "Codon.Numpy.c61_violation_flat_scalar"
   ],
   "note": "All shapes and strides. Order F is proved for up to six dimensions or when no reordering is needed (fmultirange is wrong from seven on), iterating flat for at least one dimension; the rest is false (c61_violation_*)."
  },
  {
   "property": "C62",
   "status": "partial",
   "theorems": [
    "Codon.Numpy.c62_copy",
    "Codon.Numpy.c62_copy_layout",
    "Codon.Numpy.c62_reshape_c",
    "Codon.Numpy.c62_reshape_f",
    "Codon.Numpy.c62_reshape_a",
    "Codon.Numpy.c62_reshape_error",
    "Codon.Numpy.c62_reshape_k_partial",
    "Codon.Numpy.c62_round_trip",
    "Codon.Numpy.c62_violation_tuple",
    "Codon.Numpy.c62_violation_k"
   ],
   "note": "All shapes, strides and orders for dimensions given as separate arguments; a tuple argument drops the order and K is accepted without dimensions (c62_violation_*)."
  },
  {
   "property": "C63",
   "status": "partial",
   "theorems": [
    "Codon.Numpy.c63_index",
    "Codon.Numpy.c63_index_error",
    "Codon.Numpy.c63_index_compile",
    "Codon.Numpy.c63_index_injective",
    "Codon.Numpy.c63_transpose",
    "Codon.Numpy.c63_transpose_axes_partial",
    "Codon.Numpy.c63_transpose_list_partial",
    "Codon.Numpy.c63_swapaxes",
    "Codon.Numpy.c63_violation_one_axis",
    "Codon.Numpy.c63_violation_list"
   ],
   "note": "Proved for basic indexing (shape, addresses, every selected element once, all errors), transpose(), transpose with every axis, and swapaxes. Fails for transpose with one axis of several and for lists that repeat an axis in negative form (violation theorems)."
  },
  {
   "property": "C64",
   "status": "partial",
   "theorems": [
    "Codon.Numpy.c64_shapes",
    "Codon.Numpy.c64_binary",
    "Codon.Numpy.c64_rbinary",
    "Codon.Numpy.c64_binary_error",
    "Codon.Numpy.c64_unary",
    "Codon.Numpy.c64_inplace_partial",
    "Codon.Numpy.c64_inplace_unary",
    "Codon.Numpy.c64_inplace_self",
    "Codon.Numpy.c64_violation_inplace_shape",
    "Codon.Numpy.c64_violation_overlap"
   ],
   "note": "Proved for all operators that give a new array, and for in-place operators whose operand broadcasts to the target and shares no memory with it at other coordinates. In-place operators with a target smaller than the broadcast shape, or with overlapping memory, fail (c64_violation_inplace_shape, c64_violation_overlap)."
  },
  {
   "property": "C65",
   "status": "partial",
   "theorems": [
    "Codon.Numpy.c65_unary",
    "Codon.Numpy.c65_unary_number",
    "Codon.Numpy.c65_unary_out_partial",
    "Codon.Numpy.c65_unary_out_error",
    "Codon.Numpy.c65_unary_number_out",
    "Codon.Numpy.c65_binary_partial",
    "Codon.Numpy.c65_binary_numbers",
    "Codon.Numpy.c65_binary_error",
    "Codon.Numpy.c65_binary_out_partial",
    "Codon.Numpy.c65_binary_out_error_partial",
    "Codon.Numpy.c65_violation_scalar_first",
    "Codon.Numpy.c65_violation_one_element",
    "Codon.Numpy.c65_violation_out_rows",
    "Codon.Numpy.c65_violation_second_unchecked",
    "Codon.Numpy.c65_violation_where_number"
   ],
   "note": "Proved in full for new arrays from one operand, and for functions without a vectorised loop (any mask, any layout, out= not sharing memory with the operands at other places). Vectorised loops: proved for every number of lanes when nothing is stretched, or under the conditions of VecSafe. Five deviations are proved: a number as first operand of hypot/arctan2, one-element operands read beyond their end, out= with more rows than the operand, the second operand not checked against out=, where= ignored for numbers. reduce/accumulate/outer and functions with two results are not modelled; rounding and casts are inside the element function."
  },
  {
   "property": "C66",
   "status": "partial",
   "theorems": [
    "Codon.Fuse.c66_fused_as_written_partial",
    "Codon.Fuse.c66_fused_elements_partial",
    "Codon.Fuse.c66_descending_slice_violation",
    "Codon.Fuse.c66_empty_slice_violation",
    "Codon.Fuse.c66_later_operand_violation",
    "Codon.Fuse.c66_zero_step_violation"
   ],
   "note": "Proved for all trees of additions, operands, element types and states: fused code and written expression give the same result, capacity, state and exception, provided no operand changes what an earlier one contributes, slices have no zero step, and a slice without step does not end before it starts (c66_fused_as_written_partial). Without the first condition the fused list holds what the operands contribute at the end and fills its capacity exactly (c66_fused_elements_partial). The three conditions are needed: violations with concrete programs, and undefined behaviour for every descending slice. Intermediate lists are values (addresses of temporaries are not observable)."
  },
  {
   "property": "C67",
   "status": "partial",
   "theorems": [
    "Codon.Gen.c67_sum_partial",
    "Codon.Gen.c67_any_all_partial",
    "Codon.Gen.c67_without_try",
    "Codon.Gen.c67_outcome_unique",
    "Codon.Gen.c67_exception_of_consumer_violation",
    "Codon.Gen.c67_finally_violation",
    "Codon.Gen.c67_return_violation"
   ],
   "note": "Proved for all bodies, states, items and consumers with effects, in both directions (so also for runs that do not end): sum under the condition that no return stands in a try block whose finally block yields, and no yield in a try block if the addition may raise; any/all under the condition that no yield stands in a try-finally block, and in no try block if the truth value may raise. Bodies without try need no condition (c67_without_try). Each condition is needed: three violations. Not modelled: yield as an expression (the pass gives up), final yields of coroutines, parallel loops."
  },
  {
   "property": "C68",
   "status": "partial",
   "theorems": [
    "Verif.Scope.c68_accept",
    "Verif.Scope.c68_follow_partial",
    "Verif.Scope.c68_defined_partial",
    "Verif.Scope.c68_same_partial",
    "Verif.Scope.c68_loop_violation",
    "Verif.Scope.c68_reject_violation",
    "Verif.Scope.c68_walrus_violation"
   ],
   "note": "Partial. c68_accept: a function is accepted exactly if no bound name is read, in text order, before its first binding. c68_follow_partial: for all bodies, arguments and run lengths the compiled function prints and ends like the Python function, or raises NameError for a name whose variable is declared inside a loop after printing an initial part of Python's output; c68_defined_partial: it never reads an unset variable; c68_same_partial: full agreement if every name first bound inside a loop is first bound directly in the loop's body or as a for variable. Missing: agreement in the other loops (false: c68_loop_violation), functions rejected though valid (c68_reject_violation), assignments inside expressions (c68_walrus_violation); nested functions, classes, global/nonlocal, del, with, match, comprehensions, else and finally are not modelled."
  },
  {
   "property": "C69",
   "status": "partial",
   "theorems": [
    "Verif.Ctl.c69_same_partial",
    "Verif.Ctl.c69_defined_partial",
    "Verif.Ctl.c69_reject_partial",
    "Verif.Ctl.c69_break_violation",
    "Verif.Ctl.c69_continue_violation",
    "Verif.Ctl.c69_guard_violation",
    "Verif.Ctl.c69_else_violation",
    "Verif.Ctl.c69_tuple_else_violation",
    "Verif.Ctl.c69_tuple_assign_violation",
    "Verif.Ctl.c69_reject_violation"
   ],
   "note": "Proved for all statements in which no case contains a break or continue for a loop around the match, no else of a loop contains a break for an outer loop that has an else itself, unrolled loops have no else and do not assign the tuple variable they iterate, and a guard follows an or-pattern only if it is pure and the pattern captures nothing (c69_same_partial: same final state and outcome as direct execution, with the liberty Python gives to names of failed patterns; c69_defined_partial: never stuck). Each excluded form is shown to be wrong by a c69_*_violation theorem. c69_reject_partial: accepted statements have no jump outside a loop."
  },
  {
   "property": "C70",
   "status": "partial",
   "theorems": [
    "Codon.Bounds.c70_in_range_partial",
    "Codon.Bounds.c70_same_access_partial",
    "Codon.Bounds.c70_other_array_violation",
    "Codon.Bounds.c70_constant_index_violation",
    "Codon.Bounds.c70_empty_array_violation",
    "Codon.Bounds.c70_falling_index_violation",
    "Codon.Bounds.c70_last_element_violation",
    "Codon.Bounds.c70_double_length_violation",
    "Codon.Bounds.c70_overflow_violation",
    "Codon.Bounds.c70_counter_overflow_violation",
    "Codon.Bounds.c70_size_violation",
    "Codon.Bounds.c70_stale_copy_violation"
   ],
   "note": "Proved for every execution: if the check is removed, the index rises with the loop variable, the length coefficients are as they should be (at the lowest index no length is subtracted, at the highest at most the length of the array itself is added once), bounds and counter do not overflow, size is only used of arrays with one axis and copies of the loop variable are made in the same round, then the access is in range and does the same with and without check. Without each of these hypotheses it is false: ten violations. The reaching definition analysis is a parameter."
  },
  {
   "property": "C71",
   "status": "partial",
   "theorems": [
    "Codon.NpFuse.c71_optimised_partial",
    "Codon.NpFuse.c71_same_partial",
    "Codon.NpFuse.c71_ends",
    "Codon.NpFuse.c71_violation_order",
    "Codon.NpFuse.c71_violation_empty",
    "Codon.NpFuse.c71_violation_vectorized"
   ],
   "note": "For every choice of nodes to fuse, expressions whose leaves have no effects and are numbers or arrays with at least one element: same result as unoptimised, all existing arrays unchanged, ValueError exactly when shapes do not broadcast, no undefined behaviour; the loop of the pass ends. Missing: leaves with effects, empty arrays, and vectorised functions of two operands, where the property fails (violations proved); matrix products and transposition."
  },
  {
   "property": "C72",
   "status": "partial",
   "theorems": [
    "Codon.Pickle.c72_number",
    "Codon.Pickle.c72_str",
    "Codon.Pickle.c72_list",
    "Codon.Pickle.c72_tuple",
    "Codon.Pickle.c72_dict",
    "Codon.Pickle.c72_set",
    "Codon.Pickle.c72_dump_load",
    "Codon.Pickle.c72_two",
    "Codon.Pickle.c72_array_partial",
    "Codon.Pickle.c72_violation_fortran",
    "Codon.Pickle.c72_violation_padding"
   ],
   "note": "Proved for numbers of any width, strings, lists, tuples, classes, dictionaries and sets, nested in any way, including exact consumption, full files and truncated files (c72_number, c72_str, c72_list, c72_tuple, c72_dict, c72_set, c72_dump_load, c72_two). Tables have at most 2^41 slots and 2^38 items. For arrays c72_array_partial needs: elements without pointers are contiguous or written as they lie in memory; elements with pointers are not in column-major order. Otherwise the property is violated (c72_violation_fortran, c72_violation_padding). Missing: Optional and union types, shared and cyclic references (the code duplicates the former and does not end for the latter), compression."
  },
  {
   "property": "C73",
   "status": "partial",
   "theorems": [
    "Codon.IntN.c73_int_of_int",
    "Codon.IntN.c73_int_of_int_fits",
    "Codon.IntN.c73_uint_of_int",
    "Codon.IntN.c73_uint_of_uint",
    "Codon.IntN.c73_int",
    "Codon.IntN.c73_int_of_uint_partial",
    "Codon.IntN.c73_violation_sext",
    "Codon.IntN.c73_parse",
    "Codon.IntN.c73_violation_parse",
    "Codon.IntN.c73_divmod",
    "Codon.IntN.c73_divmod_undefined",
    "Codon.IntN.c73_udivmod",
    "Codon.IntN.c73_shifts",
    "Codon.IntN.c73_upow",
    "Codon.IntN.c73_pow_partial",
    "Codon.IntN.c73_violation_pow",
    "Codon.IntN.c73_popcnt_partial",
    "Codon.IntN.c73_violation_popcnt",
    "Codon.IntN.c73_ubit_length",
    "Codon.IntN.c73_bit_length"
   ],
   "note": "Proved for every width: conversions to Int[N] from Int[M], to UInt[N] from both, int(), strings of digits with an optional minus, divmod (signed and unsigned) wherever it is defined, shifts by less than N, powers for N >= 2 (negative exponents give 0 as the code does, Python gives a float), popcnt for N >= 3, bit_length for all N. Missing: Int[N] of a wider-than-fits unsigned number is sign extended (c73_violation_sext; c73_int_of_uint_partial covers the rest), popcnt for N < 3 and pow for N = 1 (violations), empty strings (c73_violation_parse)."
  },
  {
   "property": "C74",
   "status": "partial",
   "theorems": [
    "Codon.FileM.c74_file",
    "Codon.FileM.c74_bz",
    "Codon.FileM.c74_gz_partial",
    "Codon.FileM.c74_bz_error",
    "Codon.FileM.c74_gz_error_partial",
    "Codon.FileM.c74_violation_error",
    "Codon.FileM.c74_violation_zero",
    "Codon.FileM.c74_violation_before",
    "Codon.FileM.c74_read_n",
    "Codon.FileM.c74_read_partial",
    "Codon.FileM.c74_closed",
    "Codon.FileM.c74_write_read",
    "Codon.FileM.c74_write_gen",
    "Codon.FileM.c74_violation_pipe",
    "Codon.FileM.c74_violation_behind"
   ],
   "note": "File and bzFile: lines, trimmed lines and read() for all contents; errors of bzFile; read(n), write, seek, pieces. gzFile: for contents without zero bytes and lines below half a gigabyte (c74_gz_partial, c74_gz_error_partial; c74_violation_zero, c74_violation_before). File.read() for files that can be positioned (c74_violation_pipe, c74_violation_behind). A loop over File misses read errors (c74_violation_error). Write errors and opening of files are not modelled."
  },
  {
   "property": "C75",
   "status": "partial",
   "theorems": [
    "Codon.NpFwd.c75_block_partial",
    "Codon.NpFwd.c75_effect",
    "Codon.NpFwd.c75_otherBlock_violation",
    "Codon.NpFwd.c75_pure",
    "Codon.NpFwd.c75_branch_violation",
    "Codon.NpFwd.c75_chain_violation",
    "Codon.NpFwd.c75_call_violation"
   ],
   "note": "Proved for a single forwarding within a block, with variables and numbers as leaves (any function, any other statements). False in general: nothing is checked if the use is in another block, chains of forwardings are checked with the wrong variables, and calls among the leaves of the destination are moved before the forwarded expression. canForwardVariable (reaching definitions, C05) is a hypothesis: the other statements have nothing to do with the variable."
  },
  {
   "property": "C76",
   "status": "partial",
   "theorems": [
    "Codon.NpSel.c76_partition_partial",
    "Codon.NpSel.c76_positions",
    "Codon.NpSel.c76_argpartition_partial",
    "Codon.NpSel.c76_less"
   ],
   "note": "Proved for every strict weak order, line and list of positions: selection on every path (short search, largest float, median of three, median of medians, kept pivots) ends without an access outside the line, the result is a rearrangement, every position asked for holds the element that sorting puts there; argpartition likewise; out-of-range positions raise; _less is a strict weak order on floats with NaN and complex numbers. The walk over the lines of partition is covered by C78. Missing: the walk of argpartition, the sorting of the positions (any ascending rearrangement is allowed)."
  },
  {
   "property": "C77",
   "status": "partial",
   "theorems": [
    "Codon.NpSort.c77_timsort_partial",
    "Codon.NpSort.c77_radix_partial",
    "Codon.NpSort.c77_argsort_partial",
    "Codon.NpSort.c77_argsort_ints_partial",
    "Codon.NpSort.c77_lexsort_partial",
    "Codon.NpSort.c77_lexsort_ints_partial",
    "Codon.NpSort.c77_byte_violation",
    "Codon.NpSort.c77_heapsort_partial",
    "Codon.NpSort.c77_quicksort_partial",
    "Codon.NpSort.c77_argsort_quick_partial",
    "Codon.NpSort.c77_nan"
   ],
   "note": "Missing: integers whose width is not a whole number of bytes, the default kind for the numbers that the compiled C++ library sorts (other types: c77_quicksort_partial), mergesort0 (not reachable from the API). Lines of multi-dimensional arrays: C78. The versions on indices (atimsort, aradixsort, aheapsort, aquicksort) are the same code with one indirection and are modelled as the sort of indices by the order of the values. Violated for byte: c77_byte_violation."
  },
  {
   "property": "C78",
   "status": "partial",
   "theorems": [
    "Codon.NpLine.c78_line_by_line",
    "Codon.NpLine.c78_sort_inplace_partial",
    "Codon.NpLine.c78_sort_partial",
    "Codon.NpLine.c78_sort_none_partial",
    "Codon.NpLine.c78_errors",
    "Codon.NpLine.c78_partition_partial",
    "Codon.NpLine.c78_argsort_partial"
   ],
   "note": "Missing: the default kind for the numbers sorted by the compiled C++ library (its function is a parameter of c78_line_by_line), argpartition and lexsort on several dimensions, and arguments that are not arrays (asarray). Sorting in place assumes that different elements lie at different places."
  },
  {
   "property": "C79",
   "status": "partial",
   "theorems": [
    "Codon.NpIdx.c79_assign_number",
    "Codon.NpIdx.c79_assign_partial",
    "Codon.NpIdx.c79_assign_errors",
    "Codon.NpIdx.c79_mask_get",
    "Codon.NpIdx.c79_mask_chosen",
    "Codon.NpIdx.c79_mask_number",
    "Codon.NpIdx.c79_mask_set_partial",
    "Codon.NpIdx.c79_mask_scalar_array",
    "Codon.NpIdx.c79_mask_errors",
    "Codon.NpIdx.c79_take_partial",
    "Codon.NpIdx.c79_put_partial",
    "Codon.NpIdx.c79_take_errors",
    "Codon.NpIdx.c79_violation_overlap",
    "Codon.NpIdx.c79_violation_mask_strides",
    "Codon.NpIdx.c79_violation_put_overlap",
    "Codon.NpIdx.c79_violation_int_apart",
    "Codon.NpIdx.c79_violation_half_done",
    "Codon.NpIdx.c79_violation_unchecked"
   ],
   "note": "Model: Verif/NpIdx/Model.lean (assignment through integers, slices, None, ...; masks of the array's shape; index arrays mixed with everything but ...). Assignment of numbers, reading through masks and the errors are proved in full; assignment of arrays, masks with array items and index arrays under the conditions named in the theorems. Not so in Codon: overlapping right sides (two violations), strided items of masks, an integer apart from adjacent index arrays, and IndexError after partial stores (violations). Missing: masks of fewer dimensions or inside tuples, index values out of range in general."
  },
  {
   "property": "C80",
   "status": "partial",
   "theorems": [
    "Codon.StrM.c80_index",
    "Codon.StrM.c80_slice",
    "Codon.StrM.c80_repeat_partial",
    "Codon.StrM.c80_violation_negative",
    "Codon.StrM.c80_violation_wrap",
    "Codon.StrM.c80_kinds",
    "Codon.StrM.c80_cases",
    "Codon.StrM.c80_istitle",
    "Codon.StrM.c80_isidentifier",
    "Codon.StrM.c80_space_partial",
    "Codon.StrM.c80_printable_partial",
    "Codon.StrM.c80_violation_kinds",
    "Codon.StrM.c80_lower_upper",
    "Codon.StrM.c80_capitalize",
    "Codon.StrM.c80_title",
    "Codon.StrM.c80_just",
    "Codon.StrM.c80_fill_error",
    "Codon.StrM.c80_center_partial",
    "Codon.StrM.c80_violation_center",
    "Codon.StrM.c80_zfill",
    "Codon.StrM.c80_expandtabs",
    "Codon.StrM.c80_expanded",
    "Codon.StrM.c80_translate"
   ],
   "note": "Proved for all inputs: indexing, slicing, the kinds of characters, islower/isupper/istitle/isidentifier, the case changes, ljust/rjust/zfill, expandtabs (including exactly when it raises OverflowError) and translate. Part: repetition for counts that are not negative and results below 2^63 bytes; center up to the side of the odd fill character; isspace and isprintable for text without the control characters 28-31 and 127. The C functions on bytes are taken as those of the C locale; bytes above 127 are not letters (Python, for which they are parts of code points, would look at the code points). The violations are proved."
  },
  {
   "property": "C81",
   "status": "partial",
   "theorems": [
    "Codon.CatOpt.c81_add_partial",
    "Codon.CatOpt.c81_add_flat",
    "Codon.CatOpt.c81_print_text",
    "Codon.CatOpt.c81_print_partial",
    "Codon.CatOpt.c81_write_partial",
    "Codon.CatOpt.c81_program_partial",
    "Codon.CatOpt.c81_violation_sep",
    "Codon.CatOpt.c81_violation_list",
    "Codon.CatOpt.c81_violation_user_add",
    "Codon.CatOpt.c81_violation_empty"
   ],
   "note": "Sums of strings, prints and writes of str.cat of strings are proved equivalent, alone and for any number of rewritings anywhere in a program. The code violates the claim for separators with effects, str.cat of an iterable, user-defined __add__ on strings, and the empty str.cat on a closed file (violations). Input/output errors other than closed files, and the interleaving of output with other threads, are not modelled."
  },
  {
   "property": "C82",
   "status": "partial",
   "theorems": [
    "Codon.WithM.c82_with_partial",
    "Codon.WithM.c82_no_target",
    "Codon.WithM.c82_balanced",
    "Codon.WithM.c82_violation_enter",
    "Codon.WithM.c82_violation_failed_enter",
    "Codon.WithM.c82_violation_rebound",
    "Codon.WithM.c82_violation_same_target",
    "Codon.WithM.c82_violation_swallow"
   ],
   "note": "Equal to Python's expansion for managers whose __enter__ returns the object itself and whose __exit__ does not swallow exceptions, with distinct targets that the suite does not assign; balanced entering and leaving is proved without these conditions. The code violates the claim otherwise (five violations). await in async with and the meaning of try/finally (C52) are not part of this model."
  },
  {
   "property": "C83",
   "status": "partial",
   "theorems": [
    "Codon.Demote.c83_which",
    "Codon.Demote.c83_main",
    "Codon.Demote.c83_program_partial",
    "Codon.Demote.c83_violation_kept",
    "Codon.Demote.c83_violation_recursive"
   ],
   "note": "Which variables are made local is proved exactly; equivalence is proved for variables of main and for variables of non-recursive functions that assign before they read. Otherwise the code violates the claim (two violations). Exceptions, generators, pointers to variables and calls through function values are not in the language modelled."
  },
  {
   "property": "C84",
   "status": "partial",
   "theorems": [
    "Codon.HeapN.c84_nsmallest_partial",
    "Codon.HeapN.c84_nsmallest_key_partial",
    "Codon.HeapN.c84_nlargest_partial",
    "Codon.HeapN.c84_nlargest_key_partial",
    "Codon.HeapN.c84_merge_partial",
    "Codon.HeapN.c84_merge_key_partial",
    "Codon.HeapN.c84_violation_eq"
   ],
   "note": "All of nsmallest, nlargest and merge is modelled and equals the stable sort when == is the equivalence of < (c84_*_partial, for every n, key and number of inputs). Missing: == that does not belong to < (c84_violation_eq), orders that are not strict weak (floats with NaN), keyed elements whose own < is no strict weak order, generators that have already finished, key functions with side effects (called several times per element)."
  },
  {
   "property": "C85",
   "status": "partial",
   "theorems": [
    "Codon.IntStr.c85_base",
    "Codon.IntStr.c85_parse_partial",
    "Codon.IntStr.c85_trimmed",
    "Codon.IntStr.c85_format",
    "Codon.IntStr.c85_roundtrip_partial",
    "Codon.IntStr.c85_violation_short",
    "Codon.IntStr.c85_violation_sign",
    "Codon.IntStr.c85_violation_min",
    "Codon.IntStr.c85_violation_zero",
    "Codon.IntStr.c85_violation_py"
   ],
   "note": "Missing: unsigned prefixed literals whose third character is not a digit or that have one digit only, the prefixed smallest integer, unprefixed zero with base 0 (each shown to be wrong); underscores and non-ASCII digits are not in the grammar. fast_float's from_chars is taken by its documentation."
  },
  {
   "property": "C86",
   "status": "partial",
   "theorems": [
    "Codon.Bltin.c86_zip_partial",
    "Codon.Bltin.c86_zip_empty",
    "Codon.Bltin.c86_violation_zip_twice",
    "Codon.Bltin.c86_violation_zip_end",
    "Codon.Bltin.c86_map",
    "Codon.Bltin.c86_enumerate",
    "Codon.Bltin.c86_filter",
    "Codon.Bltin.c86_any",
    "Codon.Bltin.c86_all",
    "Codon.Bltin.c86_any_forever",
    "Codon.Bltin.c86_next_partial",
    "Codon.Bltin.c86_violation_next_twice",
    "Codon.Bltin.c86_violation_loop_twice",
    "Codon.Bltin.c86_min_max",
    "Codon.Bltin.c86_min_max_empty",
    "Codon.Bltin.c86_min_max_args_partial",
    "Codon.Bltin.c86_violation_nan"
   ],
   "note": "Missing: the same generator given to zip twice, what is left of the iterators after zip's end, asking a generator again after its end, NaN with two arguments (each shown to be wrong). Functions called on items have no effects in the model; map over several iterables is zip followed by map."
  },
  {
   "property": "C87",
   "status": "partial",
   "theorems": [
    "Codon.Inl.c87_inline_partial",
    "Codon.Inl.c87_ends_partial",
    "Codon.Inl.c87_not_aggressive",
    "Codon.Inl.c87_aggressive",
    "Codon.Inl.c87_violation_recursive",
    "Codon.Inl.c87_violation_self",
    "Codon.Inl.c87_violation_none",
    "Codon.Inl.c87_violation_end"
   ],
   "note": "Proved for all bodies, arguments, states and primitives: the inlined flow does what the call does and ends only if the call does, provided the arguments do not read parameters of the function (the call is not inside it), a function with a value does not reach its end without return, values of returns in functions that return None have no effects, and no finally part contains a return. Each of the first three restrictions is needed: see the violations. Yield, await, nested functions and the realisation of types are not modelled; loops keep their number when cloned."
  },
  {
   "property": "C88",
   "status": "partial",
   "theorems": [
    "Codon.NpRed.c88_axis_error",
    "Codon.NpRed.c88_sum",
    "Codon.NpRed.c88_prod",
    "Codon.NpRed.c88_min",
    "Codon.NpRed.c88_min_error",
    "Codon.NpRed.c88_ptp",
    "Codon.NpRed.c88_any",
    "Codon.NpRed.c88_all",
    "Codon.NpRed.c88_count_nonzero",
    "Codon.NpRed.c88_arg_axis",
    "Codon.NpRed.c88_arg_all_partial",
    "Codon.NpRed.c88_violation_order",
    "Codon.NpRed.c88_violation_empty",
    "Codon.NpRed.c88_violation_nan"
   ],
   "note": "Proved for exact element types (commutative monoid for sum and prod, linear order for min, max, ptp, argmin, argmax), out=None, keepdims=False, the mask already broadcast. Missing: argmin and argmax without axis on arrays that are gone through in memory order (false, c88_violation_order); min, max, argmin, argmax with an axis on arrays without elements (false, c88_violation_empty); floats (pairwise sums, NaN: c88_violation_nan), mean, std, var, median."
  },
  {
   "property": "C89",
   "status": "partial",
   "theorems": [
    "Codon.PowM.c89_pow",
    "Codon.PowM.c89_pow_exact",
    "Codon.PowM.c89_pow_mod_partial",
    "Codon.PowM.c89_pow_mod_error",
    "Codon.PowM.c89_violation_mod",
    "Codon.PowM.c89_violation_least",
    "Codon.PowM.c89_violation_inverse",
    "Codon.PowM.c89_divmod_partial",
    "Codon.PowM.c89_violation_divmod",
    "Codon.PowM.c89_sum",
    "Codon.PowM.c89_sum_bool",
    "Codon.PowM.c89_factorial"
   ],
   "note": "Proved: pow with two arguments, sum, factorial, the errors, divmod except by zero and for divmod(-2**63, -1), pow with a modulus of at most 3037000500 in absolute value. Missing: greater moduli and the least integer modulo -1 (false, c89_violation_mod, c89_violation_least), negative exponents with a modulus (c89_violation_inverse), sums of floats."
  },
  {
   "property": "C90",
   "status": "partial",
   "theorems": [
    "Codon.Compr.c90_comprehension_partial",
    "Codon.Compr.c90_comprehension_plain",
    "Codon.Compr.c90_display",
    "Codon.Compr.c90_star_list",
    "Codon.Compr.c90_len_violation"
   ],
   "note": "Proved for every nesting of clauses and every display, with effects, exceptions and endless iterables. Missing: a list comprehension with a single for over something with __len__ calls __len__ first, so there the theorem needs __len__ to have no effect and not to raise (violation witness). Expressions are opaque; tuple and lazy generator expressions and the choice of the element type are not in this model."
  },
  {
   "property": "C91",
   "status": "partial",
   "theorems": [
    "Codon.NpCal.c91_set_days",
    "Codon.NpCal.c91_days_partial",
    "Codon.NpCal.c91_days_py",
    "Codon.NpCal.c91_one_to_one",
    "Codon.NpCal.c91_month_number",
    "Codon.NpCal.c91_value",
    "Codon.NpCal.c91_value_months",
    "Codon.NpCal.c91_floor_partial",
    "Codon.NpCal.c91_floor_months",
    "Codon.NpCal.c91_cast_partial",
    "Codon.NpCal.c91_round_trip_partial",
    "Codon.NpCal.c91_violation_days"
   ],
   "note": "Proved for all integers, dates, units and multiples with the default integer division; set_days and reading a value also for -numerics=py. Missing: with -numerics=py dates before 1970 get wrong numbers (violation witness). Integers are unbounded in the model: fs and as values are required to fit 64 bits, and nothing is said about computations that overflow."
  },
  {
   "property": "C92",
   "status": "partial",
   "theorems": [
    "Codon.NpBus.c92_calendar_partial",
    "Codon.NpBus.c92_mask_digits",
    "Codon.NpBus.c92_mask_names",
    "Codon.NpBus.c92_mask_small",
    "Codon.NpBus.c92_empty_mask",
    "Codon.NpBus.c92_violation_nat_holiday",
    "Codon.NpBus.c92_is_busday",
    "Codon.NpBus.c92_roll_nat",
    "Codon.NpBus.c92_roll",
    "Codon.NpBus.c92_month",
    "Codon.NpBus.c92_nth_unique",
    "Codon.NpBus.c92_offset",
    "Codon.NpBus.c92_busday_offset",
    "Codon.NpBus.c92_offset_nat",
    "Codon.NpBus.c92_count"
   ],
   "note": "Proved for all weekmasks of seven days, all holiday lists without NaT, all dates, offsets and rolls, with integers without bound. Violated if a NaT is among the holidays. The modified rolls compare the number of the month and not the year, as in NumPy. Not covered: overflow at the ends of the 64-bit range, weekmasks given as lists, broadcasting over arrays (C64)."
  },
  {
   "property": "C93",
   "status": "partial",
   "theorems": [
    "Codon.Getopt.c93_short",
    "Codon.Getopt.c93_long",
    "Codon.Getopt.c93_getopt_partial",
    "Codon.Getopt.c93_unique",
    "Codon.Getopt.c93_violation_first_operand",
    "Codon.Getopt.c93_violation_empty_value",
    "Codon.Getopt.c93_violation_flag_value"
   ],
   "note": "Proved, in both directions, for all declarations and all lines without an empty value after =, against the meaning of Python's gnu_getopt. Violated: options after the first operand are options (unlike Python's getopt.getopt), an empty value after = is taken for a missing one. Error messages are not modelled."
  },
  {
   "property": "C94",
   "status": "partial",
   "theorems": [
    "Codon.Rx.c94_search",
    "Codon.Rx.c94_spans",
    "Codon.Rx.c94_finditer_partial",
    "Codon.Rx.c94_nonempty",
    "Codon.Rx.c94_bounds",
    "Codon.Rx.c94_subn",
    "Codon.Rx.c94_subn_negative",
    "Codon.Rx.c94_nothing_lost",
    "Codon.Rx.c94_violation_twice",
    "Codon.Rx.c94_violation_passed_over"
   ],
   "note": "Proved for all patterns, with the matcher (RE2) as an arbitrary function: order, no overlap, termination, and what sub and split do with the matches. That the matches are Python's is proved for patterns whose empty matches are steady (none, or at every place without a longer one); violated otherwise: an empty match found twice, a longer match passed over. Not modelled: RE2 itself, templates of replacements, groups."
  },
  {
   "property": "C95",
   "status": "partial",
   "theorems": [
    "Codon.NpSrch.c95_searchsorted",
    "Codon.NpSrch.c95_sorter",
    "Codon.NpSrch.c95_refused",
    "Codon.NpSrch.c95_refuses",
    "Codon.NpSrch.c95_place_unique",
    "Codon.NpSrch.c95_one",
    "Codon.NpSrch.c95_digitize_up",
    "Codon.NpSrch.c95_digitize_down",
    "Codon.NpSrch.c95_digitize_refused",
    "Codon.NpSrch.c95_guess",
    "Codon.NpSrch.c95_guess_free",
    "Codon.NpSrch.c95_bincount_partial",
    "Codon.NpSrch.c95_bincount_refused",
    "Codon.NpSrch.c95_violation_bincount_empty"
   ],
   "note": "searchsorted with and without sorter, one key or many, digitize and the search of interp are proved over any strict weak order (NaN and keys of another type than the elements are outside the model); bincount without weights is proved for non-empty arrays, the empty array deviates from NumPy."
  },
  {
   "property": "C96",
   "status": "partial",
   "theorems": [
    "Codon.RxT.c96_expand_partial",
    "Codon.RxT.c96_plain",
    "Codon.RxT.c96_bad_escape",
    "Codon.RxT.c96_violation_octal",
    "Codon.RxT.c96_violation_quote",
    "Codon.RxT.c96_violation_end",
    "Codon.RxT.c96_violation_octal_range"
   ],
   "note": "Proved for all templates made of the parts that Python's documentation knows, except where an octal number is followed by an octal digit, for escaped quotes, for a backslash at the end and for octal numbers of 256 and more, where the code deviates. A missing group is IndexError for numbers too, where Python raises re.error. Strings are bytes."
  },
  {
   "property": "C97",
   "status": "proved",
   "theorems": [
    "Codon.NpBits.c97_ravel",
    "Codon.NpBits.c97_modes",
    "Codon.NpBits.c97_ravel_refused",
    "Codon.NpBits.c97_unravel",
    "Codon.NpBits.c97_unravel_refused",
    "Codon.NpBits.c97_round_trip",
    "Codon.NpBits.c97_diagonal",
    "Codon.NpBits.c97_packbits",
    "Codon.NpBits.c97_unpackbits",
    "Codon.NpBits.c97_unpackbits_refused",
    "Codon.NpBits.c97_unpack_pack",
    "Codon.NpBits.c97_pack_unpack"
   ],
   "note": "One index at a time and the flattened array for bits; integers are unbounded in the model, the statement is for shapes whose size fits."
  },
  {
   "property": "C98",
   "status": "proved",
   "theorems": [
    "Codon.NpRearr.c98_roll",
    "Codon.NpRearr.c98_array_split",
    "Codon.NpRearr.c98_resize",
    "Codon.NpRearr.c98_resize_empty",
    "Codon.NpRearr.c98_repeat",
    "Codon.NpRearr.c98_repeat_refused",
    "Codon.NpRearr.c98_delete",
    "Codon.NpRearr.c98_delete_refused",
    "Codon.NpRearr.c98_delete_one",
    "Codon.NpRearr.c98_delete_one_refused",
    "Codon.NpRearr.c98_delete_mask"
   ],
   "note": "arrays of one axis; delete with a slice is not part of the statement"
  },
  {
   "property": "C99",
   "status": "partial",
   "theorems": [
    "Codon.NpIns.c99_insert_partial",
    "Codon.NpIns.c99_insert_one",
    "Codon.NpIns.c99_insert_refused",
    "Codon.NpIns.c99_insert_violation_values_lost",
    "Codon.NpIns.c99_insert_violation_mismatch",
    "Codon.NpIns.c99_insert_violation_no_values"
   ],
   "note": "other numbers of values than one or that of the indices are refuted; arrays of one axis"
  },
  {
   "property": "C100",
   "status": "partial",
   "theorems": [
    "Codon.NpApp.c100_append_flat_partial",
    "Codon.NpApp.c100_append_axis_partial",
    "Codon.NpApp.c100_append_size",
    "Codon.NpApp.c100_append_violation_overwritten",
    "Codon.NpApp.c100_append_violation_offset",
    "Codon.NpApp.c100_append_violation_strided"
   ],
   "note": "operands where the copy as a whole and the loops disagree on offsets are refuted; arrays of one axis"
  }
 ]
}