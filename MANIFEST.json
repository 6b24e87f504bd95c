{
 "claims": [
  {
   "property": "C32",
   "status": "proved",
   "theorems": [
    "Verif.Chrono.Props.days_roundtrip",
    "Verif.Chrono.Props.date_roundtrip",
    "Verif.Chrono.Props.civil_is_nth_day",
    "Verif.Chrono.Props.civil_is_nth_day_back",
    "Verif.Chrono.Props.days_of_next",
    "Verif.Chrono.Props.date_order",
    "Verif.Chrono.Props.dayOfYear_spec",
    "Verif.Chrono.Props.fromDaysSinceEpoch_spec"
   ],
   "note": "unbounded integers instead of 64-bit"
  },
  {
   "property": "C33",
   "status": "partial",
   "theorems": [
    "Verif.Chrono.Props.weekday_partial",
    "Verif.Chrono.Props.weekday_nth_partial",
    "Verif.Chrono.Props.weekday_mod",
    "Verif.Chrono.Props.nthDow_partial",
    "Verif.Chrono.Props.nthDow_error",
    "Verif.Chrono.Props.weekday_before_epoch",
    "Verif.Chrono.Props.nthDow_before_epoch"
   ],
   "note": "false before 1970 (refuted with witnesses); proved from 1970 on and modulo 7 everywhere"
  },
  {
   "property": "C34",
   "status": "partial",
   "theorems": [
    "Verif.Chrono.Props.next_spec",
    "Verif.Chrono.Props.previous_spec",
    "Verif.Chrono.Props.nextWeekday_spec",
    "Verif.Chrono.Props.lastWeekday_wrong",
    "Verif.Chrono.Props.lastWeekday_partial",
    "Verif.Chrono.Props.nextMonthStart_spec",
    "Verif.Chrono.Props.lastDayOfMonth_spec",
    "Verif.Chrono.Props.daysInMonth_spec",
    "Verif.Chrono.Props.nextMonth_spec",
    "Verif.Chrono.Props.nextYear_spec",
    "Verif.Chrono.Props.quarter_spec",
    "Verif.Chrono.Props.daysUntilEnd_spec"
   ],
   "note": "everything but lastWeekday is proved; lastWeekday is refuted"
  },
  {
   "property": "C35",
   "status": "proved",
   "theorems": [
    "Verif.Chrono.Props.fixed_roundtrip_ts",
    "Verif.Chrono.Props.fixed_roundtrip_dt",
    "Verif.Chrono.Props.fixed_monotone",
    "Verif.Chrono.Props.dt_add_sub"
   ],
   "note": "whole seconds, exact arithmetic"
  },
  {
   "property": "C36",
   "status": "partial",
   "theorems": [
    "Verif.Chrono.Props.us_roundtrip_partial",
    "Verif.Chrono.Props.dst_roundtrip_gen",
    "Verif.Chrono.Props.nonexistent_iff_partial",
    "Verif.Chrono.Props.switch_roundtrip_partial",
    "Verif.Chrono.Props.switch_fold_partial",
    "Verif.Chrono.Props.switch_fold_value",
    "Verif.Chrono.Props.dst_fold_partial",
    "Verif.Chrono.Props.lastWeekdayOfMonth_spec",
    "Verif.Chrono.Props.dst_end_off_by_one",
    "Verif.Chrono.Props.fold_check_too_weak"
   ],
   "note": "round trip proved for US zones from 1947 on; boundary instant and fold check refuted"
  },
  {
   "property": "C51",
   "status": "partial",
   "theorems": [
    "Verif.Chrono.Props.date_construct_partial",
    "Verif.Chrono.Props.date_construct_negative"
   ],
   "note": "negative components are accepted (refuted)"
  },
  {
   "property": "C28",
   "status": "partial",
   "theorems": [
    "Verif.Arith.Props.compiled_floordiv",
    "Verif.Arith.Props.floordiv_representable",
    "Verif.Arith.Props.compiled_mod_partial",
    "Verif.Arith.Props.compiled_mod_narrow",
    "Verif.Arith.Props.mod_of_int64_min",
    "Verif.Arith.Props.mod_refuted",
    "Verif.Arith.Props.divmod_law_partial",
    "Verif.Arith.Props.divmod_law_refuted",
    "Verif.Arith.Props.zero_division",
    "Verif.Arith.Props.ring_ops",
    "Verif.Arith.Props.inRange_congr_unique"
   ],
   "note": "The code violates the property for INT64_MIN % negative (wrong sign, mod_refuted); every other operand pair of every integer type is proved."
  },
  {
   "property": "C29",
   "status": "partial",
   "theorems": [
    "Verif.Arith.Props.compiled_agrees_partial",
    "Verif.Arith.Props.floordiv_disagreement",
    "Verif.Arith.Props.wide_shift_undefined",
    "Verif.Arith.Props.no_ub"
   ],
   "note": "Integer operators only; the code disagrees on INT64_MIN // -1, and shift counts of 64 or more are undefined C++. Float operators are not modelled."
  },
  {
   "property": "C30",
   "status": "partial",
   "theorems": [
    "Verif.Arith.Props.lshift_is_mul",
    "Verif.Arith.Props.negative_shift",
    "Verif.Arith.Props.rshift_unsigned",
    "Verif.Arith.Props.rshift_signed_partial",
    "Verif.Arith.Props.rshift_refuted"
   ],
   "note": "The code violates the property: right shift of negatives rounds towards zero; the exact set of operands where it agrees with Python is proved."
  },
  {
   "property": "C31",
   "status": "proved",
   "theorems": [
    "Verif.Arith.Props.promotion_tables_equal",
    "Verif.Arith.Props.promotion_join",
    "Verif.Arith.Props.promotion_rule",
    "Verif.Arith.Props.mixed_agrees_partial"
   ],
   "note": "The eleven arithmetic types are the whole domain, proved by cases."
  },
  {
   "property": "C01",
   "status": "proved",
   "theorems": [
    "Verif.SortedDict.Props.sorted_dict_is_map",
    "Verif.SortedDict.Props.iter_keys"
   ],
   "note": "Every history of calls, any strict weak comparator. Comparators with side effects or that raise are not modelled; a mutation during iteration is not modelled."
  },
  {
   "property": "C02",
   "status": "proved",
   "theorems": [
    "Verif.SortedDict.Props.sorted_dict_never_breaks",
    "Verif.SortedDict.Props.depth_irrelevant",
    "Verif.SortedDict.Props.invariants_hold"
   ],
   "note": "Recursion depth is bounded by a multiple of the history length; the C stack itself is not modelled."
  },
  {
   "property": "C03",
   "status": "partial",
   "theorems": [
    "Verif.SortedDict.Props.height_bound_partial",
    "Verif.SortedDict.Props.balance_refuted",
    "Verif.SortedDict.Props.no_logarithmic_bound"
   ],
   "note": "The code violates the property: a zig-zag insertion order gives a tree of height n/2. The tight upper bound (n+3)/2 is proved."
  },
  {
   "property": "C04",
   "status": "proved",
   "theorems": [
    "Verif.HashTable.dict_is_ordered_map"
   ],
   "note": "every lawful key type and every history that never holds more than 2^28 entries; pointer identity and reference counts are not modelled"
  },
  {
   "property": "C05",
   "status": "proved",
   "theorems": [
    "Verif.HashTable.dict_never_hangs",
    "Verif.HashTable.probe_visits_every_index",
    "Verif.HashTable.reachable_has_empty",
    "Verif.HashTable.pick_hangs"
   ],
   "note": "up to 2^28 live entries; pick_hangs shows that the size computation loops for ever above that"
  },
  {
   "property": "C06",
   "status": "proved",
   "theorems": [
    "Verif.HashTable.dict_is_ordered_map"
   ],
   "note": "the answers of the items operation are the insertion order"
  },
  {
   "property": "C09",
   "status": "partial",
   "theorems": [
    "Verif.HashTable.compiled_agrees_partial",
    "Verif.HashTable.object_keys_disagree",
    "Verif.HashTable.object_keys_disagree_reverse",
    "Verif.HashTable.object_keys_nonneg"
   ],
   "note": "Proved for typed keys over all interleavings of the Dict calls; the code violates the property for object keys with a negative hash."
  },
  {
   "property": "C52",
   "status": "proved",
   "theorems": [
    "Verif.HashTable.memory_bounded"
   ],
   "note": "in entries, not bytes"
  },
  {
   "property": "C07",
   "status": "partial",
   "theorems": [
    "Verif.HashTable.set_algebra_partial",
    "Verif.HashTable.intersection_update_wrong",
    "Verif.HashTable.intersection_update_not_algebra",
    "Verif.HashTable.intersection_update_partial",
    "Verif.HashTable.isdisjoint_wrong",
    "Verif.HashTable.python_comparison_wrong",
    "Verif.HashTable.python_subset_is_overlap",
    "Verif.HashTable.python_superset_ok"
   ],
   "note": "Every program over any number of Set objects, except intersection_update with another Set(T) and s.isdisjoint(s) for empty s, which the code gets wrong (refuted). Comparison ==, <= with Python sets is refuted too."
  },
  {
   "property": "C08",
   "status": "partial",
   "theorems": [
    "Verif.HashTable.dict_eq_extensional",
    "Verif.HashTable.keys_view_partial",
    "Verif.HashTable.keys_view_ignores_keys"
   ],
   "note": "Equality of dicts is proved; keys views compare only their sizes (refuted)."
  },
  {
   "property": "C39",
   "status": "partial",
   "theorems": [
    "Verif.Sorting.Props.sort_sorts",
    "Verif.Sorting.Props.sort_permutes",
    "Verif.Sorting.Props.sort_key_partial",
    "Verif.Sorting.Props.sort_key_refuted"
   ],
   "note": "sort without a key is proved for every order and seed; with a key the code compares values (not keys) with ==, so the result is ordered by key only if equal values have equivalent keys (refuted otherwise). Comparisons that raise are not modelled."
  },
  {
   "property": "C40",
   "status": "proved",
   "theorems": [
    "Verif.Sorting.Props.searchSorted_spec",
    "Verif.Sorting.Props.searchSorted_absent",
    "Verif.Sorting.Props.searchSorted_fails_only_if_not_total"
   ],
   "note": "Returns the insertion point when absent although the docstring says -1."
  },
  {
   "property": "C43",
   "status": "partial",
   "theorems": [
    "Verif.ArgMapping.Props.binds_like_python_partial",
    "Verif.ArgMapping.Props.flattened_call",
    "Verif.ArgMapping.Props.positional_only_ignored",
    "Verif.ArgMapping.Props.keyword_only_unsupported"
   ],
   "note": "Proved for all signatures of ordinary parameters with defaults, *args and **kwargs; refuted for positional-only and keyword-only parameters, which the code ignores or rejects."
  },
  {
   "property": "C53",
   "status": "proved",
   "theorems": [
    "Verif.ArgMapping.Props.dispatch_spec",
    "Verif.ArgMapping.Props.tryOverload_spec"
   ],
   "note": "Conversion of a value to a type is an arbitrary partial function; the quick pre-check is assumed not to reject convertible values. Return type checks of overridden methods are not modelled. Signatures without positional-only parameters."
  },
  {
   "property": "C46",
   "status": "partial",
   "theorems": [
    "Verif.Slab.predicted_slab_suffices",
    "Verif.Slab.slab_blocks_disjoint",
    "Verif.Slab.bytesRequired_footprint",
    "Verif.Slab.slab_refcount",
    "Verif.Slab.slab_freed_by_last",
    "Verif.Slab.allocate_refuses_iff",
    "Verif.Slab.slab_overflow_possible",
    "Verif.Slab.tpMalloc_exact",
    "Verif.Slab.tpFree_exact",
    "Verif.Slab.tpRealloc_exact",
    "Verif.Slab.tpRealloc_trusts_caller"
   ],
   "note": "Proved for slabs sized by the predictor. An allocation that does not fit is not always refused: the bounds check leaves out the header (refuted), and the byte counter trusts the caller's old size on reallocation."
  },
  {
   "property": "C54",
   "status": "partial",
   "theorems": [
    "Verif.DeepCopy.deepcopyContiguous_exact_partial",
    "Verif.DeepCopy.deepcopy_of_cycle_never_finishes",
    "Verif.DeepCopy.self_containing_list_cannot_be_copied",
    "Verif.DeepCopy.cell_prediction_wrong",
    "Verif.DeepCopy.count_reads_uninitialised_member"
   ],
   "note": "Proved for acyclic typed values without typed cells and with all class members set; refuted for cyclic values (copying never finishes), typed cells (wrong prediction) and unset class members. Python objects inside typed values are not modelled."
  },
  {
   "property": "C55",
   "status": "partial",
   "theorems": [
    "Verif.HeldClass.instance_history",
    "Verif.HeldClass.constructor_spec",
    "Verif.HeldClass.setAttribute_spec",
    "Verif.HeldClass.pyDelAttr_spec",
    "Verif.HeldClass.copyConstructor_spec",
    "Verif.HeldClass.destroy_spec",
    "Verif.HeldClass.assign_spec_partial",
    "Verif.HeldClass.assign_loses_member",
    "Verif.HeldClass.deepcopy_members_partial",
    "Verif.HeldClass.deepcopy_members_dirty"
   ],
   "note": "Proved for all attribute histories, copying and destruction; assigning a whole held instance loses members that were unset in the target (refuted), and deep copying into uncleared memory turns unset members into garbage (refuted)."
  },
  {
   "property": "C13",
   "status": "proved",
   "theorems": [
    "Verif.Wire.varint_roundtrip",
    "Verif.Wire.signed_varint_roundtrip",
    "Verif.Wire.register_roundtrip",
    "Verif.Wire.header_roundtrip",
    "Verif.Wire.readVarint_spec",
    "Verif.Wire.overlong_varint_undefined"
   ],
   "note": "All 64-bit values, all register types, any following bytes; overlong varints of up to ten bytes are also read correctly, longer ones shift by 64 or more (undefined in C++)."
  },
  {
   "property": "C14",
   "status": "proved",
   "theorems": [
    "Verif.Wire.discard_exact",
    "Verif.Wire.copy_exact",
    "Verif.Wire.encoding_unambiguous",
    "Verif.Wire.discard_total"
   ],
   "note": "All message trees, all valid encodings, all trailing bytes; on malformed input skipping terminates and never moves backwards."
  },
  {
   "property": "C10",
   "status": "partial",
   "theorems": [
    "Verif.ConstDict.constdict_spec",
    "Verif.ConstDict.colliding_keys_kept"
   ],
   "note": "Proved for every program of literals with distinct keys, + and -, over any linearly ordered key type and any sorting routine; when the conversion of keys is not injective (integers to floats above 2^53) two equal keys are kept (refuted)."
  },
  {
   "property": "C11",
   "status": "proved",
   "theorems": [
    "Verif.ConstDict.constdict_spec"
   ],
   "note": "+ and - are part of the programs; ConstDicts are immutable values in the model, so operands cannot change."
  },
  {
   "property": "C12",
   "status": "partial",
   "theorems": [
    "Verif.ConstDict.constdict_eq",
    "Verif.ConstDict.constdict_order",
    "Verif.ConstDict.constdict_hash",
    "Verif.ConstDict.keys_view_ne_compares_values"
   ],
   "note": "Equality, order and hash of ConstDicts are proved; != on key views compares the values too (refuted)."
  },
  {
   "property": "C56",
   "status": "partial",
   "theorems": [
    "Verif.ConstDict.compiled_constdict_agrees_partial",
    "Verif.ConstDict.compiled_order_partial",
    "Verif.ConstDict.compiled_order_disagrees",
    "Verif.ConstDict.compiled_literal_keeps_duplicates"
   ],
   "note": "Construction, +, -, lookup, membership, == and != agree; <, <=, >, >= agree only for dictionaries with the same keys (refuted otherwise); compiled literals with a repeated key keep both entries (refuted)."
  },
  {
   "property": "C41",
   "status": "proved",
   "theorems": [
    "Verif.TypedQueue.refines_fifo",
    "Verif.TypedQueue.removed_prefix_of_put",
    "Verif.TypedQueue.len_is_difference",
    "Verif.TypedQueue.get_returns",
    "Verif.TypedQueue.getMany_returns",
    "Verif.TypedQueue.getNonblocking_returns"
   ],
   "note": "Any number of threads, any programs, any schedule, at the granularity of single lock operations, list operations and tests: calls, effects and results are those of an abstract FIFO queue."
  },
  {
   "property": "C42",
   "status": "proved",
   "theorems": [
    "Verif.TypedQueue.no_failure",
    "Verif.TypedQueue.no_deadlock",
    "Verif.TypedQueue.waiter_proceeds",
    "Verif.TypedQueue.relock_proceeds",
    "Verif.TypedQueue.getNonblocking_never_waits",
    "Verif.TypedQueue.holder_proceeds",
    "Verif.TypedQueue.holder_leaves"
   ],
   "note": "Fairness between threads is not assumed, so no claim that a particular waiter is ever served; asynchronous interrupts are not modelled."
  },
  {
   "property": "C44",
   "status": "partial",
   "theorems": [
    "Verif.DirectedGraph.edges_after",
    "Verif.DirectedGraph.calls_raise",
    "Verif.DirectedGraph.bypass_keeps_reachability",
    "Verif.DirectedGraph.levels_raises_iff",
    "Verif.DirectedGraph.levels_of_acyclic",
    "Verif.DirectedGraph.topologicalSort_sorts",
    "Verif.DirectedGraph.topologicalSort_stable",
    "Verif.DirectedGraph.createsCycle_iff",
    "Verif.DirectedGraph.createsCycle_predicts",
    "Verif.DirectedGraph.createsCycle_self_refuted"
   ],
   "note": "All of it for every graph and every iteration order of the sets, except createsCycle(n, n), which is False although the edge would be a cycle (refuted); Python's recursion limit is not modelled."
  },
  {
   "property": "C45",
   "status": "proved",
   "theorems": [
    "Verif.DependencyGraph.none_means_clean",
    "Verif.DependencyGraph.returned_was_marked",
    "Verif.DependencyGraph.maybe_iff_pending",
    "Verif.DependencyGraph.drain_returns_all",
    "Verif.DependencyGraph.raises_iff",
    "Verif.DependencyGraph.names_depended_on",
    "Verif.DependencyGraph.highest_first",
    "Verif.DependencyGraph.urgent_first",
    "Verif.DependencyGraph.history_ops"
   ],
   "note": "What is pending is defined from the calls and the nodes returned alone; a marking of an unknown node raises and may leave the node to be returned later (MaybePending).  The order (new before usual before low priority) is proved for the first half million calls."
  },
  {
   "property": "C47",
   "status": "partial",
   "theorems": [
    "Verif.ListOf.history_as_python_list",
    "Verif.ListOf.call_as_on_python_list",
    "Verif.ListOf.rep_shows",
    "Verif.ListOf.shows_unique",
    "Verif.ListOf.reverse_reverses",
    "Verif.ListOf.from_iterable",
    "Verif.ListOf.iterator_step",
    "Verif.ListOf.iteration_gives_elements",
    "Verif.ListOf.iterator_as_python_partial",
    "Verif.ListOf.compiled_call_as_on_python_list",
    "Verif.ListOf.compiled_append_of_own_element_partial",
    "Verif.ListOf.exhausted_iterator_revives",
    "Verif.ListOf.negative_sizes_fault",
    "Verif.ListOf.huge_index_reaches_last_element",
    "Verif.ListOf.compiled_append_of_own_element_faults",
    "Verif.ListOf.compiled_self_extension_faults",
    "Verif.ListOf.compiled_negative_resize_faults",
    "Verif.ListOf.compiled_huge_step_faults",
    "Verif.ListOf.compiled_for_over_shrinking_list_faults"
   ],
   "note": "Every history of calls, interpreted and compiled, for lists below 2^30 elements, indices that fit in 64 bits, sizes that are not negative and (compiled) elements passed by value; each of these limits has a refutation where the code breaks it."
  },
  {
   "property": "C48",
   "status": "partial",
   "theorems": [
    "Verif.TupleOf.cmp_is_lexicographic",
    "Verif.TupleOf.compareToPython_is_lexicographic",
    "Verif.TupleOf.compiled_is_lexicographic",
    "Verif.TupleOf.compiled_agrees",
    "Verif.TupleOf.order_laws",
    "Verif.TupleOf.equal_hash_partial",
    "Verif.TupleOf.compiled_hash_partial",
    "Verif.TupleOf.nonempty_not_null",
    "Verif.TupleOf.hash_never_error",
    "Verif.TupleOf.hash_stable",
    "Verif.TupleOf.empty_tuples_hash_differently",
    "Verif.TupleOf.compiled_hash_of_empty_faults",
    "Verif.TupleOf.list_hash_goes_stale"
   ],
   "note": "Comparison in full for totally ordered elements; equal hashes except for empty tuples made by compiled comprehensions (refuted); compiled hash except for the empty tuple (refuted); hashes of lists go stale (refuted)."
  },
  {
   "property": "C19",
   "status": "partial",
   "theorems": [
    "Verif.Str.string_roundtrip_partial",
    "Verif.Str.byte_count_exact",
    "Verif.Str.serialize_bytes",
    "Verif.Str.big_string_lost",
    "Verif.Str.truncated_reads_past_end"
   ],
   "note": "Every string of code points up to 0x1FFFFF whose UTF-8 form is below 2^31 bytes, any width, any following bytes; strings of 2^31 bytes or more cannot be read back (refuted).  Truncated UTF-8 is read past the end of its field."
  },
  {
   "property": "C20",
   "status": "partial",
   "theorems": [
    "Verif.Str.compare_partial",
    "Verif.Str.empty_not_equal",
    "Verif.Str.equals_python",
    "Verif.Str.order_with_python_reversed"
   ],
   "note": "Lexicographic by code points for all pairs of strings of any widths in which the empty string is stored as a null pointer; a stored empty string is not equal to '' (refuted) and ordering against an interpreter's string is reversed (refuted)."
  },
  {
   "property": "C21",
   "status": "partial",
   "theorems": [
    "Verif.Str.hash_equal_partial",
    "Verif.Str.concat_minimal",
    "Verif.Str.python_minimal",
    "Verif.Str.equal_strings_hash_differently",
    "Verif.Str.hash_same_width",
    "Verif.Str.hash_not_error",
    "Verif.Str.item_hashes_differently"
   ],
   "note": "Equal strings of equal width hash alike, and construction from Python and + of minimal strings keep the width minimal; decoded strings can be wider and then hash differently (refuted)."
  },
  {
   "property": "C22",
   "status": "partial",
   "theorems": [
    "Verif.Str.find_least",
    "Verif.Str.rfind_greatest",
    "Verif.Str.index_raises_iff",
    "Verif.Str.contains_iff",
    "Verif.Str.count_partial",
    "Verif.Str.count_of_empty"
   ],
   "note": "find, rfind, index, rindex and in for all strings, widths and bounds; count for all but the empty needle in the empty string, where the code gives 0 and Python 1 (refuted)."
  },
  {
   "property": "C23",
   "status": "partial",
   "theorems": [
    "Verif.Str.split_as_python",
    "Verif.Str.rsplit_as_python",
    "Verif.Str.join_inverts_split",
    "Verif.Str.join_as_python",
    "Verif.Str.split_words_partial",
    "Verif.Str.rsplit_words_partial",
    "Verif.Str.split_blank_zero",
    "Verif.Str.splitlines_as_python",
    "Verif.Str.join_inverts_splitlines",
    "Verif.Str.partition_as_python",
    "Verif.Str.join_of_empty_not_empty"
   ],
   "note": "split, rsplit, splitlines, join, partition, rpartition for all strings, separators and limits; split(None, 0) of white space gives [''] and not [] (refuted) and a join of empty strings is a stored empty string that is not == '' (refuted)."
  },
  {
   "property": "C24",
   "status": "partial",
   "theorems": [
    "Verif.Str.getitem_as_python",
    "Verif.Str.slice_partial",
    "Verif.Str.constant_slice_ignores_bound",
    "Verif.Str.full_slice_is_no_string",
    "Verif.Str.strip_as_python",
    "Verif.Str.concat_as_python",
    "Verif.Str.mult_as_python",
    "Verif.Str.getsubstr_normal",
    "Verif.Str.ord_chr",
    "Verif.Str.ord_as_python"
   ],
   "note": "Indexing, slicing, strip, +, *, chr and ord for all strings and indices; a compiled slice with a constant lower bound and a variable upper bound ignores the upper bound (refuted) and s[:] is not a string (refuted)."
  },
  {
   "property": "C25",
   "status": "proved",
   "theorems": [
    "Verif.Str.int_of_string",
    "Verif.Str.int_raises_iff",
    "Verif.Str.int_wraps"
   ],
   "note": "int(s) succeeds exactly on Python's grammar of ASCII decimal literals with surrounding white space and returns the value modulo 2^64; difference from the interpreter proved: a value outside int64 wraps. Digits of other scripts are not accepted, as the model's digits are the code's '0'..'9'."
  },
  {
   "property": "C26",
   "status": "partial",
   "theorems": [
    "Verif.Str.affix_as_python",
    "Verif.Str.affix_tuple_as_python",
    "Verif.Str.replace_as_python",
    "Verif.Str.replaced_by_nothing",
    "Verif.Str.justify_as_python",
    "Verif.Str.center_partial",
    "Verif.Str.center_differs",
    "Verif.Str.zfill_as_python",
    "Verif.Str.expandtabs_as_python"
   ],
   "note": "startswith/endswith with ranges and tuples, replace with limits and empty patterns, ljust, rjust, zfill and expandtabs for all strings and arguments. Partial because center differs from Python when both the margin and the width are odd (refuted: \"ab\".center(5)); translate is not modelled."
  },
  {
   "property": "C27",
   "status": "partial",
   "theorems": [
    "Verif.Str.case_map",
    "Verif.Str.case_map_partial",
    "Verif.Str.capitalize_map",
    "Verif.Str.capitalize_partial",
    "Verif.Str.swapcase_partial",
    "Verif.Str.title_partial",
    "Verif.Str.case_safe",
    "Verif.Str.upper_truncates",
    "Verif.Str.lower_ignores_final_sigma",
    "Verif.Str.title_after_uncased",
    "Verif.Str.capitalize_not_title",
    "Verif.Str.kelvin"
   ],
   "note": "Memory safety and the exact result for every string and every Unicode database; equal to Python's result when the mapped characters fit the storage width of the string. Partial because the code truncates wider characters (\"\u00ff\".upper() is \"x\", refuted), ignores the final sigma, and differs in title and capitalize."
  },
  {
   "property": "C58",
   "status": "proved",
   "theorems": [
    "Verif.Str.predicates_as_python",
    "Verif.Str.case_predicates_as_python",
    "Verif.Str.istitle_as_python"
   ],
   "note": "For all strings and all property tables."
  },
  {
   "property": "C15",
   "status": "proved",
   "theorems": [
    "Verif.Typed.value_roundtrip",
    "Verif.Typed.graph_roundtrip",
    "Verif.Typed.read_written",
    "Verif.Typed.same_view"
   ],
   "note": "All types of the grammar (machine types incl. floats as bit patterns, None/Value, bytes, str, Tuple/NamedTuple, OneOf, Alternative, TupleOf, ListOf, ConstDict, Dict, Set, recursive types), all values, both settings of inline lists. The index of a Dict or Set that is rebuilt after its items were read is not part of this model; the limits of an int32 count are hypotheses."
  },
  {
   "property": "C16",
   "status": "proved",
   "theorems": [
    "Verif.Typed.int_list_roundtrip",
    "Verif.Typed.int_list_blocks",
    "Verif.Typed.int_block_overrun"
   ],
   "note": "All sequences of 64-bit integers; the form is blocks of at most 255 integers. Damaged data may write past the list (int_block_overrun)."
  },
  {
   "property": "C17",
   "status": "proved",
   "theorems": [
    "Verif.Typed.graph_roundtrip",
    "Verif.Typed.read_written"
   ],
   "note": "All finite graphs of ListOf, Dict and Set objects, cyclic ones included: serialization ends, deserialization gives a one-to-one copy. Class instances and Python objects are not in the grammar."
  },
  {
   "property": "C18",
   "status": "proved",
   "theorems": [
    "Verif.Stream.stream_content",
    "Verif.Stream.plain_output",
    "Verif.Stream.output_settled",
    "Verif.Stream.schedules_end",
    "Verif.Stream.ends_done",
    "Verif.Stream.can_finish",
    "Verif.Stream.huge_block_lost"
   ],
   "note": "LZ4 is a parameter with the law that decompression inverts compression; any number of serializers and compression threads, all interleavings of critical sections, sleeping and waking included; the reader is the model of DeserializationBuffer; huge_block_lost shows the 4 GiB limit is needed"
  },
  {
   "property": "C37",
   "status": "proved",
   "theorems": [
    "Verif.DateText.Props.iso_roundtrip",
    "Verif.DateText.Props.iso_roundtrip_in",
    "Verif.DateText.Props.default_roundtrip",
    "Verif.DateText.Props.date_roundtrip",
    "Verif.DateText.Props.format_parse_shown",
    "Verif.DateText.Props.format_parse_roundtrip",
    "Verif.DateText.Props.format_parse_utc_roundtrip",
    "Verif.DateText.Props.tokens_total"
   ],
   "note": "whole seconds, ASCII text, exact arithmetic"
  },
  {
   "property": "C38",
   "status": "partial",
   "theorems": [
    "Verif.DateText.Props.hour12_denotes",
    "Verif.DateText.Props.words_partial",
    "Verif.DateText.Props.noon_rejected",
    "Verif.DateText.Props.format_parse_12h_partial",
    "Verif.DateText.Props.noon_format_rejected"
   ],
   "note": "every hour but 12 PM is right; 12 PM is rejected by both parsers (refuted for every date and minute)"
  },
  {
   "property": "C59",
   "status": "partial",
   "theorems": [
    "Verif.DateText.Props.iso_offset_partial",
    "Verif.DateText.Props.iso_negative_offset"
   ],
   "note": "Z and positive offsets proved; every negative offset is read as midnight UTC of the written day (refuted for all)"
  },
  {
   "property": "C60",
   "status": "partial",
   "theorems": [
    "Verif.DateText.Props.format_renders_partial",
    "Verif.DateText.Props.format_renders_offset_partial",
    "Verif.DateText.Props.weekday_fails",
    "Verif.DateText.Props.zone_mislabelled",
    "Verif.DateText.Props.format_unknown"
   ],
   "note": "weekday names before 1969-12-27 and timezone names away from UTC are refuted; everything else proved"
  },
  {
   "property": "C61",
   "status": "partial",
   "theorems": [
    "Verif.DateText.Props.mismatch_rejected_partial",
    "Verif.DateText.Props.literals_ignored"
   ],
   "note": "numeric directives proved for formats of fixed width; plain characters and trailing text are not compared (refuted)"
  },
  {
   "property": "C49",
   "status": "partial",
   "theorems": [
    "Verif.Flow.MergeProps.merge_allows_partial",
    "Verif.Flow.MergeProps.mergeOf_allows_partial",
    "Verif.Flow.MergeProps.merge_initialised_iff",
    "Verif.Flow.MergeProps.merge_adds_nothing",
    "Verif.Flow.MergeProps.merge_drops_true"
   ],
   "note": "sound for every pair of states without boolean literal types; Value(True) merged with int becomes int, which is refuted"
  },
  {
   "property": "C62",
   "status": "partial",
   "theorems": [
    "Verif.Flow.Props.compiled_matches_python_partial",
    "Verif.Flow.Props.compiled_never_faults_partial",
    "Verif.Flow.Refute.break_drops_types",
    "Verif.Flow.Refute.continue_drops_types",
    "Verif.Flow.Refute.break_then_dropped_code",
    "Verif.Flow.Refute.finally_assumes_body_types",
    "Verif.Flow.Refute.finally_reads_unassigned",
    "Verif.Flow.Refute.handler_state_lost",
    "Verif.Flow.Refute.inner_try_skips_else",
    "Verif.Flow.Refute.inner_try_runs_else",
    "Verif.Flow.Refute.same_name_destroyed_twice",
    "Verif.Flow.Refute.handler_name_not_counted",
    "Verif.Flow.Refute.finally_loses_exception",
    "Verif.Flow.Refute.handled_inside_handler",
    "Verif.Flow.Refute.isinstance_int_of_bool",
    "Verif.Flow.Refute.assert_narrows_finally",
    "Verif.Flow.Refute.break_leaves_unbound",
    "Verif.Flow.Refute.break_in_else_absorbed"
   ],
   "note": "simulation proved by induction over programs that meet the condition good; sixteen programs outside it are shown to be miscompiled"
  },
  {
   "property": "C50",
   "status": "partial",
   "theorems": [
    "Verif.MapReduce.Props.map_elements_partial",
    "Verif.MapReduce.Props.map_other",
    "Verif.MapReduce.Props.map_compiled",
    "Verif.MapReduce.Props.reduce_folds",
    "Verif.MapReduce.Props.reduce_other",
    "Verif.MapReduce.Props.reduce_compiled_partial",
    "Verif.MapReduce.Props.reduce_empty_compiled",
    "Verif.MapReduce.Props.map_depends_on_history",
    "Verif.MapReduce.Props.map_depends_on_closures",
    "Verif.MapReduce.Props.map_hides_exception"
   ],
   "note": "reduce proved in full for the interpreter; map proved for every history when element types are concrete and inference depends on the function's type; the history dependence for OneOf elements and closures is refuted, as is the exception of a function that never returns"
  },
  {
   "property": "C63",
   "status": "partial",
   "theorems": [
    "Verif.Pmap.Props.pmap_is_list_comprehension_partial",
    "Verif.Pmap.Props.pmap_memory_safe_partial",
    "Verif.Pmap.Props.pmap_collects_alone_partial",
    "Verif.Pmap.Props.base_exception_hangs"
   ],
   "note": "proved for every schedule, nesting, number of workers and of callers, for functions whose exceptions are Exceptions; a BaseException makes pmap hang (refuted)"
  },
  {
   "property": "C64",
   "status": "partial",
   "theorems": [
    "Verif.Pmap.Props.pmap_never_deadlocks_partial",
    "Verif.Pmap.Props.pmap_terminates_partial",
    "Verif.Pmap.Props.pmap_completes_partial",
    "Verif.Pmap.Props.base_exception_hangs"
   ],
   "note": "deadlock freedom, a bound on the steps of every schedule, and completion, with the same exception"
  },
  {
   "property": "C65",
   "status": "partial",
   "theorems": [
    "Verif.Gen.generator_next_partial",
    "Verif.Gen.generator_finished_stays",
    "Verif.Gen.yield_raises_resumes",
    "Verif.Gen.yield_raises_in_try",
    "Verif.Gen.yield_raises_skips_finally",
    "Verif.Gen.return_value_skips_finally",
    "Verif.Gen.return_value_is_caught",
    "Verif.Gen.yield_in_finally_loses_exception",
    "Verif.Gen.yield_in_finally_loses_return",
    "Verif.Gen.bare_raise_after_yield",
    "Verif.Gen.stopiteration_ends_quietly",
    "Verif.Gen.except_as_not_bound",
    "Verif.Gen.for_over_return_value_raises",
    "Verif.Gen.generator_next_refuted"
   ],
   "note": "both directions proved for every body in the fragment Good, every history of calls and every consumer; each exclusion of Good is a generator that is miscompiled"
  },
  {
   "property": "C66",
   "status": "partial",
   "theorems": [
    "Verif.Gen.generator_for_with_next_partial",
    "Verif.Gen.nested_with_leaves_inner_twice",
    "Verif.Gen.nested_with_is_not_swallowed",
    "Verif.Gen.with_target_raises",
    "Verif.Gen.return_value_in_with",
    "Verif.Gen.same_line_truncates",
    "Verif.Gen.generator_for_with_next_refuted"
   ],
   "note": "both directions proved for loops on different lines and no with inside another with; nested with statements in a generator are miscompiled"
  },
  {
   "property": "C67",
   "status": "partial",
   "theorems": [
    "Verif.Gen.with_statement_partial",
    "Verif.Gen.with_target_raises_never_left"
   ],
   "note": "proved when assigning to the target of with does not raise; otherwise the manager is never left"
  },
  {
   "property": "C57",
   "status": "partial",
   "theorems": [
    "Verif.Loops.loops_compiled_as_python_partial",
    "Verif.Loops.sequence_else_never_runs",
    "Verif.Loops.Demo.else_over_range",
    "Verif.Loops.Demo.growing_list",
    "Verif.Loops.Demo.shrinking_list",
    "Verif.Loops.Demo.code_after_search_dropped",
    "Verif.Loops.Demo.code_after_break_dropped",
    "Verif.Loops.Demo.round_after_continue_dropped",
    "Verif.Loops.Demo.code_after_iteration_dropped",
    "Verif.Loops.Demo.break_in_else_of_for_absorbed",
    "Verif.Loops.Demo.tuple_variable_reassigned",
    "Verif.Loops.Demo.loops_on_one_line",
    "Verif.Loops.Demo.loops_compiled_as_python_refuted"
   ],
   "note": "proved for every program of which Block.Good holds; each condition of Block.Good is shown to be needed by a program that is miscompiled; that else after a loop over a sequence never runs is proved for every such loop"
  },
  {
   "property": "C68",
   "status": "partial",
   "theorems": [
    "Verif.Loops.Range.range_loop_partial",
    "Verif.Loops.Range.range_iterator_partial",
    "Verif.Loops.Range.zero_step",
    "Verif.Loops.Range.long_range_empty",
    "Verif.Loops.Range.least_step_empty",
    "Verif.Loops.Range.range_iterator_wraps",
    "Verif.Loops.Range.exhausted_range_resumes",
    "Verif.Loops.Range.range_is_a_triple",
    "Verif.Loops.Range.range_loop_refuted",
    "Verif.Loops.Range.range_value_refuted"
   ],
   "note": "iteration proved for all ranges whose extent is a 64-bit integer; as a value, a compiled range is the triple of its parameters"
  },
  {
   "property": "C69",
   "status": "partial",
   "theorems": [
    "Verif.Comp.comprehension_partial",
    "Verif.Comp.Demo.filtered_right",
    "Verif.Comp.Demo.tests_in_wrong_order",
    "Verif.Comp.Demo.shadow_python",
    "Verif.Comp.Demo.shadow_compiled",
    "Verif.Comp.Demo.product_python",
    "Verif.Comp.Demo.product_compiled",
    "Verif.Comp.Demo.flatten_python",
    "Verif.Comp.Demo.flatten_compiled",
    "Verif.Comp.Demo.comprehension_refuted"
   ],
   "note": "proved for one for clause whose tests are one or pure and whose iterable does not mention the target; several for clauses are nested inside out and stop after one round, for all lists"
  },
  {
   "property": "C70",
   "status": "partial",
   "theorems": [
    "Verif.Sha.sha1_of_pieces",
    "Verif.Sha.sha1_of_message_partial",
    "Verif.Sha.shaHash_of_message_partial",
    "Verif.Sha.sum_of_hashes",
    "Verif.Sha.sum_of_hashes_spec",
    "Verif.Sha.long_message_wrong_length",
    "Verif.Sha.empty_message_wrong"
   ],
   "note": "proved for all messages in pieces shorter than 2^32 bytes; a piece of 2^32 bytes or more is hashed with a wrong length, and the hash of the empty string is not its SHA-1 but zero"
  },
  {
   "property": "C71",
   "status": "partial",
   "theorems": [
    "Verif.Sha.same_hash_same_value_partial",
    "Verif.Sha.int_float_same_hash",
    "Verif.Sha.empty_tuple_zero_same_hash",
    "Verif.Sha.none_empty_string_same_hash",
    "Verif.Sha.bytes_string_same_hash",
    "Verif.Sha.other_bytes_same_hash",
    "Verif.Sha.big_int_no_hash"
   ],
   "note": "proved for pairs of values of the same type (tuples of one item type, to any depth); values of different types share hashes, and integers beyond 64 bits have none; dicts and __sha_hash__ are not modelled"
  },
  {
   "property": "C72",
   "status": "partial",
   "theorems": [
    "Verif.Sha.same_identity_same_constant_partial",
    "Verif.Sha.big_ints_same_hash",
    "Verif.Sha.two_to_the_64_same_hash",
    "Verif.Sha.big_ints_top_bits"
   ],
   "note": "proved for all constants but integers beyond 64 bits, whose low bits do not enter the hash"
  },
  {
   "property": "C73",
   "status": "partial",
   "theorems": [
    "Verif.Mro.mro_is_c3_partial",
    "Verif.Mro.mro_keeps_orders",
    "Verif.Mro.class_fails_only_without_order",
    "Verif.Mro.issubclass_iff",
    "Verif.Mro.mro_monotone",
    "Verif.Mro.repeated_base_refuted"
   ],
   "note": "proved for all histories of class statements that name no base twice; a class statement with a repeated base, which Python rejects, is accepted"
  },
  {
   "property": "C74",
   "status": "proved",
   "theorems": [
    "Verif.Mro.Obj.members_inherited",
    "Verif.Mro.Obj.final_not_subclassed",
    "Verif.Mro.Obj.member_layout"
   ],
   "note": "for all histories of class statements that name no base twice; that instances have the size of all their members is not modelled"
  },
  {
   "property": "C75",
   "status": "partial",
   "theorems": [
    "Verif.Mro.Obj.could_be_yes",
    "Verif.Mro.Obj.could_be_no_partial",
    "Verif.Mro.Obj.could_be_no_refuted"
   ],
   "note": "proved where class members do not contradict each other; two classes with different values for a class member can have a common subclass, and the compiler says they cannot"
  },
  {
   "property": "C76",
   "status": "partial",
   "theorems": [
    "Verif.Mro.Obj.functions_along_mro",
    "Verif.Mro.Obj.class_member_of_first",
    "Verif.Mro.Obj.compiled_attribute_partial",
    "Verif.Mro.Obj.compiled_attribute_refuted",
    "Verif.Mro.Obj.attribute_of_first_partial",
    "Verif.Mro.Obj.attribute_of_first_refuted"
   ],
   "note": "proved for names used for one kind of definition, and in compiled code for class members that are not bound again in subclasses; refuted for the others"
  },
  {
   "property": "C77",
   "status": "partial",
   "theorems": [
    "Verif.Mro.Dispatch.dispatch_right_partial",
    "Verif.Mro.Dispatch.failed_compile_calls_null",
    "Verif.Mro.Dispatch.call_begins",
    "Verif.Mro.Dispatch.call_stays",
    "Verif.Mro.Dispatch.slots_agree",
    "Verif.Mro.Dispatch.allocate_slot",
    "Verif.Mro.Dispatch.slot_stays",
    "Verif.Mro.Dispatch.dispatch_progress",
    "Verif.Mro.Dispatch.casts_right",
    "Verif.Mro.Dispatch.cast_succeeds"
   ],
   "note": "proved for all interleavings and hierarchies; a method that does not compile, called from a __del__ while an exception is propagated, is called through null; casts for orders of at most 65536 classes"
  },
  {
   "property": "C78",
   "status": "partial",
   "theorems": [
    "Verif.Cache.disk_complete",
    "Verif.Cache.loaded_right",
    "Verif.Cache.published",
    "Verif.Cache.start_never_fails",
    "Verif.Cache.faults_are",
    "Verif.Cache.asking_asserts",
    "Verif.Cache.compiling_asserts"
   ],
   "note": "proved for all interleavings and crash points, with the directory renamed at once and no loss of power; errors are possible in looking up functions, and shown"
  },
  {
   "property": "C79",
   "status": "partial",
   "theorems": [
    "Verif.Cache.ask_right_partial",
    "Verif.Cache.ask_fails",
    "Verif.Cache.asking_asserts",
    "Verif.Cache.fetch_own",
    "Verif.Cache.fetch_right",
    "Verif.Cache.symbol_stays",
    "Verif.Cache.add_right_partial",
    "Verif.Cache.add_fails",
    "Verif.Cache.compiling_asserts",
    "Verif.Cache.defined_but_not_there",
    "Verif.Cache.fetching_raises",
    "Verif.Cache.start_right",
    "Verif.Cache.cache_hit_partial",
    "Verif.Cache.compiled_once",
    "Verif.Cache.marks_stay",
    "Verif.Cache.marked_unseen",
    "Verif.Cache.one_marks_for_all"
   ],
   "note": "proved if what can be used of a module includes the modules it was linked with, and no function to be compiled is repeated in a loaded module; refuted otherwise"
  },
  {
   "property": "C80",
   "status": "partial",
   "theorems": [
    "Verif.Scope.closure_variables_found_partial",
    "Verif.Scope.captured_found_partial",
    "Verif.Scope.all_found_partial",
    "Verif.Scope.found_is_used_partial",
    "Verif.Scope.assigned_are_bound_partial",
    "Verif.Scope.assigned_is_bound",
    "Verif.Scope.self_recursive_not_found",
    "Verif.Scope.nonlocal_not_found",
    "Verif.Scope.handler_name_leaks",
    "Verif.Scope.keyword_only_leaks",
    "Verif.Scope.later_target_leaks",
    "Verif.Scope.handler_name_not_assigned"
   ],
   "note": "proved for all nestings apart from the shapes of code listed in Sane and Tight; refuted for functions that call themselves, nonlocal, except-as names and keyword-only parameters"
  },
  {
   "property": "C81",
   "status": "partial",
   "theorems": [
    "Verif.Scope.no_variable_left_partial",
    "Verif.Scope.variable_in_object_partial",
    "Verif.Scope.only_variables_in_object_partial",
    "Verif.Scope.other_names_kept",
    "Verif.Scope.keyword_argument_left",
    "Verif.Scope.handler_left",
    "Verif.Scope.comprehension_reads_generator",
    "Verif.Scope.nested_default_reads_generator"
   ],
   "note": "proved apart from the shapes of code listed in Walked and Neat; refuted for keyword arguments, handlers, comprehension targets and defaults in nested functions; other names are kept in all code"
  },
  {
   "property": "C82",
   "status": "partial",
   "theorems": [
    "Verif.Scope.lookups_agree_partial",
    "Verif.Scope.other_lookups_agree",
    "Verif.Scope.no_assertion",
    "Verif.Scope.not_yet_defined",
    "Verif.Scope.parameter_ignored",
    "Verif.Scope.handler_named_like_function"
   ],
   "note": "proved unless the function's name is also a parameter or the name of a handler; refuted for those, and for functions whose definition was not executed"
  },
  {
   "property": "C83",
   "status": "partial",
   "theorems": [
    "Verif.Scope.default_right_partial",
    "Verif.Scope.default_of_local",
    "Verif.Scope.default_of_changed_global"
   ],
   "note": "proved for defaults without local variables; refuted for all others, which are None"
  },
  {
   "property": "C84",
   "status": "proved",
   "theorems": [
    "Verif.Native.function_does_what_it_means",
    "Verif.Native.built_function_does_what_it_means",
    "Verif.Native.function_ends",
    "Verif.Native.activation_inside_try_is_wrong",
    "Verif.Native.activation_inside_loop_is_refused"
   ],
   "note": "for all well-formed native expressions, and for everything the contexts build; the last two show why well-formedness is asked for"
  },
  {
   "property": "C85",
   "status": "partial",
   "theorems": [
    "Verif.Native.temporaries_never_destroyed_twice",
    "Verif.Native.temporaries_destroyed_exactly_once_partial",
    "Verif.Native.throwing_destructor_leaks"
   ],
   "note": "never twice is proved for all executions; exactly once unless a destructor throws, when those behind it leak"
  },
  {
   "property": "C86",
   "status": "partial",
   "theorems": [
    "Verif.Native.handler_destroys_once_partial",
    "Verif.Native.function_destroys_exception_once_partial",
    "Verif.Native.nested_handler_destroys_twice",
    "Verif.Native.handler_name_forgotten",
    "Verif.Native.chained_comparison_reads_dead_slot"
   ],
   "note": "proved for handlers whose body leaves the name alone; refuted for nested handlers of the same name and for chained comparisons of temporaries"
  },
  {
   "property": "C87",
   "status": "partial",
   "theorems": [
    "Verif.Builtins.all_as_in_python",
    "Verif.Builtins.any_loop_as_in_python",
    "Verif.Builtins.any_right_only_if",
    "Verif.Builtins.any_wrong",
    "Verif.Builtins.min_as_in_python",
    "Verif.Builtins.min_is_first_best",
    "Verif.Builtins.several_as_in_python",
    "Verif.Builtins.keyed_result_partial",
    "Verif.Builtins.key_called_twice",
    "Verif.Builtins.counting_key_wrong"
   ],
   "note": "all, and min and max except of several arguments with a key, are proved for all effects; any is all (right exactly for nonempty sequences of one truth value); with several arguments and a key the key is called twice and values leak"
  },
  {
   "property": "C88",
   "status": "partial",
   "theorems": [
    "Verif.ListOf.compiled_tuple_slice_partial",
    "Verif.ListOf.compiled_slice_of_empty_tuple_faults"
   ],
   "note": "slices with elements are right; every empty slice is a null pointer dereference"
  },
  {
   "property": "C89",
   "status": "partial",
   "theorems": [
    "Verif.HashTable.compiled_set_algebra_partial",
    "Verif.HashTable.intersection_update_with_itself",
    "Verif.HashTable.difference_update_with_itself",
    "Verif.HashTable.union_with_a_list_raises",
    "Verif.HashTable.union_of_nothing_is_the_set_itself",
    "Verif.HashTable.union_of_something_is_new",
    "Verif.HashTable.symmetric_difference_with_a_list",
    "Verif.HashTable.symmetric_difference_not_algebra",
    "Verif.HashTable.object_elements_disagree"
   ],
   "note": "Every program of compiled and interpreted calls on typed elements, except the calls that the code gets wrong, which are refuted: intersection_update and difference_update with the set itself, functional methods with a list or with no argument, symmetric_difference with short lists that repeat or long lists, and object elements with a negative hash"
  },
  {
   "property": "C90",
   "status": "proved",
   "theorems": [
    "Verif.TypeGroup.never_raises",
    "Verif.TypeGroup.group_is_class",
    "Verif.TypeGroup.same_group_iff",
    "Verif.TypeGroup.returned_registers",
    "Verif.TypeGroup.registered_sees_registered",
    "Verif.TypeGroup.constants_ungrouped",
    "Verif.TypeGroup.group_persists",
    "Verif.TypeGroup.call_bounded",
    "Verif.TypeGroup.call_goes_on"
   ],
   "note": "For every graph, number of threads and schedule; walks over objects are given and do not change; deserialized groups are not modelled"
  },
  {
   "property": "C91",
   "status": "proved",
   "theorems": [
    "Verif.TypeGroup.identityHash_looksLike",
    "Verif.TypeGroup.identityHash_any_history",
    "Verif.TypeGroup.indices_looksLike"
   ],
   "note": "Between any two processes in which the objects look alike, for any hash function"
  },
  {
   "property": "C92",
   "status": "partial",
   "theorems": [
    "Verif.TypeGroup.same_hash_same_view",
    "Verif.TypeGroup.same_hash_same_name",
    "Verif.TypeGroup.same_group_different_hash",
    "Verif.TypeGroup.poison_iff_group",
    "Verif.TypeGroup.poison_reason",
    "Verif.TypeGroup.typesEquivalent_partial",
    "Verif.TypeGroup.poisoned_types_equivalent",
    "Verif.TypeGroup.unrelated_types_equivalent",
    "Verif.TypeGroup.codeWalk_same_partial",
    "Verif.TypeGroup.codeWalk_ignores",
    "Verif.TypeGroup.star_and_starstar_same_walk",
    "Verif.TypeGroup.funcWalk_same"
   ],
   "note": "With a hash without collisions, for hashes that are not poison and up to what walks report; refuted: types in groups that cannot be ordered are all equivalent to each other, and walks over code objects leave out the flags that tell *args from **kwargs"
  },
  {
   "property": "C93",
   "status": "proved",
   "theorems": [
    "Verif.Conv.conversion_monotone",
    "Verif.Conv.conversion_unambiguous"
   ],
   "note": "For every environment of float operations and explicit conversions; numpy, classes, alternatives and dictionaries as targets are not modelled"
  },
  {
   "property": "C94",
   "status": "proved",
   "theorems": [
    "Verif.Conv.oneOf_takes_first_at_least_level",
    "Verif.Conv.oneOf_accepts",
    "Verif.Conv.oneOf_accepts_in_any_order",
    "Verif.Conv.made_oneOf_accepts",
    "Verif.Conv.oneOf_flat",
    "Verif.Conv.oneOf_has_no_oneOf",
    "Verif.Conv.oneOf_nesting",
    "Verif.Conv.oneOf_made_once",
    "Verif.Conv.oneOf_default"
   ],
   "note": "The quick test pyValCouldBeOfType is proved never to skip an alternative that accepts"
  },
  {
   "property": "C95",
   "status": "partial",
   "theorems": [
    "Verif.Conv.signature_is_type",
    "Verif.Conv.oneOf_keeps_type",
    "Verif.Conv.read_and_convert_back",
    "Verif.Conv.read_and_convert_back_oneOf_partial",
    "Verif.Conv.conversion_restored",
    "Verif.Conv.true_becomes_one",
    "Verif.Conv.oneOf_not_restored",
    "Verif.Conv.zero_loses_sign"
   ],
   "note": "Without constants the type is kept; with constants when none is ambiguous; refuted: OneOf(1, bool) stores True as the integer 1, OneOf(0.0, float) stores -0.0 as 0.0"
  },
  {
   "property": "C96",
   "status": "partial",
   "theorems": [
    "Verif.Conv.upcast_keeps_content_partial",
    "Verif.Conv.const_explicit",
    "Verif.Conv.upcast_lossless",
    "Verif.Conv.upcast_float_lossless",
    "Verif.Conv.wide_int_wraps",
    "Verif.Conv.wide_int_five",
    "Verif.Conv.wide_int_is_constant",
    "Verif.Conv.content_not_kept",
    "Verif.Conv.int_upcast_lossy",
    "Verif.Conv.int32_upcast_lossy",
    "Verif.Conv.implicit_lists_in_tuples",
    "Verif.Conv.named_tuple_refuses_tuple"
   ],
   "note": "For integers of 64 bits, and up to rounding of integers that become floats; refuted: longer integers lose their high bits without an error, and integers that upcast to floats are rounded"
  },
  {
   "property": "C97",
   "status": "proved",
   "theorems": [
    "Verif.Conv.conversion_typed",
    "Verif.Conv.dflt_has",
    "Verif.Conv.fits_cast"
   ],
   "note": "Given that the typed objects inside the value are values of their types"
  },
  {
   "property": "C98",
   "status": "partial",
   "theorems": [
    "Verif.Compare.comparison_is_lexicographic",
    "Verif.Compare.operators_are_consistent",
    "Verif.Compare.less_is_transitive",
    "Verif.Compare.equal_means_same",
    "Verif.Compare.equal_values_compare_alike",
    "Verif.Compare.nan_equals_every_float",
    "Verif.Compare.nan_breaks_equality"
   ],
   "note": "For values without NaN, as stated; with NaN refuted beyond what IEEE asks: inside a container NaN equals every float"
  },
  {
   "property": "C99",
   "status": "partial",
   "theorems": [
    "Verif.Compare.equal_values_hash_equally",
    "Verif.Compare.hash_is_never_minus_one",
    "Verif.Compare.nan_breaks_equality"
   ],
   "note": "Given that hashes of text are functions of its content (C21 for strings); refuted with NaN, since (nan,) equals (1.0,)"
  },
  {
   "property": "C100",
   "status": "partial",
   "theorems": [
    "Verif.Compare.compiled_equality_agrees_partial",
    "Verif.Compare.compiled_comparison_agrees_partial",
    "Verif.Compare.compiled_hash_agrees_partial",
    "Verif.Compare.compiled_nan_is_not_unequal",
    "Verif.Compare.compiled_nan_in_tuples",
    "Verif.Compare.oneof_equality_disagrees",
    "Verif.Compare.oneof_ordering_disagrees",
    "Verif.Compare.compiled_none_is_not_at_most_none",
    "Verif.Compare.compiled_hash_of_minus_one_disagrees"
   ],
   "note": "Proved without NaN and None orderings, with OneOfs of distinct kinds for equality and no OneOfs for order, and for hashes where no element of a TupleOf hashes to -1; refuted outside these"
  },
  {
   "property": "C101",
   "status": "proved",
   "theorems": [
    "Verif.Bytes.find_least",
    "Verif.Bytes.rfind_greatest",
    "Verif.Bytes.count_occurrences",
    "Verif.Bytes.single_is_byte",
    "Verif.Bytes.index_raises_iff",
    "Verif.Bytes.contains_iff",
    "Verif.Bytes.item_index",
    "Verif.Bytes.slice_spec",
    "Verif.Bytes.affix_spec",
    "Verif.Bytes.partition_spec",
    "Verif.Bytes.rpartition_spec",
    "Verif.Bytes.partition_empty"
   ],
   "note": "For the methods as called with bytes arguments"
  },
  {
   "property": "C102",
   "status": "partial",
   "theorems": [
    "Verif.Bytes.split_partial",
    "Verif.Bytes.rsplit_partial",
    "Verif.Bytes.split_no_separator",
    "Verif.Bytes.split_words_partial",
    "Verif.Bytes.rsplit_words_partial",
    "Verif.Bytes.isspace_white",
    "Verif.Bytes.splitlines_spec",
    "Verif.Bytes.join_spec",
    "Verif.Bytes.join_of_split",
    "Verif.Bytes.split_empty_zero",
    "Verif.Bytes.split_keeps_white"
   ],
   "note": "Refuted: empty bytes split with a limit of 0, and words split with a limit where white space is doubled; proved elsewhere"
  },
  {
   "property": "C103",
   "status": "partial",
   "theorems": [
    "Verif.Bytes.all_predicates",
    "Verif.Bytes.case_predicates",
    "Verif.Bytes.case_maps",
    "Verif.Bytes.strip_spec",
    "Verif.Bytes.concat_mult_spec",
    "Verif.Bytes.just_spec",
    "Verif.Bytes.center_partial",
    "Verif.Bytes.center_differs",
    "Verif.Bytes.zfill_spec",
    "Verif.Bytes.expandtabs_spec",
    "Verif.Bytes.replace_spec",
    "Verif.Bytes.translate_spec",
    "Verif.Bytes.maketrans_spec"
   ],
   "note": "All but center, which is refuted for every odd width with an odd number of bytes to fill and proved elsewhere"
  },
  {
   "property": "C104",
   "status": "partial",
   "theorems": [
    "Verif.Bytes.compare_partial",
    "Verif.Bytes.equals_python",
    "Verif.Bytes.hash_equal_partial",
    "Verif.Bytes.compare_iff",
    "Verif.Bytes.normal_results",
    "Verif.Bytes.empty_not_equal",
    "Verif.Bytes.split_join_not_normal",
    "Verif.Bytes.other_not_normal"
   ],
   "note": "Proved except where the null pointer meets an object of length 0; there it is refuted, and which operations make such objects is shown"
  },
  {
   "property": "C105",
   "status": "partial",
   "theorems": [
    "Verif.Str.float_literal",
    "Verif.Str.float_plain_partial",
    "Verif.Str.two_points_accepted",
    "Verif.Str.bare_point_accepted",
    "Verif.Str.nul_accepted",
    "Verif.Str.long_literal_cut",
    "Verif.Str.other_digits_refused",
    "Verif.Bytes.int_of_bytes_partial",
    "Verif.Bytes.float_of_bytes",
    "Verif.Bytes.float_bytes_partial",
    "Verif.Bytes.unicode_space_accepted"
   ],
   "note": "Every ASCII literal of up to 48 characters is read as Python reads it, and texts with at most one point, one exponent behind it and no NUL are accepted exactly if Python accepts them; refuted: two points, a point alone, characters behind a NUL, more than 48 characters, digits of other scripts, and Unicode white space in bytes. What strtod returns is not modelled"
  },
  {
   "property": "C106",
   "status": "partial",
   "theorems": [
    "Verif.Arr.get_total",
    "Verif.Arr.item_total",
    "Verif.Arr.row_view",
    "Verif.Arr.diagonal_view",
    "Verif.Arr.set_entry",
    "Verif.Arr.row_write",
    "Verif.Arr.diagonal_write",
    "Verif.Arr.item_write",
    "Verif.Arr.transpose_entries",
    "Verif.Arr.transpose_independent",
    "Verif.Arr.clone_entries",
    "Verif.Arr.flatten_entries",
    "Verif.Arr.make_entries",
    "Verif.Arr.full_entries",
    "Verif.Arr.full_array",
    "Verif.Arr.negative_raises",
    "Verif.Arr.identity_entries",
    "Verif.Arr.setRow_entries",
    "Verif.Arr.setRow_raises",
    "Verif.Arr.get_overruns",
    "Verif.Arr.get_unchecked"
   ],
   "note": "All of it for a[i], m[i] and the copies, in every state reachable by the operations; refuted for get and set, which do not check their indices. The public constructors that take an offset and strides are outside the reachable states"
  },
  {
   "property": "C107",
   "status": "partial",
   "theorems": [
    "Verif.Arr.iop_entries",
    "Verif.Arr.row_iop",
    "Verif.Arr.unop_entries",
    "Verif.Arr.op_entries",
    "Verif.Arr.map_entries",
    "Verif.Arr.arr_mismatch",
    "Verif.Arr.op_leaves",
    "Verif.Arr.iop_stops",
    "Verif.Arr.mat_iop_entries",
    "Verif.Arr.mat_unop_entries",
    "Verif.Arr.mat_op_entries",
    "Verif.Arr.mat_map_entries",
    "Verif.Arr.mat_mismatch",
    "Verif.Arr.iaddFloat_partial",
    "Verif.Arr.addFloat_partial",
    "Verif.Arr.addFloat_faults",
    "Verif.Arr.iadd_wrong_cell"
   ],
   "note": "All element operations on all reachable arrays and matrices, with sharing; refuted for + on float arrays of different stride, whose strides are swapped: a + m.diagonal() writes outside the list. An assigning operation that raises half way leaves the first elements changed"
  },
  {
   "property": "C108",
   "status": "partial",
   "theorems": [
    "Verif.Arr.dot_entries",
    "Verif.Arr.dot_mismatch",
    "Verif.Arr.sum_entries",
    "Verif.Arr.matmul_entries",
    "Verif.Arr.matmul_mismatch",
    "Verif.Arr.matmul_empty",
    "Verif.Arr.mulVec_entries",
    "Verif.Arr.vecMul_entries",
    "Verif.Arr.invert_entries",
    "Verif.Arr.invert_refuses"
   ],
   "note": "For all non-empty shapes and layouts, given that the library does what its documentation says; refuted when the inner dimension or the number of columns is zero, where the library is called with an illegal leading dimension"
  },
  {
   "property": "C109",
   "status": "partial",
   "theorems": [
    "Verif.CConv.certain_conversion_succeeds",
    "Verif.CConv.conversion_stores_the_type",
    "Verif.CConv.refused_conversion_is_refused_partial",
    "Verif.CConv.refused_conversion_fails",
    "Verif.CConv.refused_but_accepted",
    "Verif.CConv.literal_loses_fraction"
   ],
   "note": "Promises are kept and nothing uninitialised is reported, for all types of the model at all levels; a refusal is one of the interpreter too except at the level Implicit, where it is refuted for lists inside tuples; refuted for number literals, for which the test is made with its arguments exchanged"
  },
  {
   "property": "C110",
   "status": "partial",
   "theorems": [
    "Verif.CConv.compiled_converts_as_interpreted_partial",
    "Verif.CConv.records_convert_as_interpreted",
    "Verif.CConv.infinite_float_differs",
    "Verif.CConv.nan_truth_differs",
    "Verif.CConv.single_rounding_differs",
    "Verif.CConv.constant_differs",
    "Verif.CConv.none_differs",
    "Verif.CConv.bytes_differ",
    "Verif.CConv.truth_differs",
    "Verif.CConv.text_differs",
    "Verif.CConv.shape_differs",
    "Verif.CConv.copy_differs",
    "Verif.CConv.signature_differs",
    "Verif.CConv.refused_but_accepted"
   ],
   "note": "The same result whenever no pair of types met on the way is on a list of eleven odd kinds, and without that condition for numbers, text, bytes, None and tuples of them at the levels of function arguments; for the kinds on the list the difference is proved with a witness"
  },
  {
   "property": "C111",
   "status": "partial",
   "theorems": [
    "Verif.Typed.read_is_typed_partial",
    "Verif.Typed.reading_ends",
    "Verif.Typed.nothing_undefined_partial",
    "Verif.Typed.mixed_lists",
    "Verif.Typed.raw_memory",
    "Verif.Typed.unsorted_keys",
    "Verif.Typed.twice_in_a_set",
    "Verif.Typed.undefined_reads"
   ],
   "note": "Reading any bytes as any type ends; what is read is a value of the type, for types with one kind of mutable container and no raw memory of booleans or choices; nothing undefined happens for types without text, dictionaries, sets and lists of int64 when no number is too long; for the others each way it fails is proved with a witness"
  },
  {
   "property": "C112",
   "status": "partial",
   "theorems": [
    "Verif.Typed.Evolve.written_is_message",
    "Verif.Typed.Evolve.written_is_skipped",
    "Verif.Typed.Evolve.versions_read_partial",
    "Verif.Typed.Evolve.added_fields",
    "Verif.Typed.Evolve.dropped_fields",
    "Verif.Typed.Evolve.plain_records",
    "Verif.Typed.Evolve.plain_records_refused",
    "Verif.Typed.Evolve.dropped_case",
    "Verif.Typed.Evolve.lost_object"
   ],
   "note": "Proved for any two versions whose common places are not mutable containers, with added and dropped fields of any type; a TupleOf of records of numbers, a dropped case of a OneOf and an object first met in a dropped field are proved to go wrong"
  },
  {
   "property": "C113",
   "status": "partial",
   "theorems": [
    "Verif.PyCmp.equality_partial",
    "Verif.PyCmp.equality_right_partial",
    "Verif.PyCmp.order_partial",
    "Verif.PyCmp.order_right_partial",
    "Verif.PyCmp.Wrong.text_backwards",
    "Verif.PyCmp.Wrong.bytes_backwards",
    "Verif.PyCmp.Wrong.bytes_twisted",
    "Verif.PyCmp.Wrong.bytes_circle",
    "Verif.PyCmp.Wrong.text_equal_memcmp",
    "Verif.PyCmp.Wrong.text_before_numbers",
    "Verif.PyCmp.Wrong.none_after_all",
    "Verif.PyCmp.Wrong.large_integers",
    "Verif.PyCmp.Wrong.equality_not_transitive",
    "Verif.PyCmp.Wrong.unsigned_negative",
    "Verif.PyCmp.Wrong.rounded",
    "Verif.PyCmp.Wrong.nan_greater"
   ],
   "note": "Equality is proved for all these types when numbers fit in 64 bits and none beyond 2 ** 53 meets a float; order is proved for numbers and nested lists and tuples of them without NaN; order of text and bytes is proved to be backwards, and large integers, unsigned numbers, NaN and objects of other kinds to go wrong"
  },
  {
   "property": "C114",
   "status": "partial",
   "theorems": [
    "Verif.TypeFn.runs_once",
    "Verif.TypeFn.answers_stay",
    "Verif.TypeFn.inner_call",
    "Verif.TypeFn.all_defined_partial",
    "Verif.TypeFn.made_again",
    "Verif.TypeFn.keyword_order",
    "Verif.TypeFn.item_order",
    "Verif.TypeFn.same_call",
    "Verif.TypeFn.Wrong.equal_arguments",
    "Verif.TypeFn.Wrong.first_decides",
    "Verif.TypeFn.Wrong.position_or_name",
    "Verif.TypeFn.Wrong.interrupted_forever",
    "Verif.TypeFn.Wrong.orphaned",
    "Verif.TypeFn.Wrong.forward_given",
    "Verif.TypeFn.Wrong.dict_as_tuple"
   ],
   "note": "Running once, the lasting answer, the forward of an inner call, making a type again and the order of keywords are proved for all functions and programs; that no forward stays undefined is proved when no function fails, and proved false when one is interrupted or raises after another has got its forward; arguments equal in Python but different (1, 1.0, True) share a type, the same argument by position and by name does not"
  },
  {
   "property": "C115",
   "status": "partial",
   "theorems": [
    "Verif.Ast.round_trip_partial",
    "Verif.Ast.same_program_partial",
    "Verif.Ast.comes_back_well_formed_partial",
    "Verif.Ast.settles_partial",
    "Verif.Ast.stripped_back_partial",
    "Verif.Ast.same_stripped_partial",
    "Verif.Ast.Wrong.comma_breaks",
    "Verif.Ast.Wrong.slice_and_index_breaks",
    "Verif.Ast.Wrong.walrus_refused",
    "Verif.Ast.Wrong.refused_around",
    "Verif.Ast.Wrong.relative_import_refused",
    "Verif.Ast.Wrong.number_wraps",
    "Verif.Ast.Wrong.ellipsis_place"
   ],
   "note": "Proved for trees of all sizes in Python 3.7 to 3.10, except for the forms of which it is proved false: subscriptions with a comma before 3.9, assignment expressions, relative imports without a module, whole numbers beyond 64 bits in 3.7; match statements and type-ignore comments are left out of the grammar"
  },
  {
   "property": "C116",
   "status": "partial",
   "theorems": [
    "Verif.Source.guarded_right_partial",
    "Verif.Source.found_partial",
    "Verif.Source.found_own_partial",
    "Verif.Source.picked_partial",
    "Verif.Source.picked_own",
    "Verif.Source.only_one",
    "Verif.Source.Wrong.swapped",
    "Verif.Source.Wrong.swapped_comprehension",
    "Verif.Source.Wrong.repeated",
    "Verif.Source.Wrong.iterable_refused",
    "Verif.Source.Wrong.default_refused",
    "Verif.Source.Wrong.picked_other",
    "Verif.Source.Wrong.never_own",
    "Verif.Source.Wrong.default_on_line"
   ],
   "note": "Proved for plain programs of all sizes, against an order of compilation that is stated in Source/Spec; proved false for functions in assignment targets next to functions in the value, in comprehension conditions next to the element, in default values and first iterables, for equal code objects, and for lambdas on a line that differ in the order of their constants. The search for the nodes on a line is not modelled."
  },
  {
   "property": "C117",
   "status": "partial",
   "theorems": [
    "Verif.PyDict.dict_partial",
    "Verif.PyDict.constDict_partial",
    "Verif.PyDict.dictRight_partial",
    "Verif.PyDict.Wrong.float_keys",
    "Verif.PyDict.Wrong.keys_fall_together",
    "Verif.PyDict.Wrong.large_keys",
    "Verif.PyDict.Wrong.true_keys",
    "Verif.PyDict.Wrong.constDict_refuses",
    "Verif.PyDict.Wrong.constDict_not_itself"
   ],
   "note": "Proved for text, bytes objects, booleans and integers of any width as keys and all value types of C113, with keys on the other side that the conversion does not change; proved false for floats, integers that are too large and integers against boolean keys, and for ConstDicts with integers of less than 64 bits. Keys with floats or containers in them are not modelled."
  },
  {
   "property": "C118",
   "status": "partial",
   "theorems": [
    "Verif.Returns.trivial_sound_partial",
    "Verif.Returns.promised_partial",
    "Verif.Returns.nearest",
    "Verif.Returns.open_iff",
    "Verif.Returns.accepted",
    "Verif.Returns.Wrong.only_first_compared",
    "Verif.Returns.Wrong.promise_broken",
    "Verif.Returns.Wrong.class_for_instance",
    "Verif.Returns.Wrong.value_refused",
    "Verif.Returns.Wrong.subclass_refused",
    "Verif.Returns.Wrong.oneOf_refused"
   ],
   "note": "Which type is enforced, when none is and when there is no exception are proved for all hierarchies; that the promises are kept is proved when no stated type is a union or a class object compared with another, and proved false otherwise: of two unions only the first alternative is compared, and a class object passes for an instance"
  },
  {
   "property": "C119",
   "status": "partial",
   "theorems": [
    "Verif.Returns.expected_right_partial",
    "Verif.Returns.nothing_said",
    "Verif.Returns.never_unspecified",
    "Verif.Returns.Wrong.expects_too_much",
    "Verif.Returns.Wrong.forgets_the_silent",
    "Verif.Returns.Wrong.expects_an_error",
    "Verif.Returns.Wrong.keywords_lost",
    "Verif.Returns.Wrong.keywords_alone"
   ],
   "note": "Proved when every overload that may match states a type or has one stated above; proved false where overloads state nothing: the compiler then expects the types of the other overloads, or an exception that does not come"
  },
  {
   "property": "C120",
   "status": "partial",
   "theorems": [
    "Verif.Ptr.add_right",
    "Verif.Ptr.sub_compiled",
    "Verif.Ptr.sub_interpreted_partial",
    "Verif.Ptr.order_right",
    "Verif.Ptr.item_right",
    "Verif.Ptr.member_same",
    "Verif.Ptr.member_right",
    "Verif.Ptr.bool_right",
    "Verif.Ptr.Wrong.sub_negative",
    "Verif.Ptr.Wrong.sub_one",
    "Verif.Ptr.Wrong.sub_empty",
    "Verif.Ptr.Wrong.float_index",
    "Verif.Ptr.Wrong.large_index",
    "Verif.Ptr.Wrong.str_decimal"
   ],
   "note": "Addition, order, items, members and truth are proved for all arrays, compiled or not, and the difference for compiled code; the difference in the interpreter is proved where it is not negative and proved false wherever it is negative and elements have more than one byte. Elements with reference counts are not modelled."
  },
  {
   "property": "C121",
   "status": "partial",
   "theorems": [
    "Verif.ModuleOf.freeze_sound",
    "Verif.ModuleOf.frozen_complete_partial",
    "Verif.ModuleOf.member_stays",
    "Verif.ModuleOf.set_defines",
    "Verif.ModuleOf.forward_kept",
    "Verif.ModuleOf.frozen_stays",
    "Verif.ModuleOf.not_member",
    "Verif.ModuleOf.Wrong.grows_frozen",
    "Verif.ModuleOf.Wrong.alias_never_freezes",
    "Verif.ModuleOf.Wrong.alias_of_int",
    "Verif.ModuleOf.Wrong.one_forward_two_types",
    "Verif.ModuleOf.Wrong.foreign_forward",
    "Verif.ModuleOf.Wrong.defined_directly"
   ],
   "note": "That freezing means that all of the module's own forwards are defined, that members stay, and that forwards are defined as what is assigned is proved for all histories; that nothing undefined is in a frozen module is proved where the program makes forwards only through the module, and proved false otherwise. Reading a frozen module can add a member, also proved."
  },
  {
   "property": "C122",
   "status": "partial",
   "theorems": [
    "Verif.Code.instantiate_writes",
    "Verif.Code.instantiate_again",
    "Verif.Code.instantiate_refused",
    "Verif.Code.roots_disjoint_partial",
    "Verif.Code.import_right",
    "Verif.Code.names_right",
    "Verif.Code.read_right",
    "Verif.Code.round_trip",
    "Verif.Code.root_of_directory",
    "Verif.Code.from_path_right",
    "Verif.Code.Wrong.from_path_does_nothing",
    "Verif.Code.Wrong.relative_never",
    "Verif.Code.Wrong.native_overwrites",
    "Verif.Code.Wrong.hides_local",
    "Verif.Code.Wrong.escapes",
    "Verif.Code.Wrong.half_written",
    "Verif.Code.Wrong.hidden_read",
    "Verif.Code.Wrong.slash_at_end",
    "Verif.Code.Wrong.one_name_two_files",
    "Verif.Code.Wrong.second_without_directory"
   ],
   "note": "Proved for file maps whose paths have no empty, . or .. parts and do not clash, in empty directories; proved false for paths that leave the directory, for codebases made from a directory, which are never put where modules are looked for, and for codebases marked as native. Newlines, encodings and packages without __init__.py are not modelled."
  },
  {
   "property": "C123",
   "status": "partial",
   "theorems": [
    "Verif.Mro.Obj.super_single",
    "Verif.Mro.Obj.super_next_partial",
    "Verif.Mro.Obj.super_compiled_same",
    "Verif.Mro.Obj.super_gives_up",
    "Verif.Mro.Obj.super_diamond",
    "Verif.Mro.Obj.super_mixin"
   ],
   "note": "Proved for all hierarchies in which no class has two bases, and in all hierarchies where the class that comes next defines the method itself; what compiled code finds is always what the interpreter finds. Proved false in diamonds where the next class only inherits the method, and, for compiled code, wherever the next class does not have it. Only methods are modelled, not properties, class methods or static methods."
  },
  {
   "property": "C124",
   "status": "partial",
   "theorems": [
    "Verif.Macro.call_right",
    "Verif.Macro.source_kept",
    "Verif.Macro.fileName_inj",
    "Verif.Macro.no_collision_partial",
    "Verif.Macro.missing_right",
    "Verif.Macro.Wrong.collide",
    "Verif.Macro.Wrong.forgets",
    "Verif.Macro.Wrong.unbound_local",
    "Verif.Macro.Wrong.nested_error",
    "Verif.Macro.Wrong.last_line"
   ],
   "note": "What a call gives and that its source is kept while no caches are cleared is proved for all histories; that calls do not collide is proved where every macro is made from a function at another place, and proved false for all macros at one place; that a missing name is named is proved for global names and proved false for local ones and for nested macros. Compiling and executing Python are parameters."
  },
  {
   "property": "C125",
   "status": "partial",
   "theorems": [
    "Verif.Iters.items_in_order",
    "Verif.Iters.calls_as_python",
    "Verif.Iters.fixed_as_python",
    "Verif.Iters.loop_first_partial",
    "Verif.Iters.loop_restarts",
    "Verif.Iters.bytes_loop_fails",
    "Verif.Iters.string_next_endless"
   ],
   "note": "That calls give the items in order is proved for all sequences, and for lists that change it is proved exactly when calls give what Python's give: not if a list grows beyond the number of calls after the end. Loops over iterators are right for new iterators of lists and proved false for all others: they start again for lists, and fail for bytes."
  },
  {
   "property": "C126",
   "status": "partial",
   "theorems": [
    "Verif.RawBytes.to_bytes_right",
    "Verif.RawBytes.to_bytes_compiled_partial",
    "Verif.RawBytes.from_bytes_right_partial",
    "Verif.RawBytes.round_trip_partial",
    "Verif.RawBytes.refused",
    "Verif.RawBytes.tuple_never",
    "Verif.RawBytes.compiled_empty",
    "Verif.RawBytes.no_size",
    "Verif.RawBytes.not_bytes",
    "Verif.RawBytes.too_many"
   ],
   "note": "Proved for all lists with fewer than 2**31 elements that have a size, compiled code included if they are not empty; proved false for all tuples, which fromBytes never makes, for what is empty in compiled code, for elements without bytes, for arguments that are not bytes, and for longer lists."
  },
  {
   "property": "C127",
   "status": "partial",
   "theorems": [
    "Verif.Cell.cell_right_partial",
    "Verif.Cell.step_right",
    "Verif.Cell.eq_right",
    "Verif.Cell.compiled_clear_dangles",
    "Verif.Cell.compiled_clear_nothing",
    "Verif.Cell.failing_set",
    "Verif.Cell.ne_raises"
   ],
   "note": "Proved for all histories in which values can be converted and cells are cleared in the interpreter; proved false for clearing in compiled code, after which a cell is still set to what was destroyed, for values that cannot be converted, and for !=, which raises."
  },
  {
   "property": "C128",
   "status": "partial",
   "theorems": [
    "Verif.TempRef.ended_partial",
    "Verif.TempRef.reference_until",
    "Verif.TempRef.kept_alive",
    "Verif.TempRef.copy_right",
    "Verif.TempRef.copy_stays",
    "Verif.TempRef.reference_right",
    "Verif.TempRef.user_sees_partial",
    "Verif.TempRef.same_line",
    "Verif.TempRef.no_statements",
    "Verif.TempRef.back_to_first_line",
    "Verif.TempRef.settrace_forgets",
    "Verif.TempRef.thread_loses"
   ],
   "note": "References last until the frame is left, gets an exception or comes to a statement on another line: proved for all histories of one thread without sys.settrace; that they last until then and are copies afterwards, and that containers stay alive, is proved for all histories. That this is the end of the statement is proved false for statements on one line, statements over several lines and code that is no function; debuggers see the same events in all histories of one thread, proved false for two threads."
  },
  {
   "property": "C129",
   "status": "partial",
   "theorems": [
    "Verif.Gil.never_fatal",
    "Verif.Gil.uses_with_lock",
    "Verif.Gil.one_at_a_time",
    "Verif.Gil.gives_up",
    "Verif.Gil.can_return",
    "Verif.Gil.waits_for_loop",
    "Verif.Gil.fork_starves"
   ],
   "note": "Proved for all schedules as long as the helper thread runs or is switched off; proved false in a process in which it does not run although it counts as active, as after a fork: there compiled code keeps the lock."
  },
  {
   "property": "C130",
   "status": "partial",
   "theorems": [
    "Verif.DateRange.daterange_right_partial",
    "Verif.DateRange.other_refused",
    "Verif.DateRange.zero_endless",
    "Verif.DateRange.reversed_wrong",
    "Verif.DateRange.reversed_is",
    "Verif.DateRange.reversed_weeks",
    "Verif.DateRange.reversed_first_days",
    "Verif.DateRange.reversed_months"
   ],
   "note": "Counting up is proved for all dates and all positive step sizes, termination included; proved false for steps of no days, which never end, and in reverse, where the end is there and the start is not (reversed_is and reversed_weeks say exactly which dates are there), and where months and years are not implemented."
  },
  {
   "property": "C131",
   "status": "partial",
   "theorems": [
    "Verif.SubclassOf.issubclass_known_partial",
    "Verif.SubclassOf.issubclass_both_partial",
    "Verif.SubclassOf.to_subclass_of_partial",
    "Verif.SubclassOf.to_known_base",
    "Verif.SubclassOf.to_known_other",
    "Verif.SubclassOf.to_known_same_partial",
    "Verif.SubclassOf.class_member_partial",
    "Verif.SubclassOf.issubclass_wrong",
    "Verif.SubclassOf.class_member_wrong"
   ],
   "note": "Proved for all classes whose class members do not contradict each other; proved false for those that do, for class members of a second base, and for the conversion to a type the static class is a subclass of, which takes any subclass as that type. Class itself and alternatives are not modelled."
  }
 ]
}