# ID | status | namespace:theorem, theorem, ... | note
C32 | proved | Chrono.Props:days_roundtrip, date_roundtrip, civil_is_nth_day, civil_is_nth_day_back, days_of_next, date_order, dayOfYear_spec, fromDaysSinceEpoch_spec | unbounded integers instead of 64-bit
C33 | partial | Chrono.Props:weekday_partial, weekday_nth_partial, weekday_mod, nthDow_partial, nthDow_error, weekday_before_epoch, nthDow_before_epoch | false before 1970 (refuted with witnesses); proved from 1970 on and modulo 7 everywhere
C34 | partial | Chrono.Props:next_spec, previous_spec, nextWeekday_spec, lastWeekday_wrong, lastWeekday_partial, nextMonthStart_spec, lastDayOfMonth_spec, daysInMonth_spec, nextMonth_spec, nextYear_spec, quarter_spec, daysUntilEnd_spec | everything but lastWeekday is proved; lastWeekday is refuted
C35 | proved | Chrono.Props:fixed_roundtrip_ts, fixed_roundtrip_dt, fixed_monotone, dt_add_sub | whole seconds, exact arithmetic
C36 | partial | Chrono.Props:us_roundtrip_partial, dst_roundtrip_gen, nonexistent_iff_partial, switch_roundtrip_partial, switch_fold_partial, switch_fold_value, dst_fold_partial, lastWeekdayOfMonth_spec, dst_end_off_by_one, fold_check_too_weak | round trip proved for US zones from 1947 on; boundary instant and fold check refuted
C51 | partial | Chrono.Props:date_construct_partial, date_construct_negative | negative components are accepted (refuted)
C28 | partial | Arith.Props:compiled_floordiv, floordiv_representable, compiled_mod_partial, compiled_mod_narrow, mod_of_int64_min, mod_refuted, divmod_law_partial, divmod_law_refuted, zero_division, ring_ops, inRange_congr_unique | The code violates the property for INT64_MIN % negative (wrong sign, mod_refuted); every other operand pair of every integer type is proved.
C29 | partial | Arith.Props:compiled_agrees_partial, floordiv_disagreement, wide_shift_undefined, no_ub | Integer operators only; the code disagrees on INT64_MIN // -1, and shift counts of 64 or more are undefined C++. Float operators are not modelled.
C30 | partial | Arith.Props:lshift_is_mul, negative_shift, rshift_unsigned, rshift_signed_partial, rshift_refuted | The code violates the property: right shift of negatives rounds towards zero; the exact set of operands where it agrees with Python is proved.
C31 | proved | Arith.Props:promotion_tables_equal, promotion_join, promotion_rule, mixed_agrees_partial | The eleven arithmetic types are the whole domain, proved by cases.
C01 | proved | SortedDict.Props:sorted_dict_is_map, iter_keys | Every history of calls, any strict weak comparator. Comparators with side effects or that raise are not modelled; a mutation during iteration is not modelled.
C02 | proved | SortedDict.Props:sorted_dict_never_breaks, depth_irrelevant, invariants_hold | Recursion depth is bounded by a multiple of the history length; the C stack itself is not modelled.
C03 | partial | SortedDict.Props:height_bound_partial, balance_refuted, no_logarithmic_bound | The code violates the property: a zig-zag insertion order gives a tree of height n/2. The tight upper bound (n+3)/2 is proved.
C04 | proved | HashTable:dict_is_ordered_map | every lawful key type and every history that never holds more than 2^28 entries; pointer identity and reference counts are not modelled
C05 | proved | HashTable:dict_never_hangs, probe_visits_every_index, reachable_has_empty, pick_hangs | up to 2^28 live entries; pick_hangs shows that the size computation loops for ever above that
C06 | proved | HashTable:dict_is_ordered_map | the answers of the items operation are the insertion order
C09 | partial | HashTable:compiled_agrees_partial, object_keys_disagree, object_keys_disagree_reverse, object_keys_nonneg | Proved for typed keys over all interleavings of the Dict calls; the code violates the property for object keys with a negative hash.
C52 | proved | HashTable:memory_bounded | in entries, not bytes
C07 | partial | HashTable:set_algebra_partial, intersection_update_wrong, intersection_update_not_algebra, intersection_update_partial, isdisjoint_wrong, python_comparison_wrong, python_subset_is_overlap, python_superset_ok | Every program over any number of Set objects, except intersection_update with another Set(T) and s.isdisjoint(s) for empty s, which the code gets wrong (refuted). Comparison ==, <= with Python sets is refuted too.
C08 | partial | HashTable:dict_eq_extensional, keys_view_partial, keys_view_ignores_keys | Equality of dicts is proved; keys views compare only their sizes (refuted).
C39 | partial | Sorting.Props:sort_sorts, sort_permutes, sort_key_partial, sort_key_refuted | sort without a key is proved for every order and seed; with a key the code compares values (not keys) with ==, so the result is ordered by key only if equal values have equivalent keys (refuted otherwise). Comparisons that raise are not modelled.
C40 | proved | Sorting.Props:searchSorted_spec, searchSorted_absent, searchSorted_fails_only_if_not_total | Returns the insertion point when absent although the docstring says -1.
C43 | partial | ArgMapping.Props:binds_like_python_partial, flattened_call, positional_only_ignored, keyword_only_unsupported | Proved for all signatures of ordinary parameters with defaults, *args and **kwargs; refuted for positional-only and keyword-only parameters, which the code ignores or rejects.
C53 | proved | ArgMapping.Props:dispatch_spec, tryOverload_spec | Conversion of a value to a type is an arbitrary partial function; the quick pre-check is assumed not to reject convertible values. Return type checks of overridden methods are not modelled. Signatures without positional-only parameters.
C46 | partial | Slab:predicted_slab_suffices, slab_blocks_disjoint, bytesRequired_footprint, slab_refcount, slab_freed_by_last, allocate_refuses_iff, slab_overflow_possible, tpMalloc_exact, tpFree_exact, tpRealloc_exact, tpRealloc_trusts_caller | Proved for slabs sized by the predictor. An allocation that does not fit is not always refused: the bounds check leaves out the header (refuted), and the byte counter trusts the caller's old size on reallocation.
C54 | partial | DeepCopy:deepcopyContiguous_exact_partial, deepcopy_of_cycle_never_finishes, self_containing_list_cannot_be_copied, cell_prediction_wrong, count_reads_uninitialised_member | Proved for acyclic typed values without typed cells and with all class members set; refuted for cyclic values (copying never finishes), typed cells (wrong prediction) and unset class members. Python objects inside typed values are not modelled.
C55 | partial | HeldClass:instance_history, constructor_spec, setAttribute_spec, pyDelAttr_spec, copyConstructor_spec, destroy_spec, assign_spec_partial, assign_loses_member, deepcopy_members_partial, deepcopy_members_dirty | Proved for all attribute histories, copying and destruction; assigning a whole held instance loses members that were unset in the target (refuted), and deep copying into uncleared memory turns unset members into garbage (refuted).
C13 | proved | Wire:varint_roundtrip, signed_varint_roundtrip, register_roundtrip, header_roundtrip, readVarint_spec, overlong_varint_undefined | All 64-bit values, all register types, any following bytes; overlong varints of up to ten bytes are also read correctly, longer ones shift by 64 or more (undefined in C++).
C14 | proved | Wire:discard_exact, copy_exact, encoding_unambiguous, discard_total | All message trees, all valid encodings, all trailing bytes; on malformed input skipping terminates and never moves backwards.
C10 | partial | ConstDict:constdict_spec, colliding_keys_kept | Proved for every program of literals with distinct keys, + and -, over any linearly ordered key type and any sorting routine; when the conversion of keys is not injective (integers to floats above 2^53) two equal keys are kept (refuted).
C11 | proved | ConstDict:constdict_spec | + and - are part of the programs; ConstDicts are immutable values in the model, so operands cannot change.
C12 | partial | ConstDict:constdict_eq, constdict_order, constdict_hash, keys_view_ne_compares_values | Equality, order and hash of ConstDicts are proved; != on key views compares the values too (refuted).
C56 | partial | ConstDict:compiled_constdict_agrees_partial, compiled_order_partial, compiled_order_disagrees, compiled_literal_keeps_duplicates | Construction, +, -, lookup, membership, == and != agree; <, <=, >, >= agree only for dictionaries with the same keys (refuted otherwise); compiled literals with a repeated key keep both entries (refuted).
C41 | proved | TypedQueue:refines_fifo, removed_prefix_of_put, len_is_difference, get_returns, getMany_returns, getNonblocking_returns | Any number of threads, any programs, any schedule, at the granularity of single lock operations, list operations and tests: calls, effects and results are those of an abstract FIFO queue.
C42 | proved | TypedQueue:no_failure, no_deadlock, waiter_proceeds, relock_proceeds, getNonblocking_never_waits, holder_proceeds, holder_leaves | Fairness between threads is not assumed, so no claim that a particular waiter is ever served; asynchronous interrupts are not modelled.
C44 | partial | DirectedGraph:edges_after, calls_raise, bypass_keeps_reachability, levels_raises_iff, levels_of_acyclic, topologicalSort_sorts, topologicalSort_stable, createsCycle_iff, createsCycle_predicts, createsCycle_self_refuted | All of it for every graph and every iteration order of the sets, except createsCycle(n, n), which is False although the edge would be a cycle (refuted); Python's recursion limit is not modelled.
C45 | proved | DependencyGraph:none_means_clean, returned_was_marked, maybe_iff_pending, drain_returns_all, raises_iff, names_depended_on, highest_first, urgent_first, history_ops | What is pending is defined from the calls and the nodes returned alone; a marking of an unknown node raises and may leave the node to be returned later (MaybePending).  The order (new before usual before low priority) is proved for the first half million calls.
C47 | partial | ListOf:history_as_python_list, call_as_on_python_list, rep_shows, shows_unique, reverse_reverses, from_iterable, iterator_step, iteration_gives_elements, iterator_as_python_partial, compiled_call_as_on_python_list, compiled_append_of_own_element_partial, exhausted_iterator_revives, negative_sizes_fault, huge_index_reaches_last_element, compiled_append_of_own_element_faults, compiled_self_extension_faults, compiled_negative_resize_faults, compiled_huge_step_faults, compiled_for_over_shrinking_list_faults | Every history of calls, interpreted and compiled, for lists below 2^30 elements, indices that fit in 64 bits, sizes that are not negative and (compiled) elements passed by value; each of these limits has a refutation where the code breaks it.
C48 | partial | TupleOf:cmp_is_lexicographic, compareToPython_is_lexicographic, compiled_is_lexicographic, compiled_agrees, order_laws, equal_hash_partial, compiled_hash_partial, nonempty_not_null, hash_never_error, hash_stable, empty_tuples_hash_differently, compiled_hash_of_empty_faults, list_hash_goes_stale | Comparison in full for totally ordered elements; equal hashes except for empty tuples made by compiled comprehensions (refuted); compiled hash except for the empty tuple (refuted); hashes of lists go stale (refuted).
C19 | partial | Str:string_roundtrip_partial, byte_count_exact, serialize_bytes, big_string_lost, truncated_reads_past_end | Every string of code points up to 0x1FFFFF whose UTF-8 form is below 2^31 bytes, any width, any following bytes; strings of 2^31 bytes or more cannot be read back (refuted).  Truncated UTF-8 is read past the end of its field.
C20 | partial | Str:compare_partial, empty_not_equal, equals_python, order_with_python_reversed | Lexicographic by code points for all pairs of strings of any widths in which the empty string is stored as a null pointer; a stored empty string is not equal to '' (refuted) and ordering against an interpreter's string is reversed (refuted).
C21 | partial | Str:hash_equal_partial, concat_minimal, python_minimal, equal_strings_hash_differently, hash_same_width, hash_not_error, item_hashes_differently | Equal strings of equal width hash alike, and construction from Python and + of minimal strings keep the width minimal; decoded strings can be wider and then hash differently (refuted).
C22 | partial | Str:find_least, rfind_greatest, index_raises_iff, contains_iff, count_partial, count_of_empty | find, rfind, index, rindex and in for all strings, widths and bounds; count for all but the empty needle in the empty string, where the code gives 0 and Python 1 (refuted).
C23 | partial | Str:split_as_python, rsplit_as_python, join_inverts_split, join_as_python, split_words_partial, rsplit_words_partial, split_blank_zero, splitlines_as_python, join_inverts_splitlines, partition_as_python, join_of_empty_not_empty | split, rsplit, splitlines, join, partition, rpartition for all strings, separators and limits; split(None, 0) of white space gives [''] and not [] (refuted) and a join of empty strings is a stored empty string that is not == '' (refuted).
C24 | partial | Str:getitem_as_python, slice_partial, constant_slice_ignores_bound, full_slice_is_no_string, strip_as_python, concat_as_python, mult_as_python, getsubstr_normal, ord_chr, ord_as_python | Indexing, slicing, strip, +, *, chr and ord for all strings and indices; a compiled slice with a constant lower bound and a variable upper bound ignores the upper bound (refuted) and s[:] is not a string (refuted).
C25 | proved | Str:int_of_string, int_raises_iff, int_wraps | int(s) succeeds exactly on Python's grammar of ASCII decimal literals with surrounding white space and returns the value modulo 2^64; difference from the interpreter proved: a value outside int64 wraps. Digits of other scripts are not accepted, as the model's digits are the code's '0'..'9'.
C26 | partial | Str:affix_as_python, affix_tuple_as_python, replace_as_python, replaced_by_nothing, justify_as_python, center_partial, center_differs, zfill_as_python, expandtabs_as_python | startswith/endswith with ranges and tuples, replace with limits and empty patterns, ljust, rjust, zfill and expandtabs for all strings and arguments. Partial because center differs from Python when both the margin and the width are odd (refuted: "ab".center(5)); translate is not modelled.
C27 | partial | Str:case_map, case_map_partial, capitalize_map, capitalize_partial, swapcase_partial, title_partial, case_safe, upper_truncates, lower_ignores_final_sigma, title_after_uncased, capitalize_not_title, kelvin | Memory safety and the exact result for every string and every Unicode database; equal to Python's result when the mapped characters fit the storage width of the string. Partial because the code truncates wider characters ("ÿ".upper() is "x", refuted), ignores the final sigma, and differs in title and capitalize.
C58 | proved | Str:predicates_as_python, case_predicates_as_python, istitle_as_python | For all strings and all property tables.
C15 | proved | Typed:value_roundtrip, graph_roundtrip, read_written, same_view | All types of the grammar (machine types incl. floats as bit patterns, None/Value, bytes, str, Tuple/NamedTuple, OneOf, Alternative, TupleOf, ListOf, ConstDict, Dict, Set, recursive types), all values, both settings of inline lists. The index of a Dict or Set that is rebuilt after its items were read is not part of this model; the limits of an int32 count are hypotheses.
C16 | proved | Typed:int_list_roundtrip, int_list_blocks, int_block_overrun | All sequences of 64-bit integers; the form is blocks of at most 255 integers. Damaged data may write past the list (int_block_overrun).
C17 | proved | Typed:graph_roundtrip, read_written | All finite graphs of ListOf, Dict and Set objects, cyclic ones included: serialization ends, deserialization gives a one-to-one copy. Class instances and Python objects are not in the grammar.
C18 | proved | Stream:stream_content, plain_output, output_settled, schedules_end, ends_done, can_finish, huge_block_lost | LZ4 is a parameter with the law that decompression inverts compression; any number of serializers and compression threads, all interleavings of critical sections, sleeping and waking included; the reader is the model of DeserializationBuffer; huge_block_lost shows the 4 GiB limit is needed
C37 | proved | DateText.Props:iso_roundtrip, iso_roundtrip_in, default_roundtrip, date_roundtrip, format_parse_shown, format_parse_roundtrip, format_parse_utc_roundtrip, tokens_total | whole seconds, ASCII text, exact arithmetic
C38 | partial | DateText.Props:hour12_denotes, words_partial, noon_rejected, format_parse_12h_partial, noon_format_rejected | every hour but 12 PM is right; 12 PM is rejected by both parsers (refuted for every date and minute)
C59 | partial | DateText.Props:iso_offset_partial, iso_negative_offset | Z and positive offsets proved; every negative offset is read as midnight UTC of the written day (refuted for all)
C60 | partial | DateText.Props:format_renders_partial, format_renders_offset_partial, weekday_fails, zone_mislabelled, format_unknown | weekday names before 1969-12-27 and timezone names away from UTC are refuted; everything else proved
C61 | partial | DateText.Props:mismatch_rejected_partial, literals_ignored | numeric directives proved for formats of fixed width; plain characters and trailing text are not compared (refuted)
C49 | partial | Flow.MergeProps:merge_allows_partial, mergeOf_allows_partial, merge_initialised_iff, merge_adds_nothing, merge_drops_true | sound for every pair of states without boolean literal types; Value(True) merged with int becomes int, which is refuted
C62 | partial | Flow.Props:compiled_matches_python_partial, compiled_never_faults_partial, Flow.Refute:break_drops_types, continue_drops_types, break_then_dropped_code, finally_assumes_body_types, finally_reads_unassigned, handler_state_lost, inner_try_skips_else, inner_try_runs_else, same_name_destroyed_twice, handler_name_not_counted, finally_loses_exception, handled_inside_handler, isinstance_int_of_bool, assert_narrows_finally, break_leaves_unbound, break_in_else_absorbed | simulation proved by induction over programs that meet the condition good; sixteen programs outside it are shown to be miscompiled
C50 | partial | MapReduce.Props:map_elements_partial, map_other, map_compiled, reduce_folds, reduce_other, reduce_compiled_partial, reduce_empty_compiled, map_depends_on_history, map_depends_on_closures, map_hides_exception | reduce proved in full for the interpreter; map proved for every history when element types are concrete and inference depends on the function's type; the history dependence for OneOf elements and closures is refuted, as is the exception of a function that never returns
C63 | partial | Pmap.Props:pmap_is_list_comprehension_partial, pmap_memory_safe_partial, pmap_collects_alone_partial, base_exception_hangs | proved for every schedule, nesting, number of workers and of callers, for functions whose exceptions are Exceptions; a BaseException makes pmap hang (refuted)
C64 | partial | Pmap.Props:pmap_never_deadlocks_partial, pmap_terminates_partial, pmap_completes_partial, base_exception_hangs | deadlock freedom, a bound on the steps of every schedule, and completion, with the same exception
C65 | partial | Gen:generator_next_partial, generator_finished_stays, Gen:yield_raises_resumes, yield_raises_in_try, yield_raises_skips_finally, return_value_skips_finally, return_value_is_caught, yield_in_finally_loses_exception, yield_in_finally_loses_return, bare_raise_after_yield, stopiteration_ends_quietly, except_as_not_bound, for_over_return_value_raises, generator_next_refuted | both directions proved for every body in the fragment Good, every history of calls and every consumer; each exclusion of Good is a generator that is miscompiled
C66 | partial | Gen:generator_for_with_next_partial, nested_with_leaves_inner_twice, nested_with_is_not_swallowed, with_target_raises, return_value_in_with, same_line_truncates, generator_for_with_next_refuted | both directions proved for loops on different lines and no with inside another with; nested with statements in a generator are miscompiled
C67 | partial | Gen:with_statement_partial, with_target_raises_never_left | proved when assigning to the target of with does not raise; otherwise the manager is never left
C57 | partial | Loops:loops_compiled_as_python_partial, sequence_else_never_runs, Loops.Demo:else_over_range, growing_list, shrinking_list, code_after_search_dropped, code_after_break_dropped, round_after_continue_dropped, code_after_iteration_dropped, break_in_else_of_for_absorbed, tuple_variable_reassigned, loops_on_one_line, loops_compiled_as_python_refuted | proved for every program of which Block.Good holds; each condition of Block.Good is shown to be needed by a program that is miscompiled; that else after a loop over a sequence never runs is proved for every such loop
C68 | partial | Loops.Range:range_loop_partial, range_iterator_partial, zero_step, long_range_empty, least_step_empty, range_iterator_wraps, exhausted_range_resumes, range_is_a_triple, range_loop_refuted, range_value_refuted | iteration proved for all ranges whose extent is a 64-bit integer; as a value, a compiled range is the triple of its parameters
C69 | partial | Comp:comprehension_partial, Comp.Demo:filtered_right, tests_in_wrong_order, shadow_python, shadow_compiled, product_python, product_compiled, flatten_python, flatten_compiled, comprehension_refuted | proved for one for clause whose tests are one or pure and whose iterable does not mention the target; several for clauses are nested inside out and stop after one round, for all lists
C70 | partial | Sha:sha1_of_pieces, sha1_of_message_partial, shaHash_of_message_partial, sum_of_hashes, sum_of_hashes_spec, long_message_wrong_length, empty_message_wrong | proved for all messages in pieces shorter than 2^32 bytes; a piece of 2^32 bytes or more is hashed with a wrong length, and the hash of the empty string is not its SHA-1 but zero
C71 | partial | Sha:same_hash_same_value_partial, int_float_same_hash, empty_tuple_zero_same_hash, none_empty_string_same_hash, bytes_string_same_hash, other_bytes_same_hash, big_int_no_hash | proved for pairs of values of the same type (tuples of one item type, to any depth); values of different types share hashes, and integers beyond 64 bits have none; dicts and __sha_hash__ are not modelled
C72 | partial | Sha:same_identity_same_constant_partial, big_ints_same_hash, two_to_the_64_same_hash, big_ints_top_bits | proved for all constants but integers beyond 64 bits, whose low bits do not enter the hash
C73 | partial | Mro:mro_is_c3_partial, mro_keeps_orders, class_fails_only_without_order, issubclass_iff, mro_monotone, repeated_base_refuted | proved for all histories of class statements that name no base twice; a class statement with a repeated base, which Python rejects, is accepted
C74 | proved | Mro.Obj:members_inherited, final_not_subclassed, member_layout | for all histories of class statements that name no base twice; that instances have the size of all their members is not modelled
C75 | partial | Mro.Obj:could_be_yes, could_be_no_partial, could_be_no_refuted | proved where class members do not contradict each other; two classes with different values for a class member can have a common subclass, and the compiler says they cannot
C76 | partial | Mro.Obj:functions_along_mro, class_member_of_first, compiled_attribute_partial, compiled_attribute_refuted, attribute_of_first_partial, attribute_of_first_refuted | proved for names used for one kind of definition, and in compiled code for class members that are not bound again in subclasses; refuted for the others
C77 | partial | Mro.Dispatch:dispatch_right_partial, failed_compile_calls_null, call_begins, call_stays, slots_agree, allocate_slot, slot_stays, dispatch_progress, casts_right, cast_succeeds | proved for all interleavings and hierarchies; a method that does not compile, called from a __del__ while an exception is propagated, is called through null; casts for orders of at most 65536 classes
C78 | partial | Cache:disk_complete, loaded_right, published, start_never_fails, faults_are, asking_asserts, compiling_asserts | proved for all interleavings and crash points, with the directory renamed at once and no loss of power; errors are possible in looking up functions, and shown
C79 | partial | Cache:ask_right_partial, ask_fails, asking_asserts, fetch_own, fetch_right, symbol_stays, add_right_partial, add_fails, compiling_asserts, defined_but_not_there, fetching_raises, start_right, cache_hit_partial, compiled_once, marks_stay, marked_unseen, one_marks_for_all | proved if what can be used of a module includes the modules it was linked with, and no function to be compiled is repeated in a loaded module; refuted otherwise
C80 | partial | Scope:closure_variables_found_partial, captured_found_partial, all_found_partial, found_is_used_partial, assigned_are_bound_partial, assigned_is_bound, self_recursive_not_found, nonlocal_not_found, handler_name_leaks, keyword_only_leaks, later_target_leaks, handler_name_not_assigned | proved for all nestings apart from the shapes of code listed in Sane and Tight; refuted for functions that call themselves, nonlocal, except-as names and keyword-only parameters
C81 | partial | Scope:no_variable_left_partial, variable_in_object_partial, only_variables_in_object_partial, other_names_kept, keyword_argument_left, handler_left, comprehension_reads_generator, nested_default_reads_generator | proved apart from the shapes of code listed in Walked and Neat; refuted for keyword arguments, handlers, comprehension targets and defaults in nested functions; other names are kept in all code
C82 | partial | Scope:lookups_agree_partial, other_lookups_agree, no_assertion, not_yet_defined, parameter_ignored, handler_named_like_function | proved unless the function's name is also a parameter or the name of a handler; refuted for those, and for functions whose definition was not executed
C83 | partial | Scope:default_right_partial, default_of_local, default_of_changed_global | proved for defaults without local variables; refuted for all others, which are None
C84 | proved | Native:function_does_what_it_means, built_function_does_what_it_means, function_ends, activation_inside_try_is_wrong, activation_inside_loop_is_refused | for all well-formed native expressions, and for everything the contexts build; the last two show why well-formedness is asked for
C85 | partial | Native:temporaries_never_destroyed_twice, temporaries_destroyed_exactly_once_partial, throwing_destructor_leaks | never twice is proved for all executions; exactly once unless a destructor throws, when those behind it leak
C86 | partial | Native:handler_destroys_once_partial, function_destroys_exception_once_partial, nested_handler_destroys_twice, handler_name_forgotten, chained_comparison_reads_dead_slot | proved for handlers whose body leaves the name alone; refuted for nested handlers of the same name and for chained comparisons of temporaries
C87 | partial | Builtins:all_as_in_python, any_loop_as_in_python, any_right_only_if, any_wrong, min_as_in_python, min_is_first_best, several_as_in_python, keyed_result_partial, key_called_twice, counting_key_wrong | all, and min and max except of several arguments with a key, are proved for all effects; any is all (right exactly for nonempty sequences of one truth value); with several arguments and a key the key is called twice and values leak
C88 | partial | ListOf:compiled_tuple_slice_partial, compiled_slice_of_empty_tuple_faults | slices with elements are right; every empty slice is a null pointer dereference
C89 | partial | HashTable:compiled_set_algebra_partial, intersection_update_with_itself, difference_update_with_itself, union_with_a_list_raises, union_of_nothing_is_the_set_itself, union_of_something_is_new, symmetric_difference_with_a_list, symmetric_difference_not_algebra, object_elements_disagree | Every program of compiled and interpreted calls on typed elements, except the calls that the code gets wrong, which are refuted: intersection_update and difference_update with the set itself, functional methods with a list or with no argument, symmetric_difference with short lists that repeat or long lists, and object elements with a negative hash
C90 | proved | TypeGroup:never_raises, group_is_class, same_group_iff, returned_registers, registered_sees_registered, constants_ungrouped, group_persists, call_bounded, call_goes_on | For every graph, number of threads and schedule; walks over objects are given and do not change; deserialized groups are not modelled
C91 | proved | TypeGroup:identityHash_looksLike, identityHash_any_history, indices_looksLike | Between any two processes in which the objects look alike, for any hash function
C92 | partial | TypeGroup:same_hash_same_view, same_hash_same_name, same_group_different_hash, poison_iff_group, poison_reason, typesEquivalent_partial, poisoned_types_equivalent, unrelated_types_equivalent, codeWalk_same_partial, codeWalk_ignores, star_and_starstar_same_walk, funcWalk_same | With a hash without collisions, for hashes that are not poison and up to what walks report; refuted: types in groups that cannot be ordered are all equivalent to each other, and walks over code objects leave out the flags that tell *args from **kwargs
C93 | proved | Conv:conversion_monotone, conversion_unambiguous | For every environment of float operations and explicit conversions; numpy, classes, alternatives and dictionaries as targets are not modelled
C94 | proved | Conv:oneOf_takes_first_at_least_level, oneOf_accepts, oneOf_accepts_in_any_order, made_oneOf_accepts, oneOf_flat, oneOf_has_no_oneOf, oneOf_nesting, oneOf_made_once, oneOf_default | The quick test pyValCouldBeOfType is proved never to skip an alternative that accepts
C95 | partial | Conv:signature_is_type, oneOf_keeps_type, read_and_convert_back, read_and_convert_back_oneOf_partial, conversion_restored, true_becomes_one, oneOf_not_restored, zero_loses_sign | Without constants the type is kept; with constants when none is ambiguous; refuted: OneOf(1, bool) stores True as the integer 1, OneOf(0.0, float) stores -0.0 as 0.0
C96 | partial | Conv:upcast_keeps_content_partial, const_explicit, upcast_lossless, upcast_float_lossless, wide_int_wraps, wide_int_five, wide_int_is_constant, content_not_kept, int_upcast_lossy, int32_upcast_lossy, implicit_lists_in_tuples, named_tuple_refuses_tuple | For integers of 64 bits, and up to rounding of integers that become floats; refuted: longer integers lose their high bits without an error, and integers that upcast to floats are rounded
C97 | proved | Conv:conversion_typed, dflt_has, fits_cast | Given that the typed objects inside the value are values of their types
C98 | partial | Compare:comparison_is_lexicographic, operators_are_consistent, less_is_transitive, equal_means_same, equal_values_compare_alike, nan_equals_every_float, nan_breaks_equality | For values without NaN, as stated; with NaN refuted beyond what IEEE asks: inside a container NaN equals every float
C99 | partial | Compare:equal_values_hash_equally, hash_is_never_minus_one, nan_breaks_equality | Given that hashes of text are functions of its content (C21 for strings); refuted with NaN, since (nan,) equals (1.0,)
C100 | partial | Compare:compiled_equality_agrees_partial, compiled_comparison_agrees_partial, compiled_hash_agrees_partial, compiled_nan_is_not_unequal, compiled_nan_in_tuples, oneof_equality_disagrees, oneof_ordering_disagrees, compiled_none_is_not_at_most_none, compiled_hash_of_minus_one_disagrees | Proved without NaN and None orderings, with OneOfs of distinct kinds for equality and no OneOfs for order, and for hashes where no element of a TupleOf hashes to -1; refuted outside these
C101 | proved | Bytes:find_least, rfind_greatest, count_occurrences, single_is_byte, index_raises_iff, contains_iff, item_index, slice_spec, affix_spec, partition_spec, rpartition_spec, partition_empty | For the methods as called with bytes arguments
C102 | partial | Bytes:split_partial, rsplit_partial, split_no_separator, split_words_partial, rsplit_words_partial, isspace_white, splitlines_spec, join_spec, join_of_split, split_empty_zero, split_keeps_white | Refuted: empty bytes split with a limit of 0, and words split with a limit where white space is doubled; proved elsewhere
C103 | partial | Bytes:all_predicates, case_predicates, case_maps, strip_spec, concat_mult_spec, just_spec, center_partial, center_differs, zfill_spec, expandtabs_spec, replace_spec, translate_spec, maketrans_spec | All but center, which is refuted for every odd width with an odd number of bytes to fill and proved elsewhere
C104 | partial | Bytes:compare_partial, equals_python, hash_equal_partial, compare_iff, normal_results, empty_not_equal, split_join_not_normal, other_not_normal | Proved except where the null pointer meets an object of length 0; there it is refuted, and which operations make such objects is shown
C105 | partial | Str:float_literal, float_plain_partial, two_points_accepted, bare_point_accepted, nul_accepted, long_literal_cut, other_digits_refused, Bytes:int_of_bytes_partial, float_of_bytes, float_bytes_partial, unicode_space_accepted | Every ASCII literal of up to 48 characters is read as Python reads it, and texts with at most one point, one exponent behind it and no NUL are accepted exactly if Python accepts them; refuted: two points, a point alone, characters behind a NUL, more than 48 characters, digits of other scripts, and Unicode white space in bytes. What strtod returns is not modelled
C106 | partial | Arr:get_total, item_total, row_view, diagonal_view, set_entry, row_write, diagonal_write, item_write, transpose_entries, transpose_independent, clone_entries, flatten_entries, make_entries, full_entries, full_array, negative_raises, identity_entries, setRow_entries, setRow_raises, get_overruns, get_unchecked | All of it for a[i], m[i] and the copies, in every state reachable by the operations; refuted for get and set, which do not check their indices. The public constructors that take an offset and strides are outside the reachable states
C107 | partial | Arr:iop_entries, row_iop, unop_entries, op_entries, map_entries, arr_mismatch, op_leaves, iop_stops, mat_iop_entries, mat_unop_entries, mat_op_entries, mat_map_entries, mat_mismatch, iaddFloat_partial, addFloat_partial, addFloat_faults, iadd_wrong_cell | All element operations on all reachable arrays and matrices, with sharing; refuted for + on float arrays of different stride, whose strides are swapped: a + m.diagonal() writes outside the list. An assigning operation that raises half way leaves the first elements changed
C108 | partial | Arr:dot_entries, dot_mismatch, sum_entries, matmul_entries, matmul_mismatch, matmul_empty, mulVec_entries, vecMul_entries, invert_entries, invert_refuses | For all non-empty shapes and layouts, given that the library does what its documentation says; refuted when the inner dimension or the number of columns is zero, where the library is called with an illegal leading dimension
C109 | partial | CConv:certain_conversion_succeeds, conversion_stores_the_type, refused_conversion_is_refused_partial, refused_conversion_fails, refused_but_accepted, literal_loses_fraction | Promises are kept and nothing uninitialised is reported, for all types of the model at all levels; a refusal is one of the interpreter too except at the level Implicit, where it is refuted for lists inside tuples; refuted for number literals, for which the test is made with its arguments exchanged
C110 | partial | CConv:compiled_converts_as_interpreted_partial, records_convert_as_interpreted, infinite_float_differs, nan_truth_differs, single_rounding_differs, constant_differs, none_differs, bytes_differ, truth_differs, text_differs, shape_differs, copy_differs, signature_differs, refused_but_accepted | The same result whenever no pair of types met on the way is on a list of eleven odd kinds, and without that condition for numbers, text, bytes, None and tuples of them at the levels of function arguments; for the kinds on the list the difference is proved with a witness
C111 | partial | Typed:read_is_typed_partial, reading_ends, nothing_undefined_partial, mixed_lists, raw_memory, unsorted_keys, twice_in_a_set, undefined_reads | Reading any bytes as any type ends; what is read is a value of the type, for types with one kind of mutable container and no raw memory of booleans or choices; nothing undefined happens for types without text, dictionaries, sets and lists of int64 when no number is too long; for the others each way it fails is proved with a witness
C112 | partial | Typed.Evolve:written_is_message, written_is_skipped, versions_read_partial, added_fields, dropped_fields, plain_records, plain_records_refused, dropped_case, lost_object | Proved for any two versions whose common places are not mutable containers, with added and dropped fields of any type; a TupleOf of records of numbers, a dropped case of a OneOf and an object first met in a dropped field are proved to go wrong
C113 | partial | PyCmp:equality_partial, equality_right_partial, order_partial, order_right_partial, PyCmp.Wrong:text_backwards, bytes_backwards, bytes_twisted, bytes_circle, text_equal_memcmp, text_before_numbers, none_after_all, large_integers, equality_not_transitive, unsigned_negative, rounded, nan_greater | Equality is proved for all these types when numbers fit in 64 bits and none beyond 2 ** 53 meets a float; order is proved for numbers and nested lists and tuples of them without NaN; order of text and bytes is proved to be backwards, and large integers, unsigned numbers, NaN and objects of other kinds to go wrong
C114 | partial | TypeFn:runs_once, answers_stay, inner_call, all_defined_partial, made_again, keyword_order, item_order, same_call, TypeFn.Wrong:equal_arguments, first_decides, position_or_name, interrupted_forever, orphaned, forward_given, dict_as_tuple | Running once, the lasting answer, the forward of an inner call, making a type again and the order of keywords are proved for all functions and programs; that no forward stays undefined is proved when no function fails, and proved false when one is interrupted or raises after another has got its forward; arguments equal in Python but different (1, 1.0, True) share a type, the same argument by position and by name does not
C115 | partial | Ast:round_trip_partial, same_program_partial, comes_back_well_formed_partial, settles_partial, stripped_back_partial, same_stripped_partial, Ast.Wrong:comma_breaks, slice_and_index_breaks, walrus_refused, refused_around, relative_import_refused, number_wraps, ellipsis_place | Proved for trees of all sizes in Python 3.7 to 3.10, except for the forms of which it is proved false: subscriptions with a comma before 3.9, assignment expressions, relative imports without a module, whole numbers beyond 64 bits in 3.7; match statements and type-ignore comments are left out of the grammar
C116 | partial | Source:guarded_right_partial, found_partial, found_own_partial, picked_partial, picked_own, only_one, Source.Wrong:swapped, swapped_comprehension, repeated, iterable_refused, default_refused, picked_other, never_own, default_on_line | Proved for plain programs of all sizes, against an order of compilation that is stated in Source/Spec; proved false for functions in assignment targets next to functions in the value, in comprehension conditions next to the element, in default values and first iterables, for equal code objects, and for lambdas on a line that differ in the order of their constants. The search for the nodes on a line is not modelled.
C117 | partial | PyDict:dict_partial, constDict_partial, dictRight_partial, PyDict.Wrong:float_keys, keys_fall_together, large_keys, true_keys, constDict_refuses, constDict_not_itself | Proved for text, bytes objects, booleans and integers of any width as keys and all value types of C113, with keys on the other side that the conversion does not change; proved false for floats, integers that are too large and integers against boolean keys, and for ConstDicts with integers of less than 64 bits. Keys with floats or containers in them are not modelled.
C118 | partial | Returns:trivial_sound_partial, promised_partial, nearest, open_iff, accepted, Returns.Wrong:only_first_compared, promise_broken, class_for_instance, value_refused, subclass_refused, oneOf_refused | Which type is enforced, when none is and when there is no exception are proved for all hierarchies; that the promises are kept is proved when no stated type is a union or a class object compared with another, and proved false otherwise: of two unions only the first alternative is compared, and a class object passes for an instance
C119 | partial | Returns:expected_right_partial, nothing_said, never_unspecified, Returns.Wrong:expects_too_much, forgets_the_silent, expects_an_error, keywords_lost, keywords_alone | Proved when every overload that may match states a type or has one stated above; proved false where overloads state nothing: the compiler then expects the types of the other overloads, or an exception that does not come
C120 | partial | Ptr:add_right, sub_compiled, sub_interpreted_partial, order_right, item_right, member_same, member_right, bool_right, Ptr.Wrong:sub_negative, sub_one, sub_empty, float_index, large_index, str_decimal | Addition, order, items, members and truth are proved for all arrays, compiled or not, and the difference for compiled code; the difference in the interpreter is proved where it is not negative and proved false wherever it is negative and elements have more than one byte. Elements with reference counts are not modelled.
C121 | partial | ModuleOf:freeze_sound, frozen_complete_partial, member_stays, set_defines, forward_kept, frozen_stays, not_member, ModuleOf.Wrong:grows_frozen, alias_never_freezes, alias_of_int, one_forward_two_types, foreign_forward, defined_directly | That freezing means that all of the module's own forwards are defined, that members stay, and that forwards are defined as what is assigned is proved for all histories; that nothing undefined is in a frozen module is proved where the program makes forwards only through the module, and proved false otherwise. Reading a frozen module can add a member, also proved.
C122 | partial | Code:instantiate_writes, instantiate_again, instantiate_refused, roots_disjoint_partial, import_right, names_right, read_right, round_trip, root_of_directory, from_path_right, Code.Wrong:from_path_does_nothing, relative_never, native_overwrites, hides_local, escapes, half_written, hidden_read, slash_at_end, one_name_two_files, second_without_directory | Proved for file maps whose paths have no empty, . or .. parts and do not clash, in empty directories; proved false for paths that leave the directory, for codebases made from a directory, which are never put where modules are looked for, and for codebases marked as native. Newlines, encodings and packages without __init__.py are not modelled.
C123 | partial | Mro.Obj:super_single, super_next_partial, super_compiled_same, super_gives_up, super_diamond, super_mixin | Proved for all hierarchies in which no class has two bases, and in all hierarchies where the class that comes next defines the method itself; what compiled code finds is always what the interpreter finds. Proved false in diamonds where the next class only inherits the method, and, for compiled code, wherever the next class does not have it. Only methods are modelled, not properties, class methods or static methods.
C124 | partial | Macro:call_right, source_kept, fileName_inj, no_collision_partial, missing_right, Macro.Wrong:collide, forgets, unbound_local, nested_error, last_line | What a call gives and that its source is kept while no caches are cleared is proved for all histories; that calls do not collide is proved where every macro is made from a function at another place, and proved false for all macros at one place; that a missing name is named is proved for global names and proved false for local ones and for nested macros. Compiling and executing Python are parameters.
C125 | partial | Iters:items_in_order, calls_as_python, fixed_as_python, loop_first_partial, loop_restarts, bytes_loop_fails, string_next_endless | That calls give the items in order is proved for all sequences, and for lists that change it is proved exactly when calls give what Python's give: not if a list grows beyond the number of calls after the end. Loops over iterators are right for new iterators of lists and proved false for all others: they start again for lists, and fail for bytes.
C126 | partial | RawBytes:to_bytes_right, to_bytes_compiled_partial, from_bytes_right_partial, round_trip_partial, refused, tuple_never, compiled_empty, no_size, not_bytes, too_many | Proved for all lists with fewer than 2**31 elements that have a size, compiled code included if they are not empty; proved false for all tuples, which fromBytes never makes, for what is empty in compiled code, for elements without bytes, for arguments that are not bytes, and for longer lists.
C127 | partial | Cell:cell_right_partial, step_right, eq_right, compiled_clear_dangles, compiled_clear_nothing, failing_set, ne_raises | Proved for all histories in which values can be converted and cells are cleared in the interpreter; proved false for clearing in compiled code, after which a cell is still set to what was destroyed, for values that cannot be converted, and for !=, which raises.
C128 | partial | TempRef:ended_partial, reference_until, kept_alive, copy_right, copy_stays, reference_right, user_sees_partial, same_line, no_statements, back_to_first_line, settrace_forgets, thread_loses | References last until the frame is left, gets an exception or comes to a statement on another line: proved for all histories of one thread without sys.settrace; that they last until then and are copies afterwards, and that containers stay alive, is proved for all histories. That this is the end of the statement is proved false for statements on one line, statements over several lines and code that is no function; debuggers see the same events in all histories of one thread, proved false for two threads.
C129 | partial | Gil:never_fatal, uses_with_lock, one_at_a_time, gives_up, can_return, waits_for_loop, fork_starves | Proved for all schedules as long as the helper thread runs or is switched off; proved false in a process in which it does not run although it counts as active, as after a fork: there compiled code keeps the lock.
C130 | partial | DateRange:daterange_right_partial, other_refused, zero_endless, reversed_wrong, reversed_is, reversed_weeks, reversed_first_days, reversed_months | Counting up is proved for all dates and all positive step sizes, termination included; proved false for steps of no days, which never end, and in reverse, where the end is there and the start is not (reversed_is and reversed_weeks say exactly which dates are there), and where months and years are not implemented.
C131 | partial | SubclassOf:issubclass_known_partial, issubclass_both_partial, to_subclass_of_partial, to_known_base, to_known_other, to_known_same_partial, class_member_partial, issubclass_wrong, class_member_wrong | Proved for all classes whose class members do not contradict each other; proved false for those that do, for class members of a second base, and for the conversion to a type the static class is a subclass of, which takes any subclass as that type. Class itself and alternatives are not modelled.
