{"claims": [
  {"property": "C01", "status": "proved", "theorems": ["PolyColl.Props.C01_lookup"], "note": ""},
  {"property": "C02", "status": "proved", "theorems": ["PolyColl.Props.C02_stays_registered", "PolyColl.Props.C02_register_again", "PolyColl.Props.C02_register"], "note": ""},
  {"property": "C03", "status": "proved", "theorems": ["PolyColl.Props.C03_one_segment_per_type"], "note": "One segment per dynamic type is a theorem about every possible state, failures included."},
  {"property": "C04", "status": "proved", "theorems": ["PolyColl.Props.C04_unregistered"], "note": ""},
  {"property": "C05", "status": "proved", "theorems": ["PolyColl.Props.C05_emplace"], "note": ""},
  {"property": "C06", "status": "partial", "theorems": ["PolyColl.Props.C06_emplace_hint_partial", "PolyColl.Props.C06_insert_hint_partial", "PolyColl.Props.C06_emplace_hint", "PolyColl.Props.C06_insert_hint"], "note": "Refuted where creating the segment of the new element rehashes a map whose iterators do not survive that (C58_hint_after_rehash). C06_emplace_hint and C06_insert_hint say exactly when: undefined if it rehashes, as documented otherwise. The _partial theorems give simpler sufficient conditions."},
  {"property": "C07", "status": "proved", "theorems": ["PolyColl.Props.C07_insert", "PolyColl.Props.C07_insert_unregistered"], "note": ""},
  {"property": "C08", "status": "proved", "theorems": ["PolyColl.Props.C08_emplace_pos_base", "PolyColl.Props.C08_emplace_pos_local", "PolyColl.Props.C08_insert_pos_base", "PolyColl.Props.C08_insert_pos_local"], "note": ""},
  {"property": "C09", "status": "proved", "theorems": ["PolyColl.Props.C09_insert_range", "PolyColl.Props.C09_insert_range_terminal"], "note": ""},
  {"property": "C10", "status": "proved", "theorems": ["PolyColl.Props.C10_insert_collection", "PolyColl.Props.C10_insert_local", "PolyColl.Props.C10_exactly"], "note": ""},
  {"property": "C11", "status": "partial", "theorems": ["PolyColl.Props.C11_insert_hint_range_partial", "PolyColl.Props.C11_insert_hint_range_terminal_partial", "PolyColl.Props.C11_insert_hint_collection_partial", "PolyColl.Props.C11_insert_hint_local_partial", "PolyColl.Props.C11_insert_hint_range", "PolyColl.Props.C11_insert_hint_range_terminal", "PolyColl.Props.C11_insert_hint_local", "PolyColl.Props.C11_insert_hint_collection"], "note": "As C06: C11_insert_hint_range, _terminal, _local and _collection say exactly when the behaviour is undefined (creating a segment rehashes a map whose iterators do not survive that), and that everything is as documented otherwise. The _partial theorems give simpler sufficient conditions."},
  {"property": "C12", "status": "proved", "theorems": ["PolyColl.Props.C12_insert_pos_range_base", "PolyColl.Props.C12_insert_pos_range_local"], "note": ""},
  {"property": "C13", "status": "partial", "theorems": ["PolyColl.Props.C13_base_collection", "PolyColl.Props.C13_partial", "PolyColl.Props.C13_any_collection_full", "PolyColl.Props.C13_full_segment", "PolyColl.Props.C13_full_segment_undefined"], "note": "Proved for base_collection, and for all collections if the segment has room. False for any_collection/function_collection whenever the segment is full (use after free): witness C13_any_collection_full, in general C13_full_segment and C13_full_segment_undefined."},
  {"property": "C14", "status": "proved", "theorems": ["PolyColl.Props.C14_not_copyable"], "note": ""},
  {"property": "C15", "status": "partial", "theorems": ["PolyColl.Props.C15_strong_guarantee_partial", "PolyColl.Props.C15_hints_partial"], "note": "Missing: that iterators of the collection can still be advanced when the failed insertion has added an empty segment and this rehashed the map; stated exactly in terms of the number of rehashes (with hints of any age: C15_hints_partial). Everything else is proved."},
  {"property": "C16", "status": "partial", "theorems": ["PolyColl.Props.C16_not_full_partial", "PolyColl.Props.C16_elements_partial", "PolyColl.Props.C16_reserve_partial", "PolyColl.Props.C16_exactly", "PolyColl.Props.C16_reserve_exactly", "PolyColl.Props.C16_traversal_after_insert", "PolyColl.Props.C16_traversal_after_throwing_constructor", "PolyColl.Props.C16_traversal_after_reserve"], "note": "Proved where the segment is not full and not fresh. False otherwise: witnesses C16_traversal_after_insert, C16_traversal_after_throwing_constructor, C16_traversal_after_reserve; there the elements and local traversal are still right (C16_elements_partial, C16_reserve_partial), and traversal is undefined exactly if the index of the segment has moved (C16_exactly, C16_reserve_exactly)."},
  {"property": "C17", "status": "partial", "theorems": ["PolyColl.Props.C17_base_collection", "PolyColl.Props.C17_partial", "PolyColl.Props.C17_any_collection", "PolyColl.Props.C17_any_collection_always", "PolyColl.Props.C17_full_segment", "PolyColl.Props.C17_exactly"], "note": "Proved for base_collection. False for any_collection/function_collection: witness C17_any_collection; C17_any_collection_always shows that the next emplacement goes wrong whenever erase throws and the segment has room; C17_full_segment that it mends the collection if the segment is full, so C17_exactly is an equivalence."},
  {"property": "C18", "status": "partial", "theorems": ["PolyColl.Props.C18_partial", "PolyColl.Props.C18_throwing_move", "PolyColl.Props.C18_full_segment"], "note": "Proved for copyable types and types with a move constructor that does not throw. False for the rest: witness C18_throwing_move, in general C18_full_segment (no insertion into a full non-empty segment succeeds)."},
  {"property": "C19", "status": "proved", "theorems": ["PolyColl.Props.C19_erase"], "note": ""},
  {"property": "C20", "status": "proved", "theorems": ["PolyColl.Props.C20_erase_range"], "note": ""},
  {"property": "C21", "status": "proved", "theorems": ["PolyColl.Props.C21_erase_local_base", "PolyColl.Props.C21_erase_local", "PolyColl.Props.C21_erase_local_range_base", "PolyColl.Props.C21_erase_local_range", "PolyColl.Props.C21_clear", "PolyColl.Props.C21_clear_type"], "note": ""},
  {"property": "C22", "status": "proved", "theorems": ["PolyColl.Props.C22_traversal", "PolyColl.Props.C22_subrange"], "note": ""},
  {"property": "C23", "status": "proved", "theorems": ["PolyColl.Props.C23_size", "PolyColl.Props.C23_empty"], "note": ""},
  {"property": "C24", "status": "proved", "theorems": ["PolyColl.Props.C24_equal", "PolyColl.Props.C24_equal_local_base", "PolyColl.Props.C24_equal_local"], "note": ""},
  {"property": "C25", "status": "proved", "theorems": ["PolyColl.Props.C25_order"], "note": ""},
  {"property": "C26", "status": "proved", "theorems": ["PolyColl.Props.C26_segment_traversal"], "note": ""},
  {"property": "C27", "status": "partial", "theorems": ["PolyColl.Props.C27_insert_local_iterators", "PolyColl.Props.C27_insert_partial", "PolyColl.Props.C27_index_moves", "PolyColl.Props.C27_insert_range_partial", "PolyColl.Props.C27_insert_range_local_partial", "PolyColl.Props.C27_erase", "PolyColl.Props.C27_erase_range"], "note": "Holds for local iterators, for base_collection, and for erasure. For any_collection and function_collection, iterators and local base iterators survive only if vector::reserve allocates exactly what it is asked for; otherwise the index may move although the capacity suffices: negation C27_index_moves."},
  {"property": "C28", "status": "partial", "theorems": ["PolyColl.Props.C28_partial", "PolyColl.Props.C28_insert_collection_partial", "PolyColl.Props.C28_insert_local_partial", "PolyColl.Props.C28_insert_hint_collection_partial", "PolyColl.Props.C28_insert_hint_local_partial", "PolyColl.Props.C28_hints_partial"], "note": "Proved for every documented use of every operation, whether it returns or throws; C28_hints_partial adds hinted insertions of types not registered yet, whenever they are defined. Missing: iterators cannot be advanced after an operation that rehashed the map (negation C58_increment_after_rehash); the condition is on rehashing itself, not on the creation of segments."},
  {"property": "C29", "status": "proved", "theorems": ["PolyColl.Props.C29_base_local", "PolyColl.Props.C29_local_base"], "note": ""},
  {"property": "C30", "status": "partial", "theorems": ["PolyColl.Props.C30_capacity", "PolyColl.Props.C30_reserve_info_partial", "PolyColl.Props.C30_reserve_all_partial", "PolyColl.Props.C30_reserve_type_partial", "PolyColl.Props.C30_max_size_partial", "PolyColl.Props.C30_max_size_exceeded", "PolyColl.Props.C30_reserve_too_much", "PolyColl.Props.C30_no_reallocation"], "note": "Proved for base_collection. For any_collection/function_collection a failed reserve leaves elements and buffers alone but can leave the cached end of segment stale, so that traversal is undefined: negations C30_reserve_too_much (length_error) and C16_traversal_after_reserve (bad_alloc). max_size(T): requests above it are refused and those up to it are not refused as too long, except that a split segment takes one element more than it reports (C30_max_size_exceeded)."},
  {"property": "C31", "status": "proved", "theorems": ["PolyColl.Props.C31_shrink_all", "PolyColl.Props.C31_shrink_info"], "note": ""},
  {"property": "C32", "status": "partial", "theorems": ["PolyColl.Props.C32_growth", "PolyColl.Props.C32_no_overflow", "PolyColl.Props.C32_wraps", "PolyColl.Props.C32_amortised_partial", "PolyColl.Props.C32_quadratic"], "note": "Proved up to a third of max_size(). Beyond that the policy grows by one element at a time and the cost is quadratic: negation C32_quadratic. An intermediate result wraps around at size()==max_size() (C32_wraps), without consequences (C32_no_overflow)."},
  {"property": "C33", "status": "proved", "theorems": ["PolyColl.Props.C33_copy", "PolyColl.Props.C33_copy_allocator", "PolyColl.Props.C33_assign", "PolyColl.Props.C33_throws_exactly", "PolyColl.Props.C33_independent"], "note": "Copy construction, allocator-extended copy construction and copy assignment; independence from all later operations, in all states."},
  {"property": "C34", "status": "partial", "theorems": ["PolyColl.Props.C34_source_exactly", "PolyColl.Props.C34_move", "PolyColl.Props.C34_move_allocator_partial", "PolyColl.Props.C34_moveAssign", "PolyColl.Props.C34_self", "PolyColl.Props.C34_move_allocator_throws"], "note": "Proved for move construction, for move assignment (also if it throws) and for allocator-extended move construction that returns. False if the latter throws midway: witness C34_move_allocator_throws, in general C34_source_exactly (the source is in order if no element was lost, otherwise its traversal is undefined until it is cleared, C60_clear_partial). All this for maps that are empty after having been moved from; for others see C97."},
  {"property": "C35", "status": "proved", "theorems": ["PolyColl.Props.C35_swap", "PolyColl.Props.C35_iterators"], "note": ""},
  {"property": "C36", "status": "proved", "theorems": ["PolyColl.Props.C36_failed_assignment", "PolyColl.Props.C36_repairs", "PolyColl.Props.C36_self"], "note": ""},
  {"property": "C37", "status": "proved", "theorems": ["PolyColl.Props.C37_equality", "PolyColl.Props.C37_inequality", "PolyColl.Props.C37_segments", "PolyColl.Props.C37_reflexive", "PolyColl.Props.C37_symmetric", "PolyColl.Props.C37_transitive", "PolyColl.Props.C37_same_contents"], "note": ""},
  {"property": "C38", "status": "proved", "theorems": ["PolyColl.Props.C38_throws", "PolyColl.Props.C38_throws_ne"], "note": ""},
  {"property": "C39", "status": "partial", "theorems": ["PolyColl.Props.C39_segments_partial", "PolyColl.Props.C39_propagation"], "note": "Proved for hash maps that destroy their elements when assigned to (libstdc++). For hash maps that assign to them (libc++): C77. Missing, and false: such a map, propagate_on_container_copy_assignment, and a select_on_container_copy_construction that returns another allocator (C77_mismatch)."},
  {"property": "C40", "status": "partial", "theorems": ["PolyColl.Props.C40_collections_partial", "PolyColl.Props.C40_created_partial", "PolyColl.Props.C40_copy", "PolyColl.Props.C40_copy_mismatch"], "note": "Holds for every segment of every collection in every history if the hash map destroys its elements when assigned to, and for make, make_from_prototype (empty_copy), copy(al), move(al). False for copy() without an allocator when select_on_container_copy_construction returns another allocator: C40_copy, C40_copy_mismatch. Collections call it if the hash map assigns to its elements and the allocator is propagated: C77_mismatch."},
  {"property": "C41", "status": "proved", "theorems": ["PolyColl.Props.C41_decomposition", "PolyColl.Props.C41_for_each_segment"], "note": ""},
  {"property": "C42", "status": "proved", "theorems": ["PolyColl.Props.C42_all_of", "PolyColl.Props.C42_any_of", "PolyColl.Props.C42_none_of", "PolyColl.Props.C42_values"], "note": ""},
  {"property": "C43", "status": "proved", "theorems": ["PolyColl.Props.C43_for_each", "PolyColl.Props.C43_for_each_n"], "note": ""},
  {"property": "C44", "status": "proved", "theorems": ["PolyColl.Props.C44_find_if", "PolyColl.Props.C44_find_if_not", "PolyColl.Props.C44_find_first_of", "PolyColl.Props.C44_first", "PolyColl.Props.C44_first_not", "PolyColl.Props.C44_first_of"], "note": ""},
  {"property": "C45", "status": "proved", "theorems": ["PolyColl.Props.C45_adjacent_find", "PolyColl.Props.C45_adjacent_find_std", "PolyColl.Props.C45_first"], "note": ""},
  {"property": "C46", "status": "proved", "theorems": ["PolyColl.Props.C46_count_if", "PolyColl.Props.C46_number", "PolyColl.Props.C46_distance"], "note": ""},
  {"property": "C47", "status": "proved", "theorems": ["PolyColl.Props.C47_mismatch4", "PolyColl.Props.C47_mismatch3", "PolyColl.Props.C47_first_difference", "PolyColl.Props.C47_first_difference3", "PolyColl.Props.C47_equal4", "PolyColl.Props.C47_equal3", "PolyColl.Props.C47_coincide"], "note": ""},
  {"property": "C48", "status": "proved", "theorems": ["PolyColl.Props.C48_is_permutation4", "PolyColl.Props.C48_is_permutation3"], "note": ""},
  {"property": "C49", "status": "proved", "theorems": ["PolyColl.Props.C49_search", "PolyColl.Props.C49_find_end", "PolyColl.Props.C49_first_occurrence", "PolyColl.Props.C49_last_occurrence"], "note": ""},
  {"property": "C50", "status": "proved", "theorems": ["PolyColl.Props.C50_search_n", "PolyColl.Props.C50_first_run"], "note": ""},
  {"property": "C51", "status": "proved", "theorems": ["PolyColl.Props.C51_copy", "PolyColl.Props.C51_copy_n", "PolyColl.Props.C51_copy_if", "PolyColl.Props.C51_transform", "PolyColl.Props.C51_transform2", "PolyColl.Props.C51_replace_copy_if", "PolyColl.Props.C51_remove_copy_if", "PolyColl.Props.C51_rotate_copy", "PolyColl.Props.C51_partition_copy", "PolyColl.Props.C51_written", "PolyColl.Props.C51_rotated"], "note": "move is copy with an output that moves; replace_copy and remove_copy are replace_copy_if and remove_copy_if with equality to a value, as in the code."},
  {"property": "C52", "status": "proved", "theorems": ["PolyColl.Props.C52_unique_copy", "PolyColl.Props.C52_groups"], "note": ""},
  {"property": "C53", "status": "proved", "theorems": ["PolyColl.Props.C53_sample", "PolyColl.Props.C53_subsequence"], "note": ""},
  {"property": "C54", "status": "proved", "theorems": ["PolyColl.Props.C54_is_partitioned", "PolyColl.Props.C54_partitioned", "PolyColl.Props.C54_partition_point", "PolyColl.Props.C54_boundary"], "note": ""},
  {"property": "C55", "status": "proved", "theorems": ["PolyColl.Props.C55_static_type", "PolyColl.Props.C55_set", "PolyColl.Props.C55_predicates", "PolyColl.Props.C55_for_each", "PolyColl.Props.C55_equal", "PolyColl.Props.C55_copies", "PolyColl.Props.C55_n", "PolyColl.Props.C55_rotate_copy", "PolyColl.Props.C55_unique_copy", "PolyColl.Props.C55_finds", "PolyColl.Props.C55_searches", "PolyColl.Props.C55_adjacent_find", "PolyColl.Props.C55_is_permutation"], "note": "For the predicates of adjacent_find and unique_copy see C56; for those that do not distinguish, these algorithms are included here."},
  {"property": "C56", "status": "partial", "theorems": ["PolyColl.Props.C56_adjacent_find_false", "PolyColl.Props.C56_unique_copy_false", "PolyColl.Props.C56_consequence", "PolyColl.Props.C56_adjacent_find_partial", "PolyColl.Props.C56_unique_copy_partial"], "note": "False: across segments the first argument is passed as value_type&: C56_adjacent_find_false, C56_unique_copy_false. What does hold (second argument always, first argument within a segment) is in the partial theorems."},
  {"property": "C57", "status": "proved", "theorems": ["PolyColl.Props.C57_address", "PolyColl.Props.C57_disjoint", "PolyColl.Props.C57_increment", "PolyColl.Props.C57_decrement", "PolyColl.Props.C57_advance", "PolyColl.Props.C57_back", "PolyColl.Props.C57_difference", "PolyColl.Props.C57_less", "PolyColl.Props.C57_equal", "PolyColl.Props.C57_position", "PolyColl.Props.C57_traversal", "PolyColl.Props.C57_segment", "PolyColl.Props.C57_past_the_end", "PolyColl.Props.C57_inside"], "note": "Where pointers to the base subobject may be formed one position past the last one. In the letter of the standard that excludes the end of a full segment if the base is at a nonzero offset: C57_past_the_end, C57_inside."},
  {"property": "C58", "status": "partial", "theorems": ["PolyColl.Props.C58_hint_after_rehash", "PolyColl.Props.C58_increment_after_rehash", "PolyColl.Props.C58_rehash", "PolyColl.Props.C58_register_partial", "PolyColl.Props.C58_only_definedness"], "note": "Refuted for standard libraries whose rehash invalidates iterators: C58_hint_after_rehash, C58_increment_after_rehash, and in general C58_rehash. Proved if rehashing leaves iterators alone or no segment is created; access to elements survives always. C58_only_definedness: invalidation by rehashing makes programs undefined but changes no result."},
  {"property": "C59", "status": "partial", "theorems": ["PolyColl.Props.C59_usable_partial", "PolyColl.Props.C59_single_pass", "PolyColl.Props.C59_hint", "PolyColl.Props.C59_prefixes"], "note": "Holds for operations that do not insert several elements in one go at a hint or out of a single-pass range, and do not shift elements whose moves throw; refuted for these by C59_single_pass and C59_hint. Even then the loop from begin() to end() is undefined or meets first elements of each segment only (C59_prefixes)."},
  {"property": "C60", "status": "partial", "theorems": ["PolyColl.Props.C60_clear_partial", "PolyColl.Props.C60_clear_base_collection", "PolyColl.Props.C60_reserve_base_collection", "PolyColl.Props.C60_reserve_partial", "PolyColl.Props.C60_reserve", "PolyColl.Props.C60_reserve_always", "PolyColl.Props.C60_shrink_partial", "PolyColl.Props.C60_clear", "PolyColl.Props.C60_reserve_small", "PolyColl.Props.C60_shrink_full", "PolyColl.Props.C60_copy_partial", "PolyColl.Props.C60_repeated"], "note": "Holds for base_collection after any number of failures (C60_clear_base_collection; reserve(0) mends it without loss, C60_reserve_base_collection), for clear() of the others after one failed operation (construction by move with an allocator included), for reserve(n) beyond all capacities of any collection after any number of failures (C60_reserve_always; C60_reserve says what a reserve that throws leaves in the states after one failed operation), for shrink_to_fit() after one failed operation if memory is given back for each segment that is not empty (C60_shrink_partial), and for copying after any number of failures. Refuted for clear() after several failed erasures (C60_repeated), for reserve(n) within the capacity (C60_reserve_small), and for shrink_to_fit() of full segments (C60_shrink_full)."},
  {"property": "C61", "status": "proved", "theorems": ["PolyColl.Props.C61_steady", "PolyColl.Props.C61_reads", "PolyColl.Props.C61_threads", "PolyColl.Props.C61_threads_steady", "PolyColl.Props.C61_thread_alone", "PolyColl.Props.C61_defined"], "note": ""},
  {"property": "C62", "status": "proved", "theorems": ["PolyColl.Props.C62_advance", "PolyColl.Props.C62_advance_beyond", "PolyColl.Props.C62_difference", "PolyColl.Props.C62_less", "PolyColl.Props.C62_equal", "PolyColl.Props.C62_apart", "PolyColl.Props.C62_subscript", "PolyColl.Props.C62_ends", "PolyColl.Props.C62_convert"], "note": ""},
  {"property": "C63", "status": "proved", "theorems": ["PolyColl.Props.C63_local", "PolyColl.Props.C63_global", "PolyColl.Props.C63_readback"], "note": ""},
  {"property": "C64", "status": "partial", "theorems": ["PolyColl.Props.C64_self_partial", "PolyColl.Props.C64_rebinds", "PolyColl.Props.C64_wrong_type", "PolyColl.Props.C64_traversal"], "note": "Holds only for self-assignment: any other assignment rebinds the iterator (C64_rebinds), with wrong traversals, even after clear() (C64_traversal), and pointers of the wrong type (C64_wrong_type)."},
  {"property": "C65", "status": "proved", "theorems": ["PolyColl.Props.C65_requests", "PolyColl.Props.C65_step", "PolyColl.Props.C65_step_hint", "PolyColl.Props.C65_program", "PolyColl.Props.C65_independent"], "note": "C65_step_hint extends the refinement to hinted insertions of types not registered yet, which may be undefined because of a rehash (C06, C11 say when)."},
  {"property": "C66", "status": "proved", "theorems": ["PolyColl.Props.C66_cause", "PolyColl.Props.C66_cause_equal", "PolyColl.Props.C66_throws", "PolyColl.Props.C66_unregistered", "PolyColl.Props.C66_returns", "PolyColl.Props.C66_returns_hint", "PolyColl.Props.C66_never"], "note": ""},
  {"property": "C67", "status": "proved", "theorems": ["PolyColl.Props.C67_not_swallowed", "PolyColl.Props.C67_not_swallowed_equal", "PolyColl.Props.C67_program"], "note": ""},
  {"property": "C68", "status": "proved", "theorems": ["PolyColl.Props.C68_exact", "PolyColl.Props.C68_never"], "note": ""},
  {"property": "C69", "status": "proved", "theorems": ["PolyColl.Props.C69_answers"], "note": ""},
  {"property": "C70", "status": "proved", "theorems": ["PolyColl.Props.C70_object", "PolyColl.Props.C70_insert", "PolyColl.Props.C70_insert_unregistered", "PolyColl.Props.C70_insert_pos_base", "PolyColl.Props.C70_insert_pos_local", "PolyColl.Props.C70_insert_own", "PolyColl.Props.C70_insert_range", "PolyColl.Props.C70_insert_pos_range_base", "PolyColl.Props.C70_insert_pos_range_local", "PolyColl.Props.C70_part_of_element", "PolyColl.Props.C70_own_wrapper", "PolyColl.Props.C70_insert_hint", "PolyColl.Props.C70_insert_hint_range"], "note": ""},
  {"property": "C71", "status": "partial", "theorems": ["PolyColl.Props.C71_lifetimes", "PolyColl.Props.C71_values", "PolyColl.Props.C71_noexcept_partial", "PolyColl.Props.C71_throwing", "PolyColl.Props.C71_terminates", "PolyColl.Props.C71_equal", "PolyColl.Props.C71_allocator_partial", "PolyColl.Props.C71_model", "PolyColl.Props.C71_emulated_assignment", "PolyColl.Props.C71_not_acceptable"], "note": "Missing: that all elements are constructed and destroyed by the user's allocator if the type is not move assignable; false there (C71_emulated_assignment). And the exception specifications with allocators whose construct can throw where the copy or move constructor cannot; false there (C71_terminates). The rest of the property is proved for all acceptable types."},
  {"property": "C72", "status": "proved", "theorems": ["PolyColl.Props.C72_sizes", "PolyColl.Props.C72_contents", "PolyColl.Props.C72_full"], "note": ""},
  {"property": "C73", "status": "proved", "theorems": ["PolyColl.Props.C73_owner", "PolyColl.Props.C73_allocated", "PolyColl.Props.C73_segments", "PolyColl.Props.C73_apart", "PolyColl.Props.C73_element"], "note": ""},
  {"property": "C74", "status": "partial", "theorems": ["PolyColl.Props.C74_same_partial", "PolyColl.Props.C74_storage_partial", "PolyColl.Props.C74_deleter_partial", "PolyColl.Props.C74_nothing_left_partial", "PolyColl.Props.C74_destroy_partial", "PolyColl.Props.C74_failed_partial", "PolyColl.Props.C74_copy_undefined"], "note": "Missing: segments copied without an allocator, or assigned with a propagating one, when select_on_container_copy_construction returns another allocator; false there (C74_copy_undefined: the storage is returned to an allocator it did not come from)."},
  {"property": "C75", "status": "partial", "theorems": ["PolyColl.Props.C75_index_partial", "PolyColl.Props.C75_reference_partial", "PolyColl.Props.C75_reference_local_partial", "PolyColl.Props.C75_observers", "PolyColl.Props.C75_call", "PolyColl.Props.C75_function", "PolyColl.Props.C75_stays", "PolyColl.Props.C75_dangling", "PolyColl.Props.C75_call_all_partial", "PolyColl.Props.C75_insert", "PolyColl.Props.C75_ampersand", "PolyColl.Props.C75_own_type", "PolyColl.Props.C75_own_type_register"], "note": "Missing: element types that overload unary & (C75_ampersand: the wrapper then holds another address and calls are undefined) and elements that are callable_wrappers of the same signature (C75_own_type: registering the type is already undefined)."},
  {"property": "C76", "status": "partial", "theorems": ["PolyColl.Props.C76_iterators", "PolyColl.Props.C76_local", "PolyColl.Props.C76_find_if", "PolyColl.Props.C76_find_if_not", "PolyColl.Props.C76_find_first_of", "PolyColl.Props.C76_mismatch4", "PolyColl.Props.C76_mismatch3", "PolyColl.Props.C76_search_n", "PolyColl.Props.C76_adjacent_find_partial", "PolyColl.Props.C76_adjacent_find_split", "PolyColl.Props.C76_adjacent_find_apart_partial", "PolyColl.Props.C76_adjacent_missed"], "note": "Missing: adjacent_find in a base_collection where the end of a full segment has the address of an element of another segment; false there (C76_adjacent_missed: neighbours with the property are not found)."},
  {"property": "C77", "status": "partial", "theorems": ["PolyColl.Props.C77_assign_partial", "PolyColl.Props.C77_moveAssign", "PolyColl.Props.C77_mismatch", "PolyColl.Props.C77_undefined"], "note": "Missing: copy assignment with propagate_on_container_copy_assignment and a select_on_container_copy_construction that returns another allocator; false there (C77_mismatch, C77_undefined)."},
  {"property": "C78", "status": "partial", "theorems": ["PolyColl.Props.C78_object", "PolyColl.Props.C78_holder", "PolyColl.Props.C78_pair_partial", "PolyColl.Props.C78_lvalue_pair", "PolyColl.Props.C78_segment_partial", "PolyColl.Props.C78_constructors", "PolyColl.Props.C78_well_formed", "PolyColl.Props.C78_segment_copy", "PolyColl.Props.C78_segment_lvalue", "PolyColl.Props.C78_mapEmplace", "PolyColl.Props.C78_moveNodes", "PolyColl.Props.C78_copyNodes"], "note": "Missing: pairs given as non-const lvalues, which are copied without the allocator (C78_lvalue_pair, C78_segment_lvalue)."},
  {"property": "C79", "status": "partial", "theorems": ["PolyColl.Props.C79_tests", "PolyColl.Props.C79_for_each", "PolyColl.Props.C79_find", "PolyColl.Props.C79_search", "PolyColl.Props.C79_search_n", "PolyColl.Props.C79_mismatch", "PolyColl.Props.C79_is_permutation", "PolyColl.Props.C79_is_permutation_equal", "PolyColl.Props.C79_partition_point", "PolyColl.Props.C79_copy", "PolyColl.Props.C79_copy_functor", "PolyColl.Props.C79_unique_copy", "PolyColl.Props.C79_sample", "PolyColl.Props.C79_find_end_partial", "PolyColl.Props.C79_find_end_exceeds"], "note": "Missing: the bound of the standard for find_end, M*(N-M+1); false (C79_find_end_exceeds), the bound N*M is proved."},
  {"property": "C80", "status": "proved", "theorems": ["PolyColl.Props.C80_for_each", "PolyColl.Props.C80_for_each_n", "PolyColl.Props.C80_move", "PolyColl.Props.C80_determined", "PolyColl.Props.C80_reading"], "note": ""},
  {"property": "C81", "status": "proved", "theorems": ["PolyColl.Props.C81_objects", "PolyColl.Props.C81_terminal", "PolyColl.Props.C81_collection", "PolyColl.Props.C81_local", "PolyColl.Props.C81_exactly", "PolyColl.Props.C81_equal"], "note": "All four forms of ranges; exactness for ranges of another collection."},
  {"property": "C82", "status": "proved", "theorems": ["PolyColl.Props.Interface.C82_documented", "PolyColl.Props.Interface.C82_exactly", "PolyColl.Props.Interface.C82_closed", "PolyColl.Props.Interface.C82_unambiguous", "PolyColl.Props.Interface.C82_emplace_pos", "PolyColl.Props.Interface.C82_erase", "PolyColl.Props.Interface.C82_dispatch", "PolyColl.Props.Interface.C82_deduction", "PolyColl.Props.Interface.C82_viable", "PolyColl.Props.Interface.C82_not_viable", "PolyColl.Props.Interface.C82_resolution"], "note": "Documentation as a relation between argument types and functions. C82_exactly and C82_closed assume that foreign types do not convert to the iterators. Overload resolution itself is stated for any overloads (C82_deduction, C82_viable, C82_resolution)."},
  {"property": "C83", "status": "partial", "theorems": ["PolyColl.Props.Interface.C83_everything", "PolyColl.Props.Interface.C83_documented", "PolyColl.Props.Interface.C83_implicit_partial", "PolyColl.Props.Interface.C83_unambiguous", "PolyColl.Props.Interface.C83_explicit", "PolyColl.Props.Interface.C83_unrelated", "PolyColl.Props.Interface.C83_how", "PolyColl.Props.Interface.C83_const_lost", "PolyColl.Props.Interface.C83_retyped"], "note": "Missing: explicit conversions drop const and change the element type, implicit ones can go to an iterator for a base class of the element type; both refuted (C83_const_lost, C83_everything, C83_retyped). C83_explicit says exactly which explicit conversions there are."},
  {"property": "C84", "status": "partial", "theorems": ["PolyColl.Props.C84_meter", "PolyColl.Props.C84_direct", "PolyColl.Props.C84_room", "PolyColl.Props.C84_reserve", "PolyColl.Props.C84_shrink_idle", "PolyColl.Props.C84_amortised_partial", "PolyColl.Props.C84_reserve_needs_exact", "PolyColl.Props.C84_range_quadratic"], "note": "Amortised bound for sequences of operations within a third of max_size(). Missing: near max_size() growth is not geometric (C32_quadratic), and forward ranges in split segments take quadratic time when inserted one after the other (refuted, C84_range_quadratic). Work is counted by a meter shown to agree with the model in sizes, capacities and steps that may fail."},
  {"property": "C85", "status": "proved", "theorems": ["PolyColl.Props.C85_insertion", "PolyColl.Props.C85_erasure", "PolyColl.Props.C85_capacity", "PolyColl.Props.C85_creation", "PolyColl.Props.C85_reserve_wraps", "PolyColl.Props.C85_collections", "PolyColl.Props.C85_positions"], "note": "For machines with 2*max_size()+2 numbers or more (std::ptrdiff_t), forward ranges of a length that fits std::ptrdiff_t, and totals that fit std::size_t. One sum does wrap around, harmlessly (C85_reserve_wraps)."},
  {"property": "C86", "status": "partial", "theorems": ["PolyColl.Props.C86_for_each_n", "PolyColl.Props.C86_search_n", "PolyColl.Props.C86_copy_n_partial", "PolyColl.Props.C86_copy_n_ill_formed", "PolyColl.Props.C86_sample_converted", "PolyColl.Props.C86_sample_partial", "PolyColl.Props.C86_sample_nothing", "PolyColl.Props.C86_sample_lost", "PolyColl.Props.C86_sample_undefined", "PolyColl.Props.C86_sample_ub"], "note": "for_each_n and search_n for all types. Missing: copy_n for types other than std::ptrdiff_t (does not compile: C86_copy_n_ill_formed); sample for types that do not have the distance among their values (refuted: C86_sample_converted, C86_sample_lost, C86_sample_ub)."},
  {"property": "C87", "status": "partial", "theorems": ["PolyColl.Props.C87_same", "PolyColl.Props.C87_counted", "PolyColl.Props.C87_begin", "PolyColl.Props.C87_increment", "PolyColl.Props.C87_traversal", "PolyColl.Props.C87_walk", "PolyColl.Props.C87_sweep", "PolyColl.Props.C87_erase_partial", "PolyColl.Props.C87_erase_range_partial", "PolyColl.Props.C87_clear", "PolyColl.Props.C87_empty_size", "PolyColl.Props.C87_begin_far", "PolyColl.Props.C87_erase_far"], "note": "Work on elements and segments looked at are given exactly; the former is as documented. Missing: the number of segments looked at by erase is not bounded by the documented complexity (refuted: C87_erase_far)."},
  {"property": "C88", "status": "partial", "theorems": ["PolyColl.Props.Accept.C88_calls", "PolyColl.Props.Accept.C88_moves", "PolyColl.Props.Accept.C88_function_needs", "PolyColl.Props.Accept.C88_function_addresses", "PolyColl.Props.Accept.C88_function_partial", "PolyColl.Props.Accept.C88_function_mutable", "PolyColl.Props.Accept.C88_function_rvalue", "PolyColl.Props.Accept.C88_function_lvalue", "PolyColl.Props.Accept.C88_base_partial", "PolyColl.Props.Accept.C88_base_virtual", "PolyColl.Props.Accept.C88_base_private", "PolyColl.Props.Accept.C88_base_ambiguous", "PolyColl.Props.Accept.C88_any", "PolyColl.Props.Accept.C88_any_elsewhere", "PolyColl.Props.Accept.C88_equal_partial", "PolyColl.Props.Accept.C88_equal_nonconst", "PolyColl.Props.Accept.C88_equal_noexcept"], "note": "Types with const operator() without ref-qualifier, one public non-virtual way to the base, comparison of const operands. Missing (refuted: C88_function_mutable, C88_function_rvalue, C88_function_lvalue, C88_base_virtual, C88_base_private, C88_base_ambiguous, C88_any_elsewhere, C88_equal_nonconst, C88_equal_noexcept)."},
  {"property": "C89", "status": "partial", "theorems": ["PolyColl.Props.C89_segment", "PolyColl.Props.C89_traversal", "PolyColl.Props.C89_kept_partial", "PolyColl.Props.C89_registered", "PolyColl.Props.C89_rehash", "PolyColl.Props.C89_rehash_witness", "PolyColl.Props.C89_elements"], "note": "As long as no other type is registered, or rehashing does not invalidate iterators of the map. Missing: collections that have been rehashed since (refuted: C89_rehash, C89_rehash_witness)."},
  {"property": "C90", "status": "partial", "theorems": ["PolyColl.Props.C90_partial", "PolyColl.Props.C90_hint_partial", "PolyColl.Props.C90_construct_partial", "PolyColl.Props.C90_same", "PolyColl.Props.C90_never", "PolyColl.Props.C90_undefined", "PolyColl.Props.C90_witness"], "note": "For iterators whose value type is the type of the objects referred to, or is not terminal; with a hint as in C11. Missing: other iterators with a terminal value type (refuted: C90_never, C90_undefined, C90_witness)."},
  {"property": "C91", "status": "partial", "theorems": ["PolyColl.Props.C91_kept_partial", "PolyColl.Props.C91_local_partial", "PolyColl.Props.C91_registered_partial", "PolyColl.Props.C91_rehash"], "note": "Reading through every iterator with an exact vector::reserve or base_collection, and through local_iterator always; all other uses as long as the map is not rehashed. Missing: base iterators of any_collection and function_collection when vector::reserve allocates more than asked for (refuted: C27_index_moves), advancing after a rehash (refuted: C91_rehash)."},
  {"property": "C92", "status": "partial", "theorems": ["PolyColl.Props.TypeLists.C92_exactly", "PolyColl.Props.TypeLists.C92_storable_partial", "PolyColl.Props.TypeLists.C92_arbitrary", "PolyColl.Props.TypeLists.C92_elements", "PolyColl.Props.TypeLists.C92_two_ranges"], "note": "For lists of types to which base iterators convert: those that can be elements, any type in an any_collection. Missing: lists of arbitrary types (refuted: C92_arbitrary)."},
  {"property": "C93", "status": "partial", "theorems": ["PolyColl.Props.C93_partition_point_partial", "PolyColl.Props.C93_converted", "PolyColl.Props.C93_partition_point_false", "PolyColl.Props.C93_dangling", "PolyColl.Props.C93_is_permutation4_partial", "PolyColl.Props.C93_is_permutation3_partial", "PolyColl.Props.C93_is_permutation_false"], "note": "If the truth of answers survives the conversion to the type of the answers for a value_type&. Missing: other predicates, for which the statement is false (C93_partition_point_false, C93_dangling, C93_is_permutation_false)."},
  {"property": "C94", "status": "proved", "theorems": ["PolyColl.Props.TypeLists.C94_only"], "note": ""},
  {"property": "C95", "status": "partial", "theorems": ["PolyColl.Props.Functors.C95_unqualified_partial", "PolyColl.Props.Functors.C95_needed", "PolyColl.Props.Functors.C95_lvalue", "PolyColl.Props.Functors.C95_answers", "PolyColl.Props.Functors.C95_rvalue_type"], "note": "For predicates whose call operators have no ref-qualifiers and whose answers for a T& convert to the type of those for a value_type&. Missing: other predicates, for which the statement is false (C95_lvalue, C95_rvalue_type, C95_answers)."},
  {"property": "C96", "status": "partial", "theorems": ["PolyColl.Props.IterTypes.C96_local", "PolyColl.Props.IterTypes.C96_iterator", "PolyColl.Props.IterTypes.C96_same_partial", "PolyColl.Props.IterTypes.C96_const_value_differs", "PolyColl.Props.IterTypes.C96_info"], "note": "All iterators but const_iterator; reference and pointer types and category of const_iterator. Missing: the value type of const_iterator, for which the statement is false (C96_const_value_differs)."},
  {"property": "C97", "status": "partial", "theorems": ["PolyColl.Props.C97_moveAssign_partial", "PolyColl.Props.C97_nothing", "PolyColl.Props.C97_emptied", "PolyColl.Props.C97_full", "PolyColl.Props.C97_clear"], "note": "Missing: the source if elements are moved one by one and the map keeps its segments. False there: traversing the source is undefined (C97_emptied) or it still has its elements (C97_full). Calling clear() on the source helps (C97_clear)."}
]}
