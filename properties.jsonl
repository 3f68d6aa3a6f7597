{"id": "C01", "title": "Lookup by type is right after every history", "statement": "Looking a type up in a collection always reaches the segment of exactly that type, whichever of the possibly several std::type_info objects describing the type is used for the look-up and whatever registrations, rehashes, look-ups, copies, moves, assignments and swaps happened before; an unregistered type is never found.", "quantifier": "every finite history of map operations, every hash/rehash behaviour of the underlying unordered_map, every aliasing of type_info objects", "why_tests_cant": "The internal look-up cache goes stale only after particular interleavings of rehash, aliasing and copy/move; tests exercise a handful and only one type_info object per type.", "anchors": ["include/boost/poly_collection/detail/type_info_map.hpp: type_info_map::find, insert, build_cache, rebuild_cache, operator=, swap"]}
{"id": "C02", "title": "Registered types stay registered", "statement": "Once a type is registered it stays registered through every operation other than being moved from, assigned to or swapped; registering it again changes nothing: no element of any segment is lost, moved or altered.", "quantifier": "every collection state, every list of types to register, every non-move/assign/swap operation", "why_tests_cant": "Universally quantified over states and operations; tests check a few.", "anchors": ["include/boost/poly_collection/detail/poly_collection.hpp: register_types, is_registered", "include/boost/poly_collection/detail/type_info_map.hpp: insert"]}
{"id": "C03", "title": "One segment per type, and segments are homogeneous", "statement": "In every reachable collection there is at most one segment per type, the type reported for a segment is the type of all its elements, and is_registered<T>() holds exactly when that segment exists.", "quantifier": "all reachable collection states", "why_tests_cant": "It is an invariant over all operation histories.", "anchors": ["include/boost/poly_collection/detail/poly_collection.hpp: get_map_iterator_for, register_types, is_registered, segment_traversal", "include/boost/poly_collection/detail/type_info_map.hpp: insert"]}
{"id": "C04", "title": "Segment access for an unregistered type throws and has no effect", "statement": "Every segment-specific query or modifier other than reserve<T>, emplace and register_types, applied to a type that is not registered, throws unregistered_type carrying that very type and leaves the collection exactly as it was.", "quantifier": "every collection state and every unregistered type", "why_tests_cant": "Tests check that some calls throw; not that every state is left untouched, nor that the right type is reported.", "anchors": ["include/boost/poly_collection/detail/poly_collection.hpp: get_map_iterator_for(const std::type_info&), size, empty, capacity, clear, begin, end, reserve, segment", "include/boost/poly_collection/exception.hpp: unregistered_type"]}
{"id": "C05", "title": "emplace puts one element at the end of its segment", "statement": "emplace<U>(args) registers U if needed, appends exactly the constructed element to the segment of U, changes no other segment and no other element, and returns an iterator that dereferences to the new element.", "quantifier": "every collection state, type and value, every capacity situation (with or without reallocation), both segment layouts", "why_tests_cant": "Depends on internal capacity, index rebuilding and cached sentinels, in unboundedly many states.", "anchors": ["include/boost/poly_collection/detail/poly_collection.hpp: emplace", "include/boost/poly_collection/detail/packed_segment.hpp: nv_emplace_back", "include/boost/poly_collection/detail/split_segment.hpp: nv_emplace_back, prereserve, expand, push_index_entry"]}
{"id": "C06", "title": "Position hints are honoured or ignored as documented", "statement": "emplace_hint/insert(hint,x) put the new element immediately before the hint when the hint points into the segment of the element's type and at the end of that segment otherwise; nothing else changes and the returned iterator points to the new element.", "quantifier": "every collection state, every valid hint including end(), every element", "why_tests_cant": "Unbounded states and hints.", "anchors": ["include/boost/poly_collection/detail/poly_collection.hpp: emplace_hint, insert(const_iterator,T&&)"]}
{"id": "C07", "title": "insert(x): who gets registered, who throws", "statement": "For static type T and dynamic type Q of x: if Q is registered the element goes to Q's segment; otherwise, if Q is T and T is storable, the type is registered and the element goes to a new segment; otherwise unregistered_type{Q} is thrown and the collection is unchanged. An object is never sliced: the segment that receives it is always that of its dynamic type.", "quantifier": "every collection state, every pair (T,Q), every kind of T (terminal or not, acceptable or not)", "why_tests_cant": "The decision is spread over four overloads selected by traits; tests sample some combinations.", "anchors": ["include/boost/poly_collection/detail/poly_collection.hpp: insert, get_map_iterator_for(const T&), push_back"]}
{"id": "C08", "title": "Positional insertion into a segment", "statement": "emplace_pos and insert at a local iterator place the element exactly before that position of the segment, keep the relative order of all other elements of the segment and leave other segments alone.", "quantifier": "every collection state and local position including the segment's end", "why_tests_cant": "Positions interact with reallocation and index rebuilding.", "anchors": ["include/boost/poly_collection/detail/poly_collection.hpp: emplace_pos, insert(local_base_iterator,T&&), local_insert", "include/boost/poly_collection/detail/split_segment.hpp: nv_emplace, nv_insert, prereserve(p)", "include/boost/poly_collection/detail/packed_segment.hpp: nv_emplace, nv_insert"]}
{"id": "C09", "title": "Range insertion equals one-by-one insertion", "statement": "insert(first,last) of a range of storable objects leaves every segment with its old elements followed by exactly the inserted elements of that type, in range order.", "quantifier": "every collection state and every finite range", "why_tests_cant": "Unbounded ranges and states, two code paths (terminal / non terminal) and two iterator categories.", "anchors": ["include/boost/poly_collection/detail/poly_collection.hpp: insert(InputIterator,InputIterator)", "include/boost/poly_collection/detail/split_segment.hpp: insert(...,input_iterator_tag), insert(...,forward_iterator_tag)"]}
{"id": "C10", "title": "Inserting from another collection registers types and cannot fail for registration", "statement": "insert(it1,it2) with iterators of another collection of the same kind never throws unregistered_type; it registers the types it meets and appends to each segment the elements of that type in traversal order. The source is unchanged.", "quantifier": "every pair of collections, every iterator range of the source", "why_tests_cant": "Unbounded pairs of states.", "anchors": ["include/boost/poly_collection/detail/poly_collection.hpp: insert(iterator_impl,iterator_impl), insert(local_iterator_impl,local_iterator_impl), get_map_iterator_for(const T&,const segment_type&)"]}
{"id": "C11", "title": "Hinted range insertion keeps the block together before the hint", "statement": "insert(hint,first,last) puts the elements of the hint's type, in order, immediately before the element the hint pointed to, even when reallocations happen meanwhile, and appends the rest to their segments in order.", "quantifier": "every collection state, hint and finite range, every pattern of reallocations", "why_tests_cant": "The hint is rewritten after each insertion; tests use short ranges.", "anchors": ["include/boost/poly_collection/detail/poly_collection.hpp: insert(const_iterator,InputIterator,InputIterator) and overloads"]}
{"id": "C12", "title": "Local range insertion: order and returned position", "statement": "insert(pos,first,last) at a local position inserts the range contiguously and in order before pos and returns an iterator to the first inserted element (or pos if the range is empty).", "quantifier": "every segment state, position and finite range, input and forward iterators", "why_tests_cant": "The return value is computed by subtracting a count after the position was moved through reallocations.", "anchors": ["include/boost/poly_collection/detail/poly_collection.hpp: insert(local_base_iterator_impl,...), insert(local_iterator_impl,...)", "include/boost/poly_collection/detail/split_segment.hpp: insert(...,input_iterator_tag), insert(...,forward_iterator_tag)", "include/boost/poly_collection/detail/packed_segment.hpp: nv_insert"]}
{"id": "C13", "title": "Inserting a copy of an element of the same collection", "statement": "insert(x) where x refers to an element held by the collection itself has the effect of inserting an independent copy, in every capacity situation.", "quantifier": "every collection state and every element of it", "why_tests_cant": "Only goes wrong when the segment is exactly full at the time of the call.", "anchors": ["include/boost/poly_collection/detail/split_segment.hpp: nv_push_back, nv_insert, prereserve", "include/boost/poly_collection/detail/packed_segment.hpp: nv_push_back, nv_insert"]}
{"id": "C14", "title": "Copying a non-copyable element throws not_copy_constructible and changes no element", "statement": "An insertion that would need to copy an element of a non-copy-constructible type throws not_copy_constructible with that type; all elements and sizes of the collection are as before (the type may have become registered).", "quantifier": "every collection state, non-copyable type and position", "why_tests_cant": "Must hold for all states at the moment of failure.", "anchors": ["include/boost/poly_collection/detail/value_holder.hpp: value_holder::copy", "include/boost/poly_collection/detail/poly_collection.hpp: insert", "include/boost/poly_collection/exception.hpp: not_copy_constructible"]}
{"id": "C15", "title": "base_collection: a throwing insertion leaves the collection as it was", "statement": "For base_collection and element types whose move operations do not throw, if a single-element insertion throws at any point (allocation, constructor) then every element, the traversal and all iterators are as before; at most an empty segment was added.", "quantifier": "every fault schedule (which allocation or user operation throws), every state, type and position", "why_tests_cant": "Quantifies over all crash points.", "anchors": ["include/boost/poly_collection/detail/packed_segment.hpp: nv_emplace, nv_emplace_back, nv_push_back, nv_insert", "include/boost/poly_collection/detail/segment.hpp: filter"]}
{"id": "C16", "title": "any_collection/function_collection: collection is traversable after a throwing operation", "statement": "After an insertion or reserve on an any_collection or function_collection throws, the collection still holds its elements and can be traversed from begin() to end().", "quantifier": "every fault schedule and state", "why_tests_cant": "Fails only if the exception occurs after the index was reallocated.", "anchors": ["include/boost/poly_collection/detail/segment.hpp: filter, sentinel", "include/boost/poly_collection/detail/split_segment.hpp: prereserve, expand, nv_reserve, nv_push_back", "include/boost/poly_collection/detail/iterator_impl.hpp: next_segment_position"]}
{"id": "C17", "title": "Throwing erase leaves a consistent segment", "statement": "If the move assignment of an element throws during erase(pos), the segment remains consistent: it can be traversed and every base iterator refers to the element its position says.", "quantifier": "every state, position and fault schedule", "why_tests_cant": "Quantifies over crash points inside erase.", "anchors": ["include/boost/poly_collection/detail/split_segment.hpp: nv_erase, pop_index_entry", "include/boost/poly_collection/detail/packed_segment.hpp: nv_erase"]}
{"id": "C18", "title": "Move-only elements never cause copy errors", "statement": "Emplacing or moving in elements of an acceptable (MoveConstructible, MoveAssignable) type never throws not_copy_constructible.", "quantifier": "every acceptable element type (whatever its exception specifications) and state", "why_tests_cant": "Depends on the noexcept-ness of the element's move constructor and on reallocation.", "anchors": ["include/boost/poly_collection/detail/value_holder.hpp: value_holder(const value_holder&), value_holder(value_holder&&)", "include/boost/poly_collection/detail/packed_segment.hpp: nv_push_back", "include/boost/poly_collection/detail/is_acceptable.hpp"]}
{"id": "C19", "title": "erase(pos) removes exactly one element", "statement": "erase(pos) removes the element at pos and no other, keeps the order of the rest, and returns the position of the element that followed it in the global traversal (end() if none).", "quantifier": "every collection state and valid position", "why_tests_cant": "The follower may be several empty segments away.", "anchors": ["include/boost/poly_collection/detail/poly_collection.hpp: erase(const_iterator)", "include/boost/poly_collection/detail/iterator_impl.hpp: iterator_impl(mapit,mapend,segpos)", "include/boost/poly_collection/detail/split_segment.hpp: nv_erase", "include/boost/poly_collection/detail/packed_segment.hpp: nv_erase"]}
{"id": "C20", "title": "erase(first,last) removes exactly the range", "statement": "erase(first,last) removes exactly the elements of the global range [first,last), across any number of segments, keeps registration and the order of the rest, and returns an iterator to the element last pointed to.", "quantifier": "every collection state and valid range", "why_tests_cant": "Four cases by segment boundaries, empty segments in between; tests use few layouts.", "anchors": ["include/boost/poly_collection/detail/poly_collection.hpp: erase(const_iterator,const_iterator)", "include/boost/poly_collection/detail/segment.hpp: erase_till_end, erase_from_begin, clear"]}
{"id": "C21", "title": "Local erase and clear", "statement": "Erasing at a local position or local range removes exactly those elements of that segment and returns the following position; clear() empties all segments and keeps all types registered; clear(T) empties only T's segment.", "quantifier": "every collection state, position, range", "why_tests_cant": "Unbounded states.", "anchors": ["include/boost/poly_collection/detail/poly_collection.hpp: erase(local_base_iterator...), clear", "include/boost/poly_collection/detail/split_segment.hpp: nv_clear", "include/boost/poly_collection/detail/packed_segment.hpp: nv_clear"]}
{"id": "C22", "title": "Traversal visits every element exactly once, segment by segment", "statement": "Advancing from begin() reaches end() after exactly size() steps and dereferencing along the way yields the concatenation of all segments' elements in segment order, each in its own order; empty segments are skipped and no invalid memory is touched.", "quantifier": "every reachable collection state", "why_tests_cant": "Termination and absence of undefined behaviour over all states cannot be tested.", "anchors": ["include/boost/poly_collection/detail/iterator_impl.hpp: iterator_impl, increment, next_segment_position", "include/boost/poly_collection/detail/poly_collection.hpp: begin, end", "include/boost/poly_collection/detail/segment.hpp: sentinel"]}
{"id": "C23", "title": "Sizes agree", "statement": "size() is the sum of the segment sizes and the number of traversed elements; empty() holds exactly when size()=0, i.e. when begin()==end().", "quantifier": "every reachable collection state", "why_tests_cant": "Invariant over all states.", "anchors": ["include/boost/poly_collection/detail/poly_collection.hpp: size, empty, begin, end"]}
{"id": "C24", "title": "Iterator equality is position equality", "statement": "Two valid iterators of a collection compare equal exactly when they denote the same element or are both end(), although comparison only looks at the element address.", "quantifier": "every reachable state and every pair of valid iterators", "why_tests_cant": "Depends on no two positions of different segments ever sharing an address.", "anchors": ["include/boost/poly_collection/detail/iterator_impl.hpp: iterator_impl::equal, next_segment_position"]}
{"id": "C25", "title": "Segment order is stable until a segment is created", "statement": "The order in which segments are visited does not change by any operation that does not create a segment.", "quantifier": "every state and operation", "why_tests_cant": "Universal over operations and hash behaviours.", "anchors": ["include/boost/poly_collection/detail/poly_collection.hpp", "include/boost/poly_collection/detail/type_info_map.hpp: insert"]}
{"id": "C26", "title": "segment_traversal covers each registered type once, in traversal order", "statement": "segment_traversal() visits exactly one segment per registered type, in the same order as global traversal, with begin/end delimiting exactly that segment's elements.", "quantifier": "every reachable state", "why_tests_cant": "Universal over states.", "anchors": ["include/boost/poly_collection/detail/poly_collection.hpp: segment_traversal, segment_traversal_info, segment_info_iterator_impl"]}
{"id": "C27", "title": "Iterators before the insertion point survive if capacity suffices", "statement": "An insertion that does not exceed the segment's capacity leaves every iterator to an element before the insertion point valid and pointing to the same element; the same holds for erasure.", "quantifier": "every state, position, iterator", "why_tests_cant": "In the split layout a second vector (the index) must not reallocate either; depends on capacity history.", "anchors": ["include/boost/poly_collection/detail/split_segment.hpp: prereserve, expand, nv_reserve, nv_shrink_to_fit, push_index_entry", "include/boost/poly_collection/detail/packed_segment.hpp"]}
{"id": "C28", "title": "Operations on a segment never invalidate iterators to other segments", "statement": "Inserting into, erasing from, reserving or shrinking a segment leaves every iterator into any other segment valid and pointing to the same element.", "quantifier": "every state, operation and iterator", "why_tests_cant": "Universal over states.", "anchors": ["include/boost/poly_collection/detail/poly_collection.hpp", "include/boost/poly_collection/detail/segment.hpp"]}
{"id": "C29", "title": "Base and local iterators denote the same element and convert back and forth", "statement": "Within a segment, the k-th base iterator converts to the k-th local iterator (also for the end position), the conversion back returns the original, and both dereference to the same stored object.", "quantifier": "every reachable segment state, every k up to the size", "why_tests_cant": "In the split layout this is the store/index coherence invariant, which every mutation must preserve.", "anchors": ["include/boost/poly_collection/detail/iterator_impl.hpp: local_iterator_impl", "include/boost/poly_collection/detail/split_segment.hpp: build_index, rebuild_index", "include/boost/poly_collection/detail/packed_segment.hpp: iterator_from, value_ptr"]}
{"id": "C30", "title": "reserve", "statement": "reserve(n) makes the capacity at least n, changes no element, and subsequent insertions up to n elements do not reallocate; a request above max_size(T) throws length_error without effect, one up to it does not throw length_error, and no segment exceeds it.", "quantifier": "every state and n", "why_tests_cant": "All n and states, including arithmetic at the limits.", "anchors": ["include/boost/poly_collection/detail/poly_collection.hpp: reserve", "include/boost/poly_collection/detail/split_segment.hpp: nv_reserve", "include/boost/poly_collection/detail/packed_segment.hpp: nv_reserve"]}
{"id": "C31", "title": "shrink_to_fit", "statement": "shrink_to_fit() changes no element and leaves capacity at least size and not larger than before (an empty any/function segment may keep room for one), also when an allocation fails midway.", "quantifier": "every state and fault schedule", "why_tests_cant": "Crash points and states.", "anchors": ["include/boost/poly_collection/detail/split_segment.hpp: nv_shrink_to_fit", "include/boost/poly_collection/detail/packed_segment.hpp: nv_shrink_to_fit"]}
{"id": "C32", "title": "Growth policy is sound and amortised", "statement": "When a split segment grows, the new capacity exceeds the size, the size arithmetic never wraps nor exceeds the maximum, and appending n elements one by one to an empty segment relocates at most a constant multiple of n elements in total.", "quantifier": "every size up to max_size, every n", "why_tests_cant": "Boundary arithmetic near max_size cannot be reached in a test.", "anchors": ["include/boost/poly_collection/detail/split_segment.hpp: expand, prereserve"]}
{"id": "C33", "title": "Copies are equal and independent", "statement": "A copy holds the same types and elements in the same per-segment order; later changes to one do not affect the other. Copying throws not_copy_constructible exactly when some non-empty segment has a non-copyable type (and nothing else fails).", "quantifier": "every state and type mix, every later operation", "why_tests_cant": "Independence is a property of all subsequent histories.", "anchors": ["include/boost/poly_collection/detail/poly_collection.hpp: poly_collection(const poly_collection&)", "include/boost/poly_collection/detail/type_info_map.hpp: type_info_map(const type_info_map&), build_cache", "include/boost/poly_collection/detail/segment.hpp: segment(const segment&)", "include/boost/poly_collection/detail/split_segment.hpp: copy", "include/boost/poly_collection/detail/packed_segment.hpp: copy"]}
{"id": "C34", "title": "Moves transfer everything and leave a usable empty source", "statement": "After move construction or assignment the destination holds exactly the source's segments and elements and the source is a usable collection with no elements.", "quantifier": "every pair of states, equal and unequal allocators", "why_tests_cant": "Includes the internal look-up cache of both objects.", "anchors": ["include/boost/poly_collection/detail/type_info_map.hpp: move constructors, operator=(type_info_map&&)", "include/boost/poly_collection/detail/segment.hpp: segment(segment&&,al), operator=(segment&&)"]}
{"id": "C35", "title": "swap exchanges contents and keeps iterators valid", "statement": "swap exchanges the whole contents (elements, registration, look-up behaviour) of two collections; elements are not touched.", "quantifier": "every pair of states", "why_tests_cant": "Cache and map must be swapped consistently in all states.", "anchors": ["include/boost/poly_collection/detail/poly_collection.hpp: swap", "include/boost/poly_collection/detail/type_info_map.hpp: swap"]}
{"id": "C36", "title": "Failed copy assignment leaves a valid empty target; self-assignment is a no-op", "statement": "If copy assignment throws midway, the target is a valid empty collection with consistent look-up; self-assignment changes nothing.", "quantifier": "every pair of states and crash point", "why_tests_cant": "Crash points.", "anchors": ["include/boost/poly_collection/detail/type_info_map.hpp: operator=(const type_info_map&)"]}
{"id": "C37", "title": "Equality means equal non-empty segments", "statement": "a==b holds exactly when every type with elements in either has equal element sequences in both; registration of empty segments, segment order and capacities are irrelevant. At most a.size() elements are compared, nothing is changed and no memory is needed, also if an element's operator== throws. == is an equivalence whenever element equality is (unless an operator== throws), and != is its negation.", "quantifier": "every pair (triple) of states, every fault schedule of operator==", "why_tests_cant": "All pairs of states; the code counts sizes to avoid a second pass.", "anchors": ["include/boost/poly_collection/detail/poly_collection.hpp: operator==, operator!=", "include/boost/poly_collection/detail/segment.hpp: operator=="]}
{"id": "C38", "title": "not_equality_comparable is thrown only when elements must be compared", "statement": "Comparing two collections throws not_equality_comparable only if some non-comparable type has equally many, at least one, elements in both; the only other exceptions are those thrown meanwhile by operator== of a type with equally many elements in both.", "quantifier": "every pair of states and type traits", "why_tests_cant": "All pairs of states.", "anchors": ["include/boost/poly_collection/detail/value_holder.hpp: operator==, equal", "include/boost/poly_collection/detail/poly_collection.hpp: operator=="]}
{"id": "C39", "title": "Every segment uses the collection's allocator", "statement": "In every reachable collection all segments use the collection's allocator, as given at construction or propagated by copy/move assignment and swap according to the allocator's propagation traits.", "quantifier": "every history of operations and propagation traits", "why_tests_cant": "Histories and traits combinations.", "anchors": ["include/boost/poly_collection/detail/type_info_map.hpp: constructors and assignments", "include/boost/poly_collection/detail/segment.hpp: assignments", "include/boost/poly_collection/detail/poly_collection.hpp: get_allocator"]}
{"id": "C40", "title": "Segment objects are freed with the allocator that allocated them", "statement": "Whenever a segment backend is destroyed, the allocator used for deallocation equals the one used for its allocation.", "quantifier": "all ways of creating a segment (make, copy, copy with allocator, empty copy, move) and allocator behaviours", "why_tests_cant": "Only shows with allocators whose select_on_container_copy_construction returns a different allocator.", "anchors": ["include/boost/poly_collection/detail/packed_segment.hpp: new_, delete_, copy", "include/boost/poly_collection/detail/split_segment.hpp: new_, delete_, copy"]}
{"id": "C41", "title": "Algorithm decomposition covers the range exactly", "statement": "The per-segment pieces an algorithm iterates over, concatenated, are exactly the elements of [first,last) in order, each labelled with its real type, for any first and last.", "quantifier": "every collection layout (any number of empty segments) and valid range", "why_tests_cant": "All layouts and ranges.", "anchors": ["include/boost/poly_collection/detail/segment_split.hpp: segment_splitter, for_each_segment"]}
{"id": "C42", "title": "all_of, any_of, none_of", "statement": "poly_collection::all_of/any_of/none_of return what the std homonym returns on the traversal sequence and call the predicate on the same elements in the same order the same number of times.", "quantifier": "every layout, range, predicate (with state) and restitution list", "why_tests_cant": "All layouts and predicates.", "anchors": ["include/boost/poly_collection/algorithm.hpp: all_of, any_of, none_of"]}
{"id": "C43", "title": "for_each, for_each_n", "statement": "for_each calls the function once per element in traversal order; for_each_n exactly on the first n elements and returns the iterator after them.", "quantifier": "every layout, range, n and function (with state)", "why_tests_cant": "All layouts.", "anchors": ["include/boost/poly_collection/algorithm.hpp: for_each, for_each_n", "include/boost/poly_collection/detail/segment_split.hpp: for_each_segment"]}
{"id": "C44", "title": "find, find_if, find_if_not, find_first_of", "statement": "They return the iterator to the first matching element of the range, or last, and evaluate the predicate as std does.", "quantifier": "every layout, range, predicate", "why_tests_cant": "All layouts.", "anchors": ["include/boost/poly_collection/algorithm.hpp: generic_find, find, find_if, find_if_not, find_first_of"]}
{"id": "C45", "title": "adjacent_find across segment boundaries", "statement": "adjacent_find returns the first position whose element and successor in traversal order satisfy the predicate, also when they lie in different segments with empty segments in between.", "quantifier": "every layout, range, predicate", "why_tests_cant": "Carry logic across segments.", "anchors": ["include/boost/poly_collection/algorithm.hpp: adjacent_find_alg, adjacent_find"]}
{"id": "C46", "title": "count, count_if, distance", "statement": "count/count_if return the number of matching elements in the range; the internal distance equals the number of increments from first to last.", "quantifier": "every layout, range, predicate", "why_tests_cant": "All layouts.", "anchors": ["include/boost/poly_collection/algorithm.hpp: generic_count, count, count_if, fast_distance"]}
{"id": "C47", "title": "mismatch and equal", "statement": "mismatch returns the first position where the sequences differ (both iterators), equal tells whether they coincide; both for 3- and 4-iterator forms.", "quantifier": "every layout, range and second sequence", "why_tests_cant": "The second iterator is carried across segments by reference.", "anchors": ["include/boost/poly_collection/algorithm.hpp: mismatch_alg, mismatch, equal_alg, equal"]}
{"id": "C48", "title": "is_permutation", "statement": "is_permutation returns true exactly when the second sequence is a reordering of the first up to the given equivalence.", "quantifier": "every layout, range, second sequence, equivalence relation", "why_tests_cant": "A counting argument over all sequences.", "anchors": ["include/boost/poly_collection/algorithm.hpp: is_permutation, is_permutation_suffix"]}
{"id": "C49", "title": "search and find_end", "statement": "search returns the first, find_end the last, position where the pattern occurs as a contiguous subsequence of the traversal sequence (crossing segments), or last; the empty pattern yields first and last respectively.", "quantifier": "every layout, range, pattern, predicate", "why_tests_cant": "All layouts and patterns.", "anchors": ["include/boost/poly_collection/algorithm.hpp: search, find_end"]}
{"id": "C50", "title": "search_n across segment boundaries", "statement": "search_n returns the first position starting a run of count consecutive matching elements, counted across segments, or last.", "quantifier": "every layout, range, count, predicate", "why_tests_cant": "Run counter carried across segments.", "anchors": ["include/boost/poly_collection/algorithm.hpp: search_n_alg, search_n"]}
{"id": "C51", "title": "copy family", "statement": "copy, copy_n, copy_if, move, transform (unary and binary), replace_copy(_if), remove_copy(_if), rotate_copy and partition_copy write exactly what the std homonym writes, in the same order.", "quantifier": "every layout, range, predicate/operation, n", "why_tests_cant": "All layouts.", "anchors": ["include/boost/poly_collection/algorithm.hpp: generic_copy, copy, copy_n, copy_if, move, transform, replace_copy, replace_copy_if, remove_copy, remove_copy_if, rotate_copy, partition_copy"]}
{"id": "C52", "title": "unique_copy across segment boundaries", "statement": "unique_copy writes the first element of every maximal group of consecutive equivalent elements of the traversal sequence, also when groups span segments.", "quantifier": "every layout, range, equivalence relation", "why_tests_cant": "Carry across segments.", "anchors": ["include/boost/poly_collection/algorithm.hpp: unique_copy_alg, unique_copy"]}
{"id": "C53", "title": "sample", "statement": "sample writes exactly min(n,distance) elements, in traversal order and without repetition, for whatever values the random generator produces, and consumes the generator as the reference selection-sampling algorithm does.", "quantifier": "every layout, range, n and random stream", "why_tests_cant": "All random streams.", "anchors": ["include/boost/poly_collection/algorithm.hpp: sample_alg, sample, fast_distance"]}
{"id": "C54", "title": "is_partitioned and partition_point", "statement": "is_partitioned tells whether all satisfying elements precede the rest; on partitioned ranges partition_point returns the boundary.", "quantifier": "every layout, range, predicate", "why_tests_cant": "Binary search over a forward iterator for all lengths.", "anchors": ["include/boost/poly_collection/algorithm.hpp: is_partitioned, partition_point, partition_point_pred", "include/boost/poly_collection/detail/auto_iterator.hpp"]}
{"id": "C55", "title": "Type restitution passes exactly the right static type and never changes results", "statement": "With alg<Ts...> a functor receives an element as T& if and only if the element's type T is listed in Ts, and as value_type& otherwise; for functors that do not distinguish, the result is the same as without Ts.", "quantifier": "every layout, list Ts (with repetitions), functor and algorithm", "why_tests_cant": "All lists and layouts.", "anchors": ["include/boost/poly_collection/detail/type_restitution.hpp", "include/boost/poly_collection/algorithm.hpp"]}
{"id": "C56", "title": "Restitution holds for both arguments of binary predicates across segments", "statement": "In adjacent_find<Ts...> and unique_copy<Ts...> both arguments of the predicate are restituted, also when the two elements lie in different segments.", "quantifier": "every layout, Ts, predicate", "why_tests_cant": "Only visible to predicates overloaded on concrete types and only at segment boundaries.", "anchors": ["include/boost/poly_collection/algorithm.hpp: adjacent_find_alg (prev_info), unique_copy_alg (prev_info)"]}
{"id": "C57", "title": "Stride iterator arithmetic", "statement": "Base iterators of a packed segment form a random access range: +n/-n/++/-- and difference agree with element positions for every stride and every offset of the base subobject.", "quantifier": "every stride>0, base address, offsets", "why_tests_cant": "Arithmetic over all strides.", "anchors": ["include/boost/poly_collection/detail/stride_iterator.hpp", "include/boost/poly_collection/detail/packed_segment.hpp: nv_begin, nv_end, range_from"]}
{"id": "C58", "title": "Iterators survive creation of other segments", "statement": "Iterators held across the creation of a new segment (hint of a running insertion included) can still be used, relying only on what the standard guarantees for unordered_map.", "quantifier": "every state and rehash behaviour", "why_tests_cant": "Whether a rehash occurs and what it invalidates is implementation-dependent.", "anchors": ["include/boost/poly_collection/detail/iterator_impl.hpp: mapit, mapend", "include/boost/poly_collection/detail/poly_collection.hpp: insert(const_iterator,InputIterator,InputIterator)"]}
{"id": "C59", "title": "base_collection usable after any exception", "statement": "If an operation on a base_collection throws, whatever the reason, the collection can be used without restriction afterwards; in particular the loop from begin() to end() meets exactly size() elements.", "quantifier": "every state, every operation, every failure point", "why_tests_cant": "The cached end of a segment goes stale only at particular failure points of particular insertions.", "anchors": ["include/boost/poly_collection/detail/segment.hpp: filter, set_sentinel, insert", "include/boost/poly_collection/detail/packed_segment.hpp: range, nv_insert"]}
{"id": "C60", "title": "Recovery by clear(), reserve, shrink_to_fit or copying", "statement": "After operations on a collection have thrown, clear() does not throw and leaves an empty collection with the same registered types that can be used without restriction; copying the damaged collection gives a usable one with its elements. A base_collection can also be made usable without loss of elements by reserve(0), which does not throw. After any number of failures this is true of any collection and reserve(n) with n greater than the capacity of each segment, if it returns; if it throws, the elements are unaffected, and reserve can be tried again; after a single failed operation clear can still be used too. After one failed operation it is also true of shrink_to_fit() if it gives back memory for each segment that is not empty, and shrink_to_fit() does no harm otherwise. Other collections are not affected.", "quantifier": "every program, every failed operation, every failure point", "why_tests_cant": "States left behind by failures cannot be enumerated.", "anchors": ["include/boost/poly_collection/detail/poly_collection.hpp: clear, reserve, shrink_to_fit, operator=", "include/boost/poly_collection/detail/split_segment.hpp: clear, erase, copy, nv_shrink_to_fit", "include/boost/poly_collection/detail/segment.hpp: clear"]}
{"id": "C61", "title": "Const operations may run concurrently", "statement": "Operations on a const collection (look-up, iterators, sizes, comparison of positions, reading elements) write nothing to it, not even to internal caches: in any interleaving of calls made by any number of threads each call gives the answer it would give alone (if it compares elements whose operator== throws now and then: at some time). Those without precondition are always defined.", "quantifier": "every state, every set of threads, every interleaving of their calls", "why_tests_cant": "Races show only under particular interleavings.", "anchors": ["include/boost/poly_collection/detail/type_info_map.hpp: find const", "include/boost/poly_collection/detail/poly_collection.hpp: const member functions", "include/boost/poly_collection/detail/segment.hpp: const member functions"]}
{"id": "C62", "title": "Local iterators are random access", "statement": "For local iterators of a segment, it+n, it-n, difference, order, equality and [] do what they do on positions of the sequence of elements; begin and end of a segment are positions 0 and size; the conversion from base to terminal local iterators keeps positions and commutes with arithmetic. Moving an iterator out of its segment is undefined, exactly then.", "quantifier": "every reachable collection, segment and pair of positions, both layouts", "why_tests_cant": "Arithmetic is done on different buffers (elements or index) with different strides depending on layout and iterator kind.", "anchors": ["include/boost/poly_collection/detail/iterator_impl.hpp: local_iterator_impl, base_iterator_from", "include/boost/poly_collection/detail/poly_collection.hpp: segment begin, end"]}
{"id": "C63", "title": "Modification through iterators", "statement": "Modifying an element through an iterator of the collection or a local iterator of either kind reaches exactly the element at the position of the iterator: the others, the segments, their capacities and all iterators stay as they are, and every iterator to the element reads the new value. The same holds if the modification throws.", "quantifier": "every reachable collection, element, iterator and modification, both layouts", "why_tests_cant": "In the split layout references go through an index that is maintained separately by every operation.", "anchors": ["include/boost/poly_collection/detail/iterator_impl.hpp: dereference", "include/boost/poly_collection/detail/callable_wrapper.hpp: operator()", "include/boost/poly_collection/detail/split_segment.hpp: index"]}
{"id": "C64", "title": "Assignment through iterators", "statement": "Elements of a function_collection cannot be made to change places through references obtained from iterators: *it=*jt does not change which element an iterator refers to.", "quantifier": "every reachable collection and pair of elements", "why_tests_cant": "The test suite does not assign references; the damage shows in later operations.", "anchors": ["include/boost/poly_collection/detail/callable_wrapper.hpp: operator=", "include/boost/poly_collection/detail/iterator_impl.hpp: dereference", "include/boost/poly_collection/detail/callable_wrapper_iterator.hpp: operator Callable*"]}
{"id": "C65", "title": "Programs behave like the abstract machine", "statement": "A program that uses collections as documented behaves like an abstract machine that maps types to lists of values: each operation that returns has carried out the request it stands for, each that throws has left what the machine allows for a failed request, and collections not concerned are unchanged. Hence two programs that make the same requests, all of which succeed, end with the same types and elements (unless a request erases a range that spans several segments, whose order is unspecified), whatever the kind of collection, the allocators, the hash function and the growth policy.", "quantifier": "every sequence of documented uses on any number of collections, every environment and fault schedule, both layouts", "why_tests_cant": "Quantifies over whole programs and over all environments; tests run short programs in one environment and compare with expectations written for each.", "anchors": ["include/boost/poly_collection/detail/poly_collection.hpp: class poly_collection", "include/boost/poly_collection/detail/packed_segment.hpp: class packed_segment", "include/boost/poly_collection/detail/split_segment.hpp: class split_segment"]}
{"id": "C66", "title": "Exceptions have causes", "statement": "An operation throws bad_alloc or an exception of user code only if an allocation or an operation of an element failed while it was running, not_copy_constructible (not_equality_comparable) only for a type that is not, unregistered_type only for a type it names that is not registered, and length_error only if a size would exceed a limit; each operation throws nothing but what is listed for it. Hence, if nothing is made to fail, a documented use that keeps within the limits and names registered types returns, with its effect; clear, move construction, swap and, for types whose move assignment does not throw, erasure never throw.", "quantifier": "every operation in every state of the collections (causes outside), every documented use after every program (the lists and the success theorem), every environment and fault schedule, both layouts", "why_tests_cant": "A test can provoke an exception and see it; that no other exception is ever thrown, in any state and with any types, takes a proof over all paths.", "anchors": ["include/boost/poly_collection/exception.hpp", "include/boost/poly_collection/detail/value_holder.hpp", "include/boost/poly_collection/detail/poly_collection.hpp: get_map_iterator_for"]}
{"id": "C67", "title": "No failure is swallowed", "statement": "If an operation returns, none of the allocations and operations of elements it made has failed: a failure always reaches the caller as an exception. If all operations of a program returned, nothing failed since it started.", "quantifier": "every operation in every state of the collections, documented use or not, every program, every environment and fault schedule, both layouts", "why_tests_cant": "A handler that hides a failure shows only if exactly that step fails in exactly that path; the test suite injects no failures.", "anchors": ["include/boost/poly_collection/detail/split_segment.hpp: insert (catch)", "include/boost/poly_collection/detail/type_info_map.hpp: insert (catch)", "include/boost/poly_collection/detail/poly_collection.hpp: class poly_collection"]}
{"id": "C68", "title": "What an operation may fail at", "statement": "An operation that needs no new memory (insertion into a segment with room of a type looked up before, erasure, clear) has an exact number of steps that may throw: constructing each new element, unless that is declared noexcept; shifting the elements after it, unless their move construction and assignment are (once per range, or once per element for single-pass ranges in segments of any_collection and function_collection); closing the gap left by erased elements, unless move assignment is, and nothing if they are the last. It returns if and only if none of these steps fails, and throws the exception of that step otherwise. Hence erasing at the end of a segment, and inserting at the end elements whose construction is noexcept, never throw.", "quantifier": "every reachable collection, every operation of the table with its requirements met, every environment and fault schedule, both layouts", "why_tests_cant": "The test suite neither injects failures nor counts the operations of elements; which of the type's operations matter shows only with types that differ in exactly one noexcept specification.", "anchors": ["include/boost/poly_collection/detail/packed_segment.hpp: emplace, erase", "include/boost/poly_collection/detail/split_segment.hpp: emplace, insert, erase, prereserve", "include/boost/poly_collection/detail/value_holder.hpp"]}
{"id": "C69", "title": "Queries give the right answers", "statement": "Every operation on a const collection and on its iterators, used as documented, gives the answer that follows from the types and sequences of elements of the collection and the positions of the iterators, and changes nothing; it throws only unregistered_type, for a type that is not registered, not_equality_comparable, if elements of such a type would have to be compared, and what operator== of elements throws.", "quantifier": "every reachable collection, every query with its requirements met, every iterator, both layouts", "why_tests_cant": "The test suite checks queries on a few collections; iterator arithmetic in both directions and for both sorts of iterators and comparisons with refusing types are sampled at best.", "anchors": ["include/boost/poly_collection/detail/poly_collection.hpp: begin, end, segment_traversal, empty, size, max_size, capacity, operator==", "include/boost/poly_collection/detail/iterator_impl.hpp", "include/boost/poly_collection/detail/segment.hpp"]}
{"id": "C70", "title": "Insertion takes the whole object", "statement": "Whatever the reference through which insert sees its argument (a reference to a base of the object, a final type, a callable_wrapper or type_erasure::any around the object, or the object itself; lvalue or rvalue), the object that is stored is the complete object designated, in the segment of its type: the address and the type that the code computes agree, no object is sliced or read as an object of another type, and wrappers are not stored instead of what they wrap. If the segment does not exist and the type is not the static type of the argument, unregistered_type is thrown with the type of the object. The object may be an element of the collection itself (see C13). This holds for insertion at the end, with a hint, at a local iterator, and of ranges at any of these places; ranges inserted at a local_iterator<U> may also have elements that designate no U, from which a U is constructed. Wrappers around objects of their own type are excluded (C70_own_wrapper).", "quantifier": "every reachable collection, each of the three polymorphism models, every argument as the language allows, every memory, every fault schedule", "why_tests_cant": "The test suite uses a handful of class hierarchies and wrappers; a wrong address is only noticed if base and object are at different addresses, a wrong type if it has a different layout.", "anchors": ["include/boost/poly_collection/detail/base_model.hpp: is_terminal, subtypeid, subaddress", "include/boost/poly_collection/detail/function_model.hpp: is_terminal, subtypeid, subaddress", "include/boost/poly_collection/detail/any_model.hpp: is_terminal, subtypeid, subaddress", "include/boost/poly_collection/detail/segment.hpp: push_back, push_back_terminal, insert", "include/boost/poly_collection/detail/poly_collection.hpp: get_map_iterator_for, push_back, insert, local_insert"]}
{"id": "C71", "title": "Elements live as long as their holders", "statement": "For every acceptable element type and every client of value_holder that respects the lifetimes of the holders, as std::vector does: the storage of a holder contains an object exactly while the holder is alive; construction and destruction of objects in it alternate; no operation uses, moves from, assigns to or destroys an object that does not exist, or creates one over another, and one that throws leaves all objects as they were; values go where they should, self-assignment included; operations declared noexcept do not throw (false if the allocator's construct throws where the copy or move constructor would not), and the others do throw for some types with the same traits; operator== compares the objects, in order. If the client uses allocator_adaptor, all objects are constructed and destroyed with the construct and destroy of the user's allocator (false for types that are not move assignable, whose assignment is emulated).", "quantifier": "every acceptable element type, every sequence of operations on any number of holders that respects lifetimes, every fault schedule", "why_tests_cant": "The test suite looks at the values of elements; a lifetime started twice or never ended, or an exception out of a noexcept function, shows only under particular sequences of failures.", "anchors": ["include/boost/poly_collection/detail/value_holder.hpp", "include/boost/poly_collection/detail/allocator_adaptor.hpp: construct, destroy", "include/boost/poly_collection/detail/is_acceptable.hpp", "doc/reference.qbk: Polymorphic containers"]}
{"id": "C72", "title": "Sizes stay within limits", "statement": "In every segment, at any time and whatever exceptions were thrown before, there are no more elements than the capacity, and the capacity does not exceed max_size() of the vector that stores them; the same holds of the index of a segment of any_collection or function_collection, which has room for one entry more than there are elements. If a segment has as many elements as fit, adding one more never returns; if nothing else goes wrong, length_error is thrown. Assumed of the vectors: a buffer for n<=max_size() elements has no more room than max_size().", "quantifier": "every collection that a program can have, every insertion of one element, every max_size, every growth policy, every fault schedule", "why_tests_cant": "max_size() elements do not fit into memory on the machines tests run on.", "anchors": ["include/boost/poly_collection/detail/split_segment.hpp: prereserve, nv_emplace, nv_push_back, push_index_entry, reserve", "include/boost/poly_collection/detail/packed_segment.hpp: nv_emplace, nv_push_back, reserve", "include/boost/poly_collection/detail/poly_collection.hpp: emplace, insert, reserve"]}
{"id": "C73", "title": "Every buffer has one owner", "statement": "In a program with any number of collections, after any operations with defined behaviour and whatever exceptions were thrown, no block of memory is held twice: not by two collections, not by two segments of a collection, and not by a segment in two roles (elements and index). All of it was allocated before. Consequently nothing that points to an element of a collection points to an element of another one, and an iterator or pointer refers to an element of one segment only.", "quantifier": "every program over any number of collections, both layouts, every growth policy, every order of the map, every fault schedule", "why_tests_cant": "Sharing would show only after a rare combination of moves, swaps, allocator-extended operations and exceptions; tests look at contents, not at ownership, and run finitely many programs.", "anchors": ["include/boost/poly_collection/detail/packed_segment.hpp: copy, empty_copy, move constructors, shrink_to_fit", "include/boost/poly_collection/detail/split_segment.hpp: copy, move constructors, shrink_to_fit, rebuild_index", "include/boost/poly_collection/detail/segment.hpp: segment constructors and assignments", "include/boost/poly_collection/detail/type_info_map.hpp: constructors, assignments, swap, insert", "include/boost/poly_collection/detail/poly_collection.hpp: constructors, assignments, swap"]}
{"id": "C74", "title": "Storage of segment objects and their vectors is returned exactly once, to the allocator it came from", "statement": "Segments own heap-allocated objects through unique_ptrs with type-erased deleters, and the objects own the buffers of their vectors. In any program that creates, copies, moves, assigns, uses and destroys segments, going on after exceptions: the pointers and deleters make no difference to what the segments contain or which exceptions are thrown; the storage in use is exactly what the live segments need, each block obtained from the allocator its segment uses and needed once; each deleter is that of the class of its object; destroying a segment always succeeds; when no segment is left nothing is allocated; and if creating, copying or copy-assigning a segment throws, everything obtained meanwhile has been returned.", "quantifier": "every program over any number of segments of both layouts, every call of a segment's members, every allocator, growth policy and fault schedule", "why_tests_cant": "A leak or a mismatched deallocation on one exceptional path needs the fault at that allocation with that combination of allocators; with stateless allocators mismatches are invisible.", "anchors": ["include/boost/poly_collection/detail/segment_backend.hpp: segment_backend_unique_ptr, segment_backend_unique_ptr deleter", "include/boost/poly_collection/detail/packed_segment.hpp: new_, delete_, copy, empty_copy, move", "include/boost/poly_collection/detail/split_segment.hpp: new_, delete_, copy, empty_copy, move, build_index", "include/boost/poly_collection/detail/segment.hpp: constructors, assignments, destructor, make, make_from_prototype"]}
{"id": "C75", "title": "What the iterators of a function_collection refer to behaves as a std::function holding a reference to the element", "statement": "*it is a callable_wrapper for the element that it is at: it is never empty, its target type is the element's type, target<T>() is the element's address (the one local iterators have) if T is that type and null otherwise, and calling it, or a std::function converted from it, calls the element with the arguments given, returns its result, passes on its exceptions, leaves in the element what the callable left there and changes nothing else. Copies can be used for as long as local iterators to the element are valid. for(auto& f:c)f(args...) calls every element once in the order of traversal and keeps types, iterators and capacities; if a callable throws, those before it have been called and those after it have not. As an argument of insert a wrapper stands for the element.", "quantifier": "every reachable function_collection, every element, signature, argument and behaviour of the callables (returning or throwing), every position and every later state in which local iterators are still valid", "why_tests_cant": "Tests call a few function objects of well-behaved types right after insertion; they do not cover every history of reallocations, callables that change themselves or throw halfway through a loop, copies of wrappers kept across modifications, or types that overload unary & or are wrappers themselves.", "anchors": ["include/boost/poly_collection/detail/callable_wrapper.hpp: callable_wrapper (constructor, operator(), target, target_type, data, conversion to std::function)", "include/boost/poly_collection/detail/function_model.hpp: make_value_type, subtypeid, subaddress", "include/boost/poly_collection/detail/split_segment.hpp: build_index"]}
{"id": "C76", "title": "Results do not depend on where buffers are in memory", "statement": "Iterators are compared by address only. Wherever the allocator puts the buffers of the segments, apart from each other but possibly touching: two iterators of a collection compare equal if and only if they are at the same place; so do two local iterators of one segment, its end included; and find, find_if, find_if_not, find_first_of, mismatch, search_n and adjacent_find find the place that the standard algorithms find in the sequence of elements, although they compare local iterators that may belong to different segments.", "quantifier": "every reachable collection, every placement of non-overlapping buffers, every element size and offset of the base subobject, every range, list of restituted types and predicate (with or without effects)", "why_tests_cant": "Where the allocator puts buffers is up to the implementation; whether two addresses coincide depends on element sizes, offsets of base classes, capacities and the allocator's bookkeeping, and tests only see a few of these by chance.", "anchors": ["include/boost/poly_collection/algorithm.hpp: generic_find, adjacent_find_alg, adjacent_find, search_n, mismatch", "include/boost/poly_collection/detail/stride_iterator.hpp: equal", "include/boost/poly_collection/detail/iterator_impl.hpp: iterator_impl::equal, local_iterator_impl"]}
{"id": "C77", "title": "Assignment is right whether or not the hash map keeps its nodes", "statement": "The standard lets the assignment operators of std::unordered_map either destroy the elements of the left map or assign to them. If they are assigned to, copy and move assignment of a collection still give it the types and elements of the other one with each segment in order, the allocator that the propagation traits say, all segments using this allocator and returning their storage to the allocator it came from, in memory of its own; if it throws the collection is empty and in order.", "quantifier": "every pair of collections a program can have, every allocator with its traits, every fault schedule", "why_tests_cant": "Tests run with one or two standard libraries and with allocators whose traits agree; the case that goes wrong needs a map that reuses nodes, propagation on copy assignment and a select_on_container_copy_construction that returns another allocator.", "anchors": ["include/boost/poly_collection/detail/type_info_map.hpp: operator=(const type_info_map&), operator=(type_info_map&&)", "include/boost/poly_collection/detail/segment.hpp: operator=(const segment&), operator=(segment&&)", "include/boost/poly_collection/detail/packed_segment.hpp: copy", "include/boost/poly_collection/detail/split_segment.hpp: copy"]}
{"id": "C78", "title": "Elements are constructed with the allocator they are meant to get", "statement": "allocator_adaptor::construct creates a value_holder with the wrapped allocator and exactly the given arguments, any other type that is not a pair by uses-allocator construction (allocator not passed, passed first after allocator_arg, or passed last, as the type demands), and each member of a pair by uses-allocator construction from the argument meant for it, with its value category kept. So every segment in the map of a collection is created by the constructor of segment that takes an allocator, with the allocator of the map, and it is moved if and only if the element or segment is given as an rvalue.", "quantifier": "every type, every combination of uses_allocator and is_constructible, every list of arguments, every way in which a map creates elements", "why_tests_cant": "Which overload is chosen depends on the value category used inside the standard library at hand; passing no allocator goes unnoticed with allocators that are all equal.", "anchors": ["include/boost/poly_collection/detail/allocator_adaptor.hpp: uses_alloc_ctor_impl, construct, construct_, transform_tuple", "include/boost/poly_collection/detail/segment.hpp: segment", "include/boost/poly_collection/detail/type_info_map.hpp: insert"]}
{"id": "C79", "title": "Algorithms call their functors no more often than the standard allows", "statement": "The documentation promises for each algorithm the complexity of its standard counterpart, which the standard states as a number of calls. for_each, count_if, the copying algorithms with a predicate and transform call their functor exactly once per element; all_of, any_of, none_of, is_partitioned and search_n at most once; find_if, find_if_not and adjacent_find exactly up to the place they return; mismatch and equal at most as often as the shorter range has elements; find_first_of and search at most N*M times; is_permutation at most quadratically often and exactly N times for equal ranges; partition_point at most logarithmically often; unique_copy once per pair of neighbours; copy, copy_n and rotate_copy assign once per element; sample draws at most one random number per element; find_end makes at most M*(N-M+1) calls if the second range is not longer than the first one. The bounds include runs that end with an exception.", "quantifier": "every reachable collection, every range of it however it is cut into segments, every list of restituted types, every functor with any effects, exceptions included, every second range", "why_tests_cant": "Tests compare results, which do not show how often a functor was called, and a bound has to hold for all ways in which a range is spread over segments and for every functor.", "anchors": ["include/boost/poly_collection/algorithm.hpp: all algorithms, in particular search, find_end, is_permutation, unique_copy, partition_point", "doc/reference.qbk: Algorithms, \"Complexity: That of expr\""]}
{"id": "C80", "title": "for_each, for_each_n and move change the elements of their range and nothing else", "statement": "If the functor given to for_each or for_each_n changes the elements it is handed, or the output iterator given to move leaves changed elements behind, then exactly the elements of the range are changed, each once and in traversal order, with the state of the functor passed on from call to call, whether types are restituted or not. The segments, their sizes and capacities, the elements outside of the range and all iterators stay as they are. If the functor throws, the elements before the one it threw at have been changed and those after it have not. A functor that changes nothing behaves as in C43.", "quantifier": "every reachable collection of both layouts, every range of it, every n, every list of restituted types, every functor with state that changes elements and may throw, every fault schedule", "why_tests_cant": "The loops over segments look at the collection between calls that have modified it; that this makes no difference for any layout, any range and any functor, throwing ones included, is not covered by examples.", "anchors": ["include/boost/poly_collection/algorithm.hpp: for_each, for_each_n, move, generic_copy", "include/boost/poly_collection/detail/segment_split.hpp: for_each_segment, segment_splitter", "include/boost/poly_collection/detail/type_restitution.hpp"]}
{"id": "C81", "title": "A collection constructed from a range holds exactly the range", "statement": "Construction from a range, be it of objects, of elements of one type known at compile time, of global iterators or of local iterators of another collection, gives a collection with the given allocator whose segments are those of the types occurring in the range and hold exactly the elements of the range, in order. No other collection, in particular the source, changes. If the construction throws nothing changes, and the exception is one that inserting an element of the range throws. Elements of types that cannot be copied are never copied. Without faults, and within the maximum lengths, construction from a range of another collection succeeds exactly if all types of the range can be copied, and a collection constructed from all of another one compares equal to it.", "quantifier": "every program with any number of collections, every range in every form, every allocator, every fault schedule", "why_tests_cant": "The constructor goes through the insertion functions, with one path per kind of iterator; tests construct from a few ranges with one allocator and do not let each step fail.", "anchors": ["include/boost/poly_collection/detail/poly_collection.hpp: poly_collection(InputIterator,InputIterator,const allocator_type&), insert(first,last)"]}
{"id": "C82", "title": "Every documented form of insert, emplace_pos and erase selects its function", "statement": "A call of insert with arguments as in one of the documented forms (element, hint and element, position and element, range of foreign iterators, of global iterators or of local iterators, with or without hint or position) selects exactly one overload, the one for that form; no combination of argument types is ambiguous. A call compiles exactly if it has a documented form; the one exception is that, if iterators can themselves be elements, iterators of different constness are inserted as elements. The overloads of emplace_pos and erase that take base iterators and typed local iterators do not compete, and each internal dispatch on the properties of an element type has exactly one candidate.", "quantifier": "every collection model (any acceptance, terminality and conversion predicates on types), every list of argument types: global and local iterators of either constness for any element type, nested to any depth, and any other types", "why_tests_cant": "Overloads are constrained by enable_if conditions on up to two deduced types; tests call each with a few types, and a call that should not compile cannot be in a test that compiles.", "anchors": ["include/boost/poly_collection/detail/poly_collection.hpp: insert, emplace_pos, erase, enable_if_*", "doc/reference.qbk: Insertion, Erasure"]}
{"id": "C83", "title": "Iterators convert as documented, and neither lose const nor change the element type", "statement": "The documented conversions of iterators exist, with the documented implicitness: iterators to const iterators, local iterators to const local iterators, base iterators to typed local iterators and back. No conversion gives a non-const iterator for a const one, or an iterator for another element type.", "quantifier": "every collection model, every pair of iterator types for any element types", "why_tests_cant": "That a conversion does not exist is a statement on all pairs of types, and constructors chosen by enable_if conditions accept combinations that nobody thought of.", "anchors": ["include/boost/poly_collection/detail/iterator_impl.hpp: iterator_impl, local_iterator_impl", "doc/reference.qbk: Polymorphic collections, iterators"]}
{"id": "C84", "title": "Operations on segments take the documented time", "statement": "Erasing takes time linear in the number of elements erased plus those behind them, clear time linear in the size, and reserve constant time if there is room and linear time otherwise. Any sequence of operations takes on average constant time per insertion, plus the number of elements behind the position. Counted are constructions, moves, assignments and destructions of elements and index entries, and allocations.", "quantifier": "every element type and layout, every sequence of operations of any length, any implementation of std::vector that grows geometrically", "why_tests_cant": "Measured times say little about arbitrary sequences of mixed insertions, erasures, reserve and shrink_to_fit; amortised bounds are statements on all of them, and bad growth only shows for particular patterns.", "anchors": ["include/boost/poly_collection/detail/split_segment.hpp: expand, prereserve, build_index, nv_*", "include/boost/poly_collection/detail/packed_segment.hpp: nv_*", "doc/reference.qbk: Complexity of reserve, emplace, insert, erase, clear"]}
{"id": "C85", "title": "Machine arithmetic on sizes is exact", "statement": "Every operation computes the same result with sizes and counters of type std::size_t, which wrap around, as with unbounded integers: insertion, erasure, reserve with any argument, shrink_to_fit and max_size, creation, copies and moves of segments, size and comparison of collections, and positional insertion of ranges.", "quantifier": "every width of std::size_t, every max_size() of vectors up to the largest std::ptrdiff_t, every state a collection can be in, also after exceptions", "why_tests_cant": "Wraparound shows only with segments near max_size() or with counts near the largest number of the machine; with 64 bits neither can be set up.", "anchors": ["include/boost/poly_collection/detail/split_segment.hpp: nv_max_size, prereserve, expand, build_index, rebuild_index, push_index_entry, pop_index_entry, nv_*", "include/boost/poly_collection/detail/poly_collection.hpp: size, operator==, insert"]}
{"id": "C86", "title": "Numbers of any integer type given to algorithms", "statement": "for_each_n, search_n, copy_n and sample accept a number of any integer type, as their std counterparts do, and give the result the number asks for: no promotion, conversion, comparison or subtraction between that type and std::ptrdiff_t or int changes a value.", "quantifier": "every platform (widths of the integer types), every signed or unsigned integer type, every number of that type, every reachable collection and range", "why_tests_cant": "The tests pass std::ptrdiff_t only; mistakes show with small types and large collections, or with mixtures of signed and unsigned types on particular platforms.", "anchors": ["include/boost/poly_collection/algorithm.hpp: for_each_n, search_n, copy_n, sample, fast_distance"]}
{"id": "C87", "title": "What traversing and erasing costs", "statement": "Going through a collection looks at every segment exactly once, also if elements are erased on the way by erase(it) or erase(it,last); erasing takes time linear in the number of elements erased plus the distance from the last one to the end of its segment; clear() is linear; empty() and size() are linear in the number of segments.", "quantifier": "every reachable collection of either layout, every position and range, every mixture of ++, erase(it) and erase(it,last)", "why_tests_cant": "Tests look at results and not at the number of steps; loops that start again at the first segment, or look at segments twice, give the same results.", "anchors": ["include/boost/poly_collection/detail/iterator_impl.hpp: increment, next_segment_position", "include/boost/poly_collection/detail/poly_collection.hpp: begin, empty, size, erase, clear", "doc/reference.qbk 98, 624, 633"]}
{"id": "C88", "title": "Types that are acceptable as documented can be stored", "statement": "A type is accepted by a collection (is_acceptable) if and only if the documentation says that it is acceptable, and the segment for every accepted type can be instantiated: all conversions, casts, moves, calls and comparisons in its member functions are well-formed, and operator== of elements is called, or not_equality_comparable is thrown, as documented.", "quantifier": "every set of overloads of operator() and operator== with any combination of constness and ref-qualifiers, every class hierarchy, every combination of move constructor and assignment, C++11 and C++17 versions of is_invocable_r", "why_tests_cant": "A type that does not compile cannot be in a test suite; tests have a handful of types with const operator(), one public base and usual comparison operators.", "anchors": ["include/boost/poly_collection/detail/is_acceptable.hpp", "include/boost/poly_collection/detail/function_model.hpp: is_implementation", "include/boost/poly_collection/detail/callable_wrapper.hpp", "include/boost/poly_collection/detail/callable_wrapper_iterator.hpp", "include/boost/poly_collection/detail/stride_iterator.hpp", "include/boost/poly_collection/detail/value_holder.hpp", "include/boost/poly_collection/detail/any_model.hpp: is_acceptable", "doc/reference.qbk 46, 85, 982"]}
{"id": "C89", "title": "Objects describing a segment stay in step with it", "statement": "The objects returned by segment(info), segment<T>() and met by segment_traversal() tell the type of the segment and the same begin and end, for base iterators and for local iterators, as the collection they belong to does. This remains so for objects that are kept, whatever happens to the collection afterwards short of its replacement: insertions, erasures, operations that fail half-way, and swaps and moves that hand the segments over to another collection.", "quantifier": "every collection a program can have after whatever failures, every segment, every later sequence of operations on any number of collections, each returning or throwing", "why_tests_cant": "Tests ask such objects immediately after obtaining them; whether a kept object remains right depends on when the map of segments rehashes, which no test controls.", "anchors": ["include/boost/poly_collection/detail/poly_collection.hpp 162-376, 507-524", "include/boost/poly_collection/detail/iterator_impl.hpp 155-192", "include/boost/poly_collection/detail/type_info_map.hpp", "doc/reference.qbk 215-272"]}
{"id": "C90", "title": "Range insertion is the insertion of what the iterators refer to", "statement": "insert(first,last), insert(hint,first,last) and the constructor from a range do what inserting the objects *first, *++first, ... one by one does: objects are put into the segments of their own types, in order. Neither the value type of the iterators nor the version of the function chosen on its account makes a difference.", "quantifier": "every collection state, every iterator type with any value type, every finite range of storable or registered objects", "why_tests_cant": "Tests use iterators of ordinary containers, for which the value type is the type of the object referred to.", "anchors": ["include/boost/poly_collection/detail/poly_collection.hpp 70-92, 390-397, 719-742, 766-798", "include/boost/poly_collection/detail/segment.hpp 201-224", "doc/reference.qbk 563-565, 577-585"]}
{"id": "C91", "title": "An iterator that a program keeps follows its element", "statement": "A program obtains an iterator to an element and keeps it while it goes on using its collections: it inserts elements behind the element while capacity suffices, erases behind it, writes to elements through iterators, changes other segments and other collections, has insertions fail, and hands the segments over to another collection by swap, move construction or move assignment, in any order and any number of times. At the end the iterator, whichever sort it is, refers to that element: at the same position of the segment of the collection that has it by then, with the value last written to it.", "quantifier": "every state of a program, every element, every sequence of operations documented not to invalidate the iterator, each returning or throwing, on any number of collections", "why_tests_cant": "Tests check an iterator after one operation; whether guarantees of single operations compose over swaps, moves, failures and writes is a statement about all programs.", "anchors": ["doc/reference.qbk 112-115, 134-139", "include/boost/poly_collection/detail/iterator_impl.hpp", "include/boost/poly_collection/detail/poly_collection.hpp", "include/boost/poly_collection/detail/split_segment.hpp: prereserve, expand, push_index_entry", "include/boost/poly_collection/detail/type_info_map.hpp"]}
{"id": "C92", "title": "Calls of the algorithms that are documented compile", "statement": "A call of an algorithm of poly_collection with (const or other) iterators of a collection and a list Ts... of arbitrary types compiles whenever the corresponding call of the standard algorithm is well-formed for iterators referring to the elements as value_type or as one of the types listed; functors get the elements const if the iterators are. Among the forms of algorithms with two ranges the one is chosen that the standard library would choose.", "quantifier": "every collection, algorithm, functor, list of types and constness", "why_tests_cant": "Tests can list types that exist in the test program only, and a test that should not compile is not run at all.", "anchors": ["doc/reference.qbk 1468-1516", "include/boost/poly_collection/algorithm.hpp", "include/boost/poly_collection/detail/type_restitution.hpp", "include/boost/poly_collection/detail/iterator_traits.hpp", "include/boost/poly_collection/detail/functional.hpp: cast_return"]}
{"id": "C93", "title": "Predicates may answer with any type convertible to bool", "statement": "partition_point and is_permutation with a list of types give the result of the standard algorithm on references to the elements, for predicates whose answers are of any types that convert to bool, possibly of different types for elements given as T& and as value_type&: what counts is whether the answer itself is true.", "quantifier": "every collection, range, list of types, predicate and type of answers", "why_tests_cant": "The predicates of a test return bool.", "anchors": ["doc/reference.qbk 1468-1516", "include/boost/poly_collection/detail/type_restitution.hpp: restitute_iterator_class", "include/boost/poly_collection/algorithm.hpp 524-601, 1088-1116"]}
{"id": "C94", "title": "The algorithms take global iterators of collections only", "statement": "A call of an algorithm of poly_collection compiles only with global iterators, const or not, of a collection: for iterators of any other type, local iterators and objects that convert to iterators included, it is guaranteed not to compile. With global iterators it compiles exactly under the conditions of C92.", "quantifier": "every collection, algorithm, type of iterators, functor and list of types", "why_tests_cant": "A test that should not compile is not part of a test program that compiles.", "anchors": ["doc/poly_collection.qbk 761-766", "include/boost/poly_collection/algorithm.hpp: enable_if_poly_collection_iterator", "include/boost/poly_collection/detail/iterator_traits.hpp 83-105", "include/boost/poly_collection/detail/segment_split.hpp"]}
{"id": "C95", "title": "Predicates are called as the standard algorithms call them", "statement": "partition_point, adjacent_find, unique_copy and is_permutation compile for every predicate for which the corresponding standard algorithm is well-formed: one that, as an lvalue, can be called with the arguments in question and whose answers convert to bool, whatever ref-qualifiers and overloads of its call operator there are and whatever the types of the answers for elements given as T& and as value_type&.", "quantifier": "every predicate, described by the overloads of its call operator and the types of its answers, and every list of types", "why_tests_cant": "Tests use lambdas, whose call operator is const, has no ref-qualifier and is not overloaded; a test that does not compile is not run.", "anchors": ["doc/reference.qbk 1501-1516", "include/boost/poly_collection/detail/functional.hpp 143-182: deref_to_class, deref_1st_to_class", "include/boost/poly_collection/detail/type_restitution.hpp 101-133", "include/boost/poly_collection/algorithm.hpp 252, 540, 962, 1097"]}
{"id": "C96", "title": "Types associated with the iterators are those documented", "statement": "In each of the three kinds of collection, iterator and const_iterator are forward iterators with value type value_type, reference type value_type& or const value_type& and the corresponding pointer type; local_base_iterator and const_local_base_iterator are random access iterators with the same value, pointer and reference types as iterator and const_iterator; local_iterator<U> and const_local_iterator<U> are random access iterators with value type U, reference type U& or const U&, and pointer type U* or const U*; iterators of segment traversal are input iterators over segment infos.", "quantifier": "every kind of collection, every value type and every element type U", "why_tests_cant": "Tests instantiate a few collections and check single aliases; they do not compare the traits of the iterator types for every element type, and generic code that fails on them is not compiled.", "anchors": ["doc/reference.qbk 54-58, 177-215", "include/boost/poly_collection/detail/iterator_impl.hpp 34-58, 134-139", "include/boost/poly_collection/detail/stride_iterator.hpp 28-34", "include/boost/poly_collection/detail/any_iterator.hpp 31-32", "include/boost/poly_collection/detail/callable_wrapper_iterator.hpp 27-30", "include/boost/poly_collection/detail/poly_collection.hpp 108-110, 152-160, 265-272, 319-322"]}
{"id": "C97", "title": "Move assignment does not depend on what the standard library leaves of a moved-from map", "statement": "The standard leaves the state of a moved-from std::unordered_map unspecified: it may be empty, keep its segments with emptied vectors, or keep them with moved-from elements. In each case, after move assignment the target has the types and elements the source had, each segment in order, and the allocator that the propagation traits say, and the source is a usable collection with no elements; if it throws both collections are usable and empty.", "quantifier": "every pair of collections a program can have, every allocator with its propagation trait, the three things a map may leave, every fault schedule", "why_tests_cant": "A test runs with one standard library, and test_construction.cpp looks at the source of a move assignment only if the allocator is propagated or equal.", "anchors": ["include/boost/poly_collection/detail/type_info_map.hpp 82-97, 114-135", "include/boost/poly_collection/detail/segment.hpp 71-74", "include/boost/poly_collection/detail/poly_collection.hpp 402"]}
