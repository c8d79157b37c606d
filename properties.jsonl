{"id": "C01", "title": "map behaves like an abstract finite map", "statement": "After any history of operator[] assignments, get_or_create, remove_key, reserve, clear and whole-map copies on a cc::map, get_ptr/get/get_or/contains_key/size and the return value of remove_key are exactly those of a mathematical finite map subjected to the same history, for every hash function that agrees with the equality; no operation of such a history trips an internal assertion.", "quantifier": "all key/value types, all hash functions compatible with equality, all operation histories of any length", "why_tests_cant": "Wrong behaviour depends on the interplay of collisions, rehash points and removals in a bucket chain; tests sample a few keys with one hash function.", "anchors": ["src/clean-core/map.hh: map::operator[], get_or_create, get, get_ptr, get_or, get_to, remove_key, reserve, clear, _get_location, _reserve"]}
{"id": "C02", "title": "map iteration visits every entry exactly once", "statement": "Iterating a cc::map (entries, keys or values) yields each key currently in the map exactly once together with its current value, and nothing else; the number of visited entries equals size().", "quantifier": "all reachable maps, all hash functions", "why_tests_cant": "Iteration skips empty buckets and walks chains; a skipped last bucket or chain only shows for specific hash distributions.", "anchors": ["src/clean-core/map.hh: map::iterator_base, find_next_it, begin, keys, values"]}
{"id": "C03", "title": "map references stay valid until their key is removed", "statement": "A reference or pointer to a value obtained from a cc::map continues to designate the same key's value across any later insertions, reserves, rehashes and removals of other keys.", "quantifier": "all histories after obtaining the reference that do not remove that key or clear/assign the map", "why_tests_cant": "Requires reasoning about every future rehash; a test can only try some.", "anchors": ["src/clean-core/map.hh: map::_reserve, operator[]", "src/clean-core/forward_list.hh: emplace_front, erase_after"]}
{"id": "C04", "title": "map reserve(n) prevents rehashing for n elements", "statement": "After reserve(n), the bucket storage is not rebuilt by any sequence of operations as long as the map holds at most n elements.", "quantifier": "all n, all maps, all following histories keeping size at most n", "why_tests_cant": "Depends on the exact relation between load check and rounding to powers of two for all n.", "anchors": ["src/clean-core/map.hh: map::reserve, operator[]"]}
{"id": "C05", "title": "map equality is extensional", "statement": "operator== on two cc::maps returns true iff they hold the same keys with equal values, independent of insertion history, capacity and bucket order; operator!= is its negation.", "quantifier": "all pairs of reachable maps", "why_tests_cant": "Must hold for all pairs of histories leading to equal contents.", "anchors": ["src/clean-core/map.hh: map::operator==, operator!="]}
{"id": "C06", "title": "set behaves like an abstract finite set", "statement": "After any history of add, remove, |=, clear, and reserve(n) with n>0 on a cc::set, contains/size/return values of add and remove are exactly those of a mathematical finite set, iteration yields each member exactly once, operator== is extensional, and the union operators compute the union; for every hash function that agrees with equality.", "quantifier": "all element types, hash functions and histories", "why_tests_cant": "Same as for the map: collisions, rehash points and removals interact.", "anchors": ["src/clean-core/set.hh: set::add, remove, operator|=, operator|, operator==, clear, reserve, iterator, _get_location, _reserve"]}
{"id": "C07", "title": "set reserve(n) never invalidates a set", "statement": "Calling reserve(n) on a set with any n keeps the contents and does not trip an assertion (documented as: reserves internal resources to hold at least n elements without forcing a rehash).", "quantifier": "all sets, all n including 0 and n smaller than the current size", "why_tests_cant": "The failing argument is a boundary (0, or less than size) that tests of 'reserve more' do not reach.", "anchors": ["src/clean-core/set.hh: set::reserve, _reserve, add"]}
{"id": "C08", "title": "sort yields a sorted permutation", "statement": "cc::sort/sort_by/sort_descending on any range with any comparison that is a strict weak order terminates, never accesses an index outside the range, and leaves the range a permutation of the input in which no later element compares less than an earlier one.", "quantifier": "all range lengths, all contents (including many duplicates), all strict weak orders, all key functions", "why_tests_cant": "The unguarded inner scans are only safe because of a median-of-three argument; out-of-bounds depends on special data shapes and sizes above the thresholds 16 and 128.", "anchors": ["src/clean-core/sort.hh: sort2, sort3, small_sort, partition_right, sort_ex_impl, sort, sort_by, sort_descending"]}
{"id": "C09", "title": "quickselect puts the right element in place", "statement": "cc::quickselect(values, idx) on a range of size > idx leaves at position idx the element a full sort would put there (up to equivalence), with no element before it greater and no element after it less; the range is a permutation of the input and all accesses are in range.", "quantifier": "all lengths, contents, indices and strict weak orders", "why_tests_cant": "Selective recursion errors only show for particular pivot/index combinations.", "anchors": ["src/clean-core/sort.hh: quickselect, quickselect_by, index_in_range"]}
{"id": "C10", "title": "quickselect_range sorts the requested window", "statement": "cc::quickselect_range(values, idx, count) leaves positions idx..idx+count-1 (clipped to the range) holding exactly what a full sort would put there (up to equivalence), for every idx and count.", "quantifier": "all lengths, contents, idx and count representable in size_t, all strict weak orders", "why_tests_cant": "Window boundaries, overlap tests and the signed/unsigned conversion interplay with pivots.", "anchors": ["src/clean-core/sort.hh: quickselect_range, overlaps_range"]}
{"id": "C11", "title": "partition splits exactly by the predicate", "statement": "cc::partition permutes the range, never accesses outside it, and returns p such that all elements before p fail the is_right predicate and all elements from p on satisfy it.", "quantifier": "all ranges (including empty and one-sided), all predicates", "why_tests_cant": "Hoare-style two-pointer loops have many boundary shapes (all left, all right, one element).", "anchors": ["src/clean-core/sort.hh: partition_ex, partition_by"]}
{"id": "C12", "title": "is_sorted decides sortedness", "statement": "is_sorted returns true iff no element compares less than any earlier element, is_strictly_sorted iff every earlier element compares less than every later one, though only adjacent pairs are inspected.", "quantifier": "all ranges, all strict weak orders", "why_tests_cant": "Adjacent-pair checks imply the global property only through transitivity for all lengths.", "anchors": ["src/clean-core/sort.hh: is_sorted_ex, is_strictly_sorted_ex"]}
{"id": "C13", "title": "multi-array sort keeps rows together", "statement": "sort_multi applies one common permutation to the keys and all value arrays: the multiset of rows is unchanged and keys end up sorted; arrays of different size are rejected before anything is modified.", "quantifier": "all key and value arrays, all strict weak orders", "why_tests_cant": "Every swap in every code path must hit all arrays.", "anchors": ["src/clean-core/sort.hh: sort_multi, sort_multi_by"]}
{"id": "C14", "title": "base64 decode inverts encode", "statement": "base64_decode(base64_encode(b)) returns b for every byte string b; the encoding consists only of base64 alphabet characters and trailing '=' padding and has length 4*ceil(n/3).", "quantifier": "all byte strings whose encoding has fewer than 2^31 characters", "why_tests_cant": "All lengths and byte values; tests sample a handful of strings.", "anchors": ["src/clean-core/base64.cc: base64_encode, base64_decode, is_base64"]}
{"id": "C15", "title": "base64 decode is total and bounded", "statement": "base64_decode on arbitrary text never reads outside the text and returns the RFC 4648 decoding of the longest prefix consisting of alphabet characters; at most 3*ceil(n/4) bytes are produced.", "quantifier": "all strings", "why_tests_cant": "Malformed inputs of every shape.", "anchors": ["src/clean-core/base64.cc: base64_decode"]}
{"id": "C16", "title": "bit utilities compute their arithmetic meaning", "statement": "For every operand: popcount counts set bits, count_leading/trailing_zeros count the zero runs (width for 0), byteswap reverses bytes and is an involution, bit_log2(v)=floor(log2 v) for v>0, is_pow2, mod_pow2, div_pow2_floor and div_pow2_ceil (v>0) agree with integer arithmetic for power-of-two divisors, ceil_pow2(v) is the least power of two >= v for 1<=v<=2^31 (resp. 2^63), and set/unset/flip/has_bit act on exactly the addressed bit.", "quantifier": "all operands of each width", "why_tests_cant": "2^64 operands; corner values 0, 1, powers of two, top bit.", "anchors": ["src/clean-core/bits.hh: popcount, byteswap, count_leading_zeros, count_trailing_zeros, bit_log2, ceil_pow2, is_pow2, mod_pow2, div_pow2_floor, div_pow2_ceil, set_bit, unset_bit, flip_bit, has_bit"]}
{"id": "C17", "title": "alignment and integer helpers are exact", "statement": "align_up(v,a) is the least multiple of a at or above v, align_down the greatest at or below, is_aligned decides divisibility (a a power of two, no wrap-around); int_div_ceil computes the ceiling of every positive numerator (0 is rejected by its documented contract), int_ceil_to_multiple the least multiple for every numerator including 0 (no wrap-around); wrapped_increment/decrement stay in [0,max) and are inverse; clamp/min/max obey their order laws.", "quantifier": "all values and powers of two with no overflow; all numerators, all denominators > 0", "why_tests_cant": "Boundary values (0, exact multiples, near the top of the range).", "anchors": ["src/clean-core/utility.hh: align_up, align_down, is_aligned, align_up_masked, int_div_ceil, int_ceil_to_multiple, wrapped_increment, wrapped_decrement, clamp, min, max"]}
{"id": "C18", "title": "vector behaves like a sequence", "statement": "After any history of push_back/emplace_back, pop_back, insert, push_back_range, resize, reserve, shrink_to_fit, remove*, clear, copy/assign operations (within their documented contracts), the contents of a cc::vector are those of a mathematical list subjected to the same operations, size() is its length and never exceeds capacity(); out-of-contract calls are detected by a contract failure and not by memory corruption.", "quantifier": "all element types, all histories, all sizes", "why_tests_cant": "Growth points and shifting loops interact for every size/capacity combination.", "anchors": ["src/clean-core/detail/vector_base.hh", "src/clean-core/vector.hh", "src/clean-core/vector_ex.hh"]}
{"id": "C19", "title": "vector elements have exact lifetimes", "statement": "Over any history, a cc::vector never reads an uninitialised or destroyed slot, destroys every element it constructed exactly once by the time it is destroyed, and frees every allocation exactly once.", "quantifier": "all histories, any element type with observable construction and destruction", "why_tests_cant": "Leaks and double destruction need instrumentation for every code path and size.", "anchors": ["src/clean-core/detail/vector_base.hh: emplace_back, reserve, shrink_to_fit, insert_range_at, resize, remove_*", "src/clean-core/detail/container_impl_util.hh"]}
{"id": "C20", "title": "vector push_back of its own element is safe", "statement": "push_back(v[i]) on a cc::vector appends a copy of the element even when the call reallocates.", "quantifier": "all vectors, all i, both growing and non-growing calls", "why_tests_cant": "Only visible at the reallocation boundary and with an aliasing argument.", "anchors": ["src/clean-core/detail/vector_base.hh: emplace_back"]}
{"id": "C21", "title": "ringbuffer behaves like a deque", "statement": "After any history of push/emplace/pop at both ends, clear and copies, a cc::ringbuffer's indexed contents, front, back, size, empty and popped values are those of a mathematical double-ended queue; pops on empty are contract failures; the *_stable pushes never reallocate; every slot access hits a live element.", "quantifier": "all histories of any length, including arbitrary wrap-around and growth", "why_tests_cant": "Wrap-around position, capacity and growth interact.", "anchors": ["src/clean-core/experimental/ringbuffer.hh"]}
{"id": "C22", "title": "disjoint_set computes connected components", "statement": "After any sequence of merges, find(a)==find(b) iff a and b are connected by the merged pairs; component sizes, set count and partition listing are correct; path compression never changes the partition; merge reports whether two components were joined.", "quantifier": "all element counts up to INT_MAX (elements are ints), all merge/find histories", "why_tests_cant": "All union orders and tree shapes.", "anchors": ["src/clean-core/experimental/disjoint_set.hh"]}
{"id": "C23", "title": "flat_vector_of_vector behaves like a list of lists", "statement": "After any history of start_new_range, emplace_back_element, push_back_element(s) and clear, operator[](i) is the i-th inner sequence, size is the number of inner sequences and the concatenation of all inner sequences is the flat element array.", "quantifier": "all histories", "why_tests_cant": "Index bookkeeping at boundaries (empty inner vectors, last inner vector).", "anchors": ["src/clean-core/experimental/flat_vector_of_vector.hh"]}
{"id": "C24", "title": "chunked_buffer chunk iteration covers all elements", "statement": "for_each_chunk on a cc::chunked_buffer visits all pushed elements exactly once in insertion order; element iteration and size agree.", "quantifier": "all numbers of pushed elements and chunk capacities", "why_tests_cant": "The failing state is exactly-full chunks, a boundary.", "anchors": ["src/clean-core/experimental/chunked_buffer.hh: for_each_chunk"]}
{"id": "C25", "title": "mpmc queue is FIFO and loses or duplicates nothing", "statement": "Under any interleaving of any number of producers and consumers, every successfully enqueued value is dequeued at most once, dequeued values are exactly enqueued values, the order of successful dequeues (in slot order) equals the order of successful enqueues, no cell is read while being written, and at most capacity values are stored.", "quantifier": "all capacities that are powers of two >= 2, any number of threads, all interleavings of the atomic steps", "why_tests_cant": "Schedules cannot be enumerated by tests.", "anchors": ["src/clean-core/experimental/mpmc_queue.hh: initialize, enqueue, dequeue"]}
{"id": "C26", "title": "mpmc queue reports full and empty only when justified", "statement": "In any interleaving, enqueue returns false only if at some moment during the call the queue had all cells claimed, and dequeue returns false only if at some moment during the call no published value was at its position; without concurrency enqueue fails iff capacity elements are stored and dequeue fails iff none is.", "quantifier": "all capacities, all interleavings", "why_tests_cant": "Spurious failure depends on schedules.", "anchors": ["src/clean-core/experimental/mpmc_queue.hh: enqueue, dequeue"]}
{"id": "C27", "title": "spin_lock gives mutual exclusion", "statement": "At most one thread is between a successful lock()/try_lock() and the matching unlock() at any time, under every interleaving; unlock makes the lock acquirable; lock_guard releases exactly once.", "quantifier": "any number of threads, all interleavings", "why_tests_cant": "Schedules cannot be enumerated by tests.", "anchors": ["src/clean-core/spin_lock.hh", "src/clean-core/lock_guard.hh"]}
{"id": "C28", "title": "atomic_linked_pool never hands out a slot twice", "statement": "Under any interleaving of acquire and release calls from any number of threads (each live handle released once), no two live handles designate the same slot, a released slot can be acquired again, and the pool hands out exactly its capacity before being full.", "quantifier": "any pool size, any number of threads, all interleavings (fewer than the version counter period of concurrent operations)", "why_tests_cant": "ABA problems need specific schedules.", "anchors": ["src/clean-core/atomic_linked_pool.hh: acquire, release, _release_node"]}
{"id": "C29", "title": "atomic_linked_pool handles detect staleness", "statement": "A handle that was released is no longer accepted by is_alive/get of a generation-checked pool, as long as the slot's generation counter has not wrapped; distinct live handles are distinct and handle packing round-trips index and generation.", "quantifier": "all histories of acquire/release, all indices and generations", "why_tests_cant": "Wrap-around of a 13-bit counter and packing of bit fields.", "anchors": ["src/clean-core/atomic_linked_pool.hh: handle_t, acquire, release, is_alive"]}
{"id": "C30", "title": "pool initialisation writes only inside its allocations", "statement": "Initialising an atomic_linked_pool of any capacity n >= 1 writes only within the memory it allocated.", "quantifier": "all capacities", "why_tests_cant": "A one-element heap overflow is usually invisible in tests.", "anchors": ["src/clean-core/atomic_linked_pool.hh: initialize/_construct"]}
{"id": "C31", "title": "radix sort of free indices is a sorted permutation", "statement": "The pool's internal radix sort (used for iterating allocated nodes) returns the sorted permutation of its input for every 32-bit input array, with the result in the right buffer.", "quantifier": "all lengths, all contents", "why_tests_cant": "All byte patterns and lengths.", "anchors": ["src/clean-core/atomic_linked_pool.cc: radix_sort"]}
{"id": "C32", "title": "pool iteration visits exactly the live nodes", "statement": "iterate_allocated_nodes on a quiescent pool calls the functor exactly once for each live node and for no free node, and reports the right count.", "quantifier": "all pool sizes, all acquire/release histories", "why_tests_cant": "Gap handling between sorted free indices has boundaries at both ends.", "anchors": ["src/clean-core/atomic_linked_pool.hh: iterate_allocated_nodes"]}
{"id": "C33", "title": "atomic_pool_allocator never hands out a block twice", "statement": "Under any interleaving of alloc and free from any number of threads, no block is returned by alloc while still allocated.", "quantifier": "all interleavings", "why_tests_cant": "ABA needs a specific three-step schedule.", "anchors": ["src/clean-core/allocators/atomic_pool_allocator.hh", "src/clean-core/allocators/atomic_pool_allocator.cc: alloc, free"]}
{"id": "C34", "title": "linear_allocator allocations are aligned, in-bounds and disjoint", "statement": "Every successful alloc returns a block of the requested size inside the buffer at the requested alignment, disjoint from every earlier allocation since the last reset; requests that do not fit are rejected; realloc of the last allocation keeps the data in place.", "quantifier": "all buffers, all request histories, all power-of-two alignments", "why_tests_cant": "All combinations of size, alignment and remaining space.", "anchors": ["src/clean-core/allocators/linear_allocator.hh"]}
{"id": "C35", "title": "stack_allocator is LIFO-exact", "statement": "Allocations are aligned, in-bounds and disjoint including their headers; freeing the most recent allocation restores the exact previous allocator state; freeing out of order is detected by an assertion; realloc of the top allocation preserves its position.", "quantifier": "all histories of alloc/free/realloc, all alignments", "why_tests_cant": "Header padding arithmetic depends on every alignment/offset combination.", "anchors": ["src/clean-core/allocators/stack_allocator.cc", "src/clean-core/native/memory.hh: align_up_with_header"]}
{"id": "C36", "title": "atomic_linear_allocator hands out disjoint blocks concurrently", "statement": "Blocks returned to concurrent callers are pairwise disjoint, aligned and in-bounds.", "quantifier": "all interleavings, all sizes and alignments", "why_tests_cant": "Schedules and alignment slack.", "anchors": ["src/clean-core/allocators/atomic_linear_allocator.hh"]}
{"id": "C37", "title": "virtual allocators keep committed memory ahead of use", "statement": "At every moment all bytes of live allocations of the virtual linear and virtual stack allocators lie inside committed memory and inside the reserved range; decommit_idle_memory never decommits memory in use and returns the number of decommitted bytes.", "quantifier": "all reservation sizes, chunk sizes and histories", "why_tests_cant": "Chunk rounding at all offsets.", "anchors": ["src/clean-core/allocators/virtual_linear_allocator.cc", "src/clean-core/allocators/virtual_stack_allocator.cc", "src/clean-core/native/memory.cc: grow_physical_memory"]}
{"id": "C38", "title": "fixed-size pool allocation never aliases live blocks", "statement": "cc::alloc/cc::free: under any history of allocations and frees of one size class, returned blocks are disjoint from all live blocks, inside a block of the pool, and freed blocks are reused before new pools are requested.", "quantifier": "all histories, all sizes up to 65536", "why_tests_cant": "Free-list and pool-list manipulation over long histories.", "anchors": ["src/clean-core/allocate.hh: pool_block, pool_allocator"]}
{"id": "C39", "title": "TLSF size mapping is good-fit", "statement": "For every request size the mapping used for searching yields a class all of whose blocks are large enough, and for insertion a class whose range contains the size; class indices are always in range for every size the allocator accepts.", "quantifier": "all sizes up to the maximum", "why_tests_cant": "2^32 sizes with class boundaries.", "anchors": ["src/clean-core/detail/lib/tlsf.cc: mapping_insert, mapping_search, adjust_request_size"]}
{"id": "C40", "title": "TLSF keeps a consistent heap", "statement": "Over any history of malloc/memalign/realloc/free, blocks tile the pool exactly, no two adjacent free blocks exist, the bitmaps and free lists contain exactly the free blocks, returned payloads are aligned, large enough and disjoint, and freeing everything restores the single initial free block.", "quantifier": "all pool sizes and all request histories", "why_tests_cant": "Split/merge interplay over unbounded histories.", "anchors": ["src/clean-core/detail/lib/tlsf.cc: tlsf_malloc, tlsf_memalign, tlsf_free, tlsf_realloc, block_split, block_merge_prev, block_merge_next"]}
{"id": "C41", "title": "SHA-1 matches the standard for every chunking", "statement": "The sha1 builder's digest equals FIPS 180-4 SHA-1 of the concatenation of all added chunks, regardless of how the message is split into add calls, for messages shorter than 2^61 bytes.", "quantifier": "all messages, all chunkings", "why_tests_cant": "Buffer boundary handling at every 64-byte offset combination.", "anchors": ["src/clean-core/hash.sha1.hh: sha1_builder, sha1_builder::add, finalize, transform"]}
{"id": "C42", "title": "string_view searching is exact", "statement": "contains, index_of, last_index_of, all_indices_of, starts_with, ends_with, common_prefix_with, equality and lexicographic comparison agree with their mathematical definitions on sequences for all haystacks and needles, including empty ones, and never read outside the views.", "quantifier": "all strings and needles", "why_tests_cant": "All length/overlap combinations.", "anchors": ["src/clean-core/string_view.hh: contains, index_of, last_index_of, all_indices_of, starts_with, ends_with, common_prefix_with, operator==, ascii_lexicographical_less"]}
{"id": "C43", "title": "string_view split and trim are lossless", "statement": "split(sep) yields the maximal separator-free pieces in order: joining them with the separator gives the original non-empty string back, skip_empty yields exactly the non-empty pieces; trim variants remove exactly the maximal matching prefix/suffix.", "quantifier": "all strings, separators and predicates", "why_tests_cant": "Leading, trailing and repeated separators.", "anchors": ["src/clean-core/string_view.hh: split, string_split_range, trim, trim_start, trim_end"]}
{"id": "C44", "title": "string_view subview respects bounds", "statement": "subview and subview_clamped never produce a view extending outside the original for any offset and size; subview_clamped yields the intersection with the string.", "quantifier": "all strings, all offsets and sizes representable in size_t", "why_tests_cant": "Only near-maximal sizes overflow.", "anchors": ["src/clean-core/string_view.hh: subview, subview_clamped"]}
{"id": "C45", "title": "string behaves like a character sequence across the small-buffer boundary", "statement": "After any history of push_back, append, insert/replace, resize, reserve, shrink_to_fit, pad, trim, fill, clear, copy and move on a cc::string, its contents equal those of a mathematical character sequence, size never exceeds capacity, and small/heap transitions lose nothing.", "quantifier": "all histories, all SBO capacities", "why_tests_cant": "Crossing the SBO boundary in each direction at each size.", "anchors": ["src/clean-core/sbo_string.hh"]}
{"id": "C46", "title": "c_str is always null-terminated at size()", "statement": "c_str() of a string returns the contents followed by a terminating zero at index size(), after every history.", "quantifier": "all histories", "why_tests_cant": "A stale terminator only shows after particular mutators.", "anchors": ["src/clean-core/sbo_string.hh: c_str, remove_prefix, remove_suffix, trim, resize"]}
{"id": "C47", "title": "string replace forms agree", "statement": "In-place replace(old,new) gives the same result as replaced(old,new): every leftmost non-overlapping occurrence is replaced.", "quantifier": "all strings, needles and replacements", "why_tests_cant": "Length-changing replacements with overlapping candidates.", "anchors": ["src/clean-core/sbo_string.hh: replace, replaced"]}
{"id": "C48", "title": "integer to_string/from_string round-trip", "statement": "from_string(to_string(x)) succeeds with x for every value of every integer type, and the printed form is the canonical decimal numeral.", "quantifier": "all integer types and values", "why_tests_cant": "2^64 values.", "anchors": ["src/clean-core/to_string.cc", "src/clean-core/from_string.cc"]}
{"id": "C49", "title": "from_string rejects what does not fit", "statement": "from_string to an integer type succeeds only if the entire string denotes a number representable in that type.", "quantifier": "all strings, all integer types", "why_tests_cant": "Out-of-range and embedded cases.", "anchors": ["src/clean-core/from_string.cc"]}
{"id": "C50", "title": "string formatting options pad correctly", "statement": "Formatting a string with fill/align/width/precision yields the string truncated to precision and padded to at least width with the fill character on the side selected by the alignment.", "quantifier": "all strings and format options", "why_tests_cant": "All width/length relations.", "anchors": ["src/clean-core/to_string.cc: to_string(string_view), parse_args"]}
{"id": "C51", "title": "format substitutes arguments by the documented rules", "statement": "cc::format copies literal text, unescapes {{, }} and %%, substitutes {} sequentially, {N} by index and {name} by name, and rejects malformed format strings and unused or missing arguments by contract failure.", "quantifier": "all format strings, all argument lists", "why_tests_cant": "All nesting and position combinations in format strings.", "anchors": ["src/clean-core/format.cc: impl_vformat_to", "src/clean-core/format.hh"]}
{"id": "C52", "title": "capped_vector behaves like a bounded sequence", "statement": "A capped_vector<T,N> behaves like a list of length at most N; exceeding N or popping empty is a contract failure; each element is destroyed exactly once.", "quantifier": "all N, all histories", "why_tests_cant": "Boundary at exactly N and lifetimes after moves.", "anchors": ["src/clean-core/capped_vector.hh"]}
{"id": "C53", "title": "optional models at-most-one value", "statement": "cc::optional's copy, move, assignment, emplace, reset, map and comparisons behave like the mathematical option type for every history, including self-assignment.", "quantifier": "all histories", "why_tests_cant": "Self-assignment and moved-from states.", "anchors": ["src/clean-core/optional.hh"]}
{"id": "C54", "title": "variant holds exactly the alternative last assigned", "statement": "is<T>() is true iff the alternative last assigned is T; get/visit act on that alternative; destruction calls the destructor of the held alternative exactly once.", "quantifier": "all alternative lists, all histories", "why_tests_cant": "Types not among the alternatives and self-assignment.", "anchors": ["src/clean-core/variant.hh"]}
{"id": "C55", "title": "shared_ptr destroys the object exactly when the last owner goes", "statement": "Over any history of copies, moves, assignments and resets of shared_ptrs, the pointee is destroyed exactly once, exactly when the number of owners reaches zero, and never accessed afterwards.", "quantifier": "all ownership histories", "why_tests_cant": "Cycles of assignment incl. assigning from something owned by the pointee.", "anchors": ["src/clean-core/shared_ptr.hh"]}
{"id": "C56", "title": "unique ownership types never double free", "statement": "Over any history of moves, assignments and destructions of unique_ptr, poly_unique_ptr, box and unique_function, each object is destroyed exactly once and never used after; self-move-assignment leaves the pointer empty.", "quantifier": "all ownership histories", "why_tests_cant": "Self-move and moved-from reuse.", "anchors": ["src/clean-core/unique_ptr.hh", "src/clean-core/poly_unique_ptr.hh", "src/clean-core/experimental/box.hh", "src/clean-core/unique_function.hh"]}
{"id": "C57", "title": "spans never index out of bounds", "statement": "Every accepted access or sub-range of span, strided_span, clamped_span and wrapped_span designates elements of the original range; clamped and wrapped indices clamp resp. wrap modulo the size for every signed index; strided reversal is an involution.", "quantifier": "all spans, all indices/offsets/counts", "why_tests_cant": "Extreme indices and counts.", "anchors": ["src/clean-core/span.hh", "src/clean-core/strided_span.hh", "src/clean-core/experimental/clamped_span.hh", "src/clean-core/experimental/wrapped_span.hh"]}
{"id": "C58", "title": "flags is a set of enum values", "statement": "cc::flags operations implement set algebra on the enum values and iteration yields exactly the contained values in ascending order, for every enum value that fits the storage.", "quantifier": "all flag sets up to 64 values", "why_tests_cant": "Bits 31 and above behave differently in shifts of int.", "anchors": ["src/clean-core/flags.hh"]}
{"id": "C59", "title": "bitset is a set of indices below N", "statement": "cc::bitset<N> operations (construction, set, unset, toggle, clear, ~, |, &, ^, <<, >>, any, all, is_set, is_unset, [], ==) implement set algebra on indices below N for every N <= 64.", "quantifier": "all N <= 64, all indices and bitsets", "why_tests_cant": "Index 31 and above and the bits beyond N.", "anchors": ["src/clean-core/bitset.hh"]}
{"id": "C60", "title": "array::empty tells whether there are no elements", "statement": "empty() is true iff size() is 0, for fixed-size and dynamic arrays and the other contiguous containers.", "quantifier": "all sizes", "why_tests_cant": "Trivial but must hold for every N; generic code depends on it.", "anchors": ["src/clean-core/array.hh: array<T,N>::empty, array<T>::empty"]}
{"id": "C61", "title": "hash combination agrees with equality and is order-sensitive as specified", "statement": "Equal values hash equally for the default hashes (including +0/-0 and string vs string_view), and stringhash_n agrees with stringhash whenever the limit covers the whole string.", "quantifier": "all values", "why_tests_cant": "All bit patterns.", "anchors": ["src/clean-core/hash.hh", "src/clean-core/hash_combine.hh", "src/clean-core/stringhash.hh"]}
{"id": "C62", "title": "forward_list copy and assignment preserve order", "statement": "A copied or assigned forward_list has the same sequence as the source and is independent of it; assignment to itself keeps the contents.", "quantifier": "all lists", "why_tests_cant": "Self-assignment.", "anchors": ["src/clean-core/forward_list.hh"]}
{"id": "C63", "title": "moved-from map and set can still be used", "statement": "After its contents were moved away, a cc::map or cc::set can still be queried and modified like an empty container: lookups return 'not found' and size() is 0, without tripping an assertion.", "quantifier": "all reachable maps and sets, all later operations on the moved-from object", "why_tests_cant": "The moved-from state is a corner that only shows when size and table get out of sync; needs the member-wise semantics of the defaulted move.", "anchors": ["src/clean-core/map.hh: map::map(map&&), operator=(map&&)", "src/clean-core/set.hh: set::set(set&&)", "src/clean-core/array.hh: array::array(array&&)"]}
{"id": "C64", "title": "set add of its own element is safe", "statement": "Adding a reference to an element of the set itself (s.add(*s.begin()), or s |= s) returns false and leaves the set unchanged, like adding an equal value from elsewhere.", "quantifier": "all reachable sets, all their elements", "why_tests_cant": "Only goes wrong when the call happens to rehash.", "anchors": ["src/clean-core/set.hh: set::add, _reserve, operator|="]}
{"id": "C65", "title": "set reserve(n) prevents rehashing for n elements", "statement": "After reserve(n), as documented, the set's storage is not rebuilt as long as it holds at most n elements.", "quantifier": "all n, all following histories keeping size at most n", "why_tests_cant": "Depends on the exact load check for all n, including adds of elements already contained.", "anchors": ["src/clean-core/set.hh: set::reserve, add"]}
{"id": "C66", "title": "vector reserve(n) keeps the buffer in place up to n elements", "statement": "After v.reserve(n), appending elements never moves the buffer as long as the vector holds at most n elements, so references and iterators stay valid.", "quantifier": "all histories before the call, all n up to the allocation limit, all appended sequences", "why_tests_cant": "Depends on the growth policy for all sizes and capacities.", "anchors": ["src/clean-core/detail/vector_base.hh: reserve, emplace_back"]}
{"id": "C67", "title": "chunked_buffer destroys its elements", "statement": "Destroying a chunked_buffer runs the destructor of every element that was pushed into it exactly once.", "quantifier": "all histories of push_back/emplace_back/set_chunk_size, all element types", "why_tests_cant": "Leaks do not show in the results of a program.", "anchors": ["src/clean-core/experimental/chunked_buffer.hh: ~chunked_buffer"]}
{"id": "C68", "title": "dynamic array is a value with correct element lifetimes", "statement": "Every history of constructions, copies, moves, assignments (also to itself), resizes, reads, writes and comparisons of cc::array<T> objects behaves like lists; a moved-from array is empty; every element is constructed once and destroyed once; resize may be given an element of the array itself.", "quantifier": "all histories over any number of arrays, all element types (with or without destructor)", "why_tests_cant": "Aliasing and self-assignment cases and exact destructor counts depend on the whole history.", "anchors": ["src/clean-core/array.hh: array<T>", "src/clean-core/detail/container_impl_util.hh"]}
{"id": "C69", "title": "formatted integers", "statement": "Formatting an integer with [[fill]align][sign][#][0][width][type] yields the sign, the prefix of the base (with #) and the canonical numeral of the magnitude in the base selected by the type, padded to at least width characters (after the sign with zeros if 0 is given, otherwise with the fill character on the side selected by the alignment); an unsupported type fails a contract.", "quantifier": "all values of all integer types, all format specifications", "why_tests_cant": "The product of types, values and specifications is far too large to test; the failures sit at the extreme values and in rare combinations.", "anchors": ["src/clean-core/to_string.cc: parse_args, unsigned_to_string_impl, int_to_string_impl, to_string(string_stream_ref, int, string_view)"]}
{"id": "C70", "title": "TLSF self-check and heap walk are exact", "statement": "validate_heap (tlsf_check) and tlsf_check_pool report no problem at any point of any legal history; conversely a heap that passes the check has finite free lists of free, coalesced blocks in the right lists and matching bitmaps; walking a pool visits every block exactly once in address order; get_allocation_size reports at least the size asked for, and the reported ranges of different blocks never overlap.", "quantifier": "all legal histories of add_pool, remove_pool, malloc, memalign, realloc, free and writes; for the converse all memory contents", "why_tests_cant": "A false alarm or a missed corruption only shows in particular heap shapes; the check follows links in memory and has to end.", "anchors": ["src/clean-core/detail/lib/tlsf.cc: tlsf_check, tlsf_walk_pool, tlsf_check_pool, tlsf_block_size", "src/clean-core/allocators/tlsf_allocator.cc: validate_heap, get_allocation_size"]}
{"id": "C71", "title": "alloc_vector behaves like a list and keeps to its allocator", "statement": "Every history of calls on cc::alloc_vector objects with any mixture of allocators behaves like the same history on lists, each remembering its allocator: contents, results and contract failures agree; every block is held by exactly one vector and is returned to the allocator it came from; moves transfer contents together with the allocator and leave an empty vector on the system allocator; after the destruction of all vectors every allocator has everything back (except elements skipped by shrink_to_fit).", "quantifier": "all histories over any number of vectors and allocators, all element types, sizes up to 2^48", "why_tests_cant": "Returning memory to the wrong allocator needs a particular mixture of moves and allocators and shows much later.", "anchors": ["src/clean-core/alloc_vector.hh: alloc_vector", "src/clean-core/detail/vector_base.hh: vector_base<T, true>"]}
{"id": "C72", "title": "alloc_array behaves like a list and keeps to its allocator", "statement": "Every history of constructions, moves, resets, resizes, reads, writes and comparisons of cc::alloc_array objects with any mixture of allocators behaves like the same history on lists, each remembering its allocator; arrays created by size hold default values; reset and resize may be given any value; every block is returned to the allocator it came from and every element is destroyed.", "quantifier": "all histories over any number of arrays and allocators, all element types", "why_tests_cant": "Aliasing between the argument and the array, uninitialised elements and mixtures of allocators.", "anchors": ["src/clean-core/alloc_array.hh: alloc_array"]}
{"id": "C73", "title": "result holds exactly the value or the error last given to it", "statement": "Every history of constructions, copies, moves, assignments, comparisons and accesses of cc::result objects behaves as if each held exactly the value or the error last given to it; accessing the other alternative fails a contract; every value and every error that is created is destroyed exactly once.", "quantifier": "all histories over any number of results, all value and error types", "why_tests_cant": "Every combination of old and new alternative on both sides of an assignment is its own code path.", "anchors": ["src/clean-core/result.hh: result"]}
{"id": "C74", "title": "capped_box holds exactly one object and destroys it exactly once", "statement": "Every history of constructions, assignments, emplacements, moves, accesses and destructions of cc::capped_box objects, with any mixture of derived types, gives every access the object last put into the box, runs the functions of the right type, and destroys every object exactly once; a box may be moved from more than once, moved into itself, and emplaced with its own content.", "quantifier": "all histories over any number of boxes, all derived types, base types with or without destructor and move constructor", "why_tests_cant": "Type erased destructors and moves depend on the whole history of the boxes involved.", "anchors": ["src/clean-core/experimental/capped_box.hh: capped_box, make_capped_box"]}
{"id": "C75", "title": "system allocator: buffers are disjoint, aligned, keep their bytes and are given back", "statement": "In every history of alloc, try_alloc, realloc, try_realloc, free, size queries, reads and writes on the system allocator, with a C library that may fail at any time, no call is undefined; buffers are aligned as asked for, have no byte in common, keep their bytes (also through reallocation, up to the smaller size) and report at least their size; a failed try_realloc leaves the original buffer valid; a request that cannot be met is refused; once every buffer is freed, the C library has everything back.", "quantifier": "all histories, all sizes, alignments and buffers, all C libraries that keep to the standard, with and without aligned_alloc", "why_tests_cant": "Depends on the failures and placement choices of the C library, on all sizes up to 2^64 and on the history.", "anchors": ["src/clean-core/allocators/system_allocator.hh: system_allocator_t", "src/clean-core/allocators/system_allocator.cc: system_malloc, system_realloc, system_msize, system_free"]}
{"id": "C76", "title": "allocator helpers and temp_cstr: objects, arrays and strings live exactly as long as they should", "statement": "In every history of new_t, new_array, new_array_sized and the matching deletes, alloc_data_copy, alloc_string_copy, alloc, realloc, free and temporary C strings (with and without a buffer) on any allocator: no call is undefined and every call ends; arrays hold default values (zeros for trivial types), copies hold what was copied, C strings show external functions the text up to its first zero; all memory is aligned for its type and disjoint; every object is destroyed exactly once, before its memory is given back; when everything is deleted, the allocator has everything back; a request that cannot be met fails a contract.", "quantifier": "all histories, all element types, sizes and alignments, all allocators that keep to the interface", "why_tests_cant": "Counter widths, hidden array headers, alignment of small types and sizes up to 2^64.", "anchors": ["src/clean-core/allocator.hh: allocator", "src/clean-core/allocator.cc: alloc_string_copy, realloc, try_realloc", "src/clean-core/temp_cstr.hh: temp_cstr", "src/clean-core/temp_cstr.cc"]}
{"id": "C77", "title": "string_stream collects exactly what is written to it", "statement": "In every history of constructions, copies, moves (also onto itself), assignments, writes of views and characters, reserve, clear and destruction of string streams: to_string, size and empty report exactly the characters written since the last clear, in order; copies are independent; a stream that was moved from is empty and usable; to_string ends with a zero; reserve(n) keeps the buffer in place for the next n characters; no access leaves a buffer, and when all streams are gone every buffer has been given back exactly once.", "quantifier": "all histories of any number of streams, all texts below 2^61 characters", "why_tests_cant": "Growth, copy assignment into a smaller or larger buffer, self-assignment and moved-from streams interact in every order.", "anchors": ["src/clean-core/string_stream.hh: string_stream"]}
{"id": "C78", "title": "fwd_array holds exactly its elements and destroys each of them", "statement": "In every history of fwd_arrays made by default, by size, uninitialized, filled, from lists and from spans (also of other arrays), moved (also onto themselves), written and destroyed: size, empty, operator[] and iteration report the elements given, in order, with default values for new elements; an array moved from is empty; an index out of range fails its contract before anything is touched; each object constructed is destroyed exactly once, and all memory is given back.", "quantifier": "all element types (trivial or not), all histories of any number of arrays", "why_tests_cant": "Object lifetimes are invisible to tests with trivial types, and the constructors combine with moves in every order.", "anchors": ["src/clean-core/fwd_array.hh: fwd_array", "src/clean-core/algorithms.hh: fill", "src/clean-core/detail/container_impl_util.hh: container_copy_construct_range"]}
{"id": "C79", "title": "value boxes hold exactly one object and destroy it exactly once", "statement": "In every history of box, poly_box and fwd_box (pimpl) objects that are created from values, copied or moved objects, moved to each other (also from a box of a derived class and onto themselves), assigned, emplaced, accessed and destroyed: each box holds the object it was given, with its dynamic class and value; no object is in two boxes; a box that was moved from is empty, and access to it is caught by an assertion; every object is destroyed exactly once, by the right destructor.", "quantifier": "all classes and values, all histories of any number of boxes", "why_tests_cant": "Moved-from boxes, own objects as arguments and derived classes combine in every order; lifetimes are invisible to tests.", "anchors": ["src/clean-core/experimental/box.hh: box, make_box", "src/clean-core/experimental/poly_box.hh: poly_box, make_poly_box", "src/clean-core/experimental/fwd_box.hh: fwd_box, make_fwd_box", "src/clean-core/experimental/pimpl.hh: pimpl"]}
{"id": "C80", "title": "integer ranges visit exactly the numbers from begin to end", "statement": "For every integer type and all begin <= end, a loop over the range visits each number from begin to end - 1 once, in ascending order, and ends; the reversed range visits them in descending order; reversing twice gives the range again; skip_first and skip_last leave out one end and keep empty ranges empty; max(v) leaves exactly the numbers that are at most v; indices_of(n) and indices_of(collection) visit 0 to n - 1.", "quantifier": "all integer types, all bounds", "why_tests_cant": "Loops stop on inequality, so that one wrong bound at the edge of a type runs through the whole type; tests use small bounds.", "anchors": ["src/clean-core/detail/srange.hh: irange, rev_irange", "src/clean-core/indices_of.hh: indices_of"]}
{"id": "C81", "title": "copy, fill, range comparison, any_of and cascaded_less do what they say for all ranges", "statement": "copy gives the first elements of the target the values of the source, position by position, and changes nothing else, for all ranges that do not overlap or where the target begins first; a target that is too short is caught by a contract and nothing behind it is written; fill gives all elements the value, even if the value is one of them; are_ranges_equal says whether lengths and all elements agree, and are_ranges_unequal the opposite; x == any_of(...) says whether one of the values is equal to x; cascaded_less is the lexicographic order, and a strict total order if those of the members are.", "quantifier": "all ranges and contents, all overlaps, all comparison operators, any number of members", "why_tests_cant": "Overlaps, references into the range and positions of differences vary freely.", "anchors": ["src/clean-core/algorithms.hh: copy, fill, are_ranges_equal, are_ranges_unequal", "src/clean-core/cursor.hh: iterator_cursor, to_cursor", "src/clean-core/any_of.hh: any_of", "src/clean-core/less.hh: cascaded_less"]}
{"id": "C82", "title": "calling through function_ref, stream_ref, range_ref and unique_function is calling the callable", "statement": "In every history, calling a function_ref (also a copy, and one made from a function pointer), writing to a stream_ref, iterating with range_ref::for_each and calling a unique_function has the result and the effects of calling the callable it was made from, with the same values in the same order, as long as that callable lives; a stream made from a callable for single values passes on every value in order; a default stream_ref takes everything and does nothing; making a unique_function from an lvalue leaves that object as it is; every callable of a unique_function is destroyed exactly once, by the allocator it came from; calls of empty references, of empty or moved-from unique functions and null function pointers are caught by assertions.", "quantifier": "all callables, values and histories", "why_tests_cant": "Type erasure goes through untyped pointers; lifetimes and states of callables are invisible to a test of one call.", "anchors": ["src/clean-core/function_ref.hh: function_ref", "src/clean-core/stream_ref.hh: stream_ref, string_stream_ref, make_stream_ref", "src/clean-core/range_ref.hh: range_ref", "src/clean-core/unique_function.hh: unique_function"]}
{"id": "C83", "title": "error messages for substrings show every error", "statement": "make_error_message_for_substrings always ends and returns the lines of the string in order, each with \"> \" in front and followed by a picture of the errors whose targets begin there: each column of the target has a '^' and no other column has one, markers in one row do not touch, the whole message of each error stands below its marker without being overwritten by another, and a line of '|' leads to it; lines without errors have no picture; the message, if any, comes last. For the empty string all messages are listed. Targets outside of the string are caught by an assertion. A target over several lines is shown in each of them.", "quantifier": "all strings, messages and sets of errors, also overlapping ones", "why_tests_cant": "The rows for markers and texts are allocated by searching among the earlier ones; whether texts overwrite each other or the search ends depends on all errors of a line together.", "anchors": ["src/clean-core/error_messages.cc: make_error_message_for_substrings", "src/clean-core/error_messages.hh: substr_error"]}
{"id": "C84", "title": "file watches report exactly the changes of their files", "statement": "In every history of creating, moving, assigning (also to themselves), clearing and destroying file watches, with changes of files and the steps of the monitor threads at any time in between: a watch says that its file has changed iff such a change was reported to the program after the watch was created or last cleared; no change is lost once the events of the directory are processed; no flag is touched after its watch is gone; there is one monitor thread for each directory with watches and none without; several watches for one file all report its changes.", "quantifier": "all histories, paths, files and schedules of the monitor threads", "why_tests_cant": "The outcome depends on when the threads read events, on which watches share a directory and on the order of destruction; tests see a few schedules.", "anchors": ["src/clean-core/experimental/filewatch.cc: Monitor, Flag, onFlagDestruction, createFileWatchFlag", "src/clean-core/experimental/filewatch.hh: filewatch"]}
{"id": "C85", "title": "make_hash_xxh3 computes XXH3 on every machine", "statement": "For all data and seeds, cc::make_hash_xxh3 returns the value the XXH3 algorithm defines for them. It is the same with the scalar code, SSE2, AVX2 and AVX512, on little and big endian machines, with or without native 128 bit multiplication, and nothing outside of the data is read. The functions without seed, and with a secret of at least 136 bytes, agree with the same definition.", "quantifier": "all data of every length, seeds, secrets and builds", "why_tests_cant": "There are seven code paths by length, four vector paths and two byte orders; a test runs on one machine with a few lengths.", "anchors": ["src/clean-core/hash.xxh3.cc: make_hash_xxh3", "src/clean-core/detail/xxHash/xxh3.hh: XXH3_64bits_withSeed, XXH3_64bits_withSecret, XXH3_accumulate_512, XXH3_scrambleAcc"]}
{"id": "C86", "title": "xxh3 hashes of short data do not collide", "statement": "For every seed, different data of the same length of at most eight bytes have different xxh3 hashes; so do different data of one to three bytes of any lengths; and the hash of at most eight bytes differs for different seeds. (Longer data do collide: for every seed there are 32 byte messages of which eight bytes do not count.)", "quantifier": "all data up to eight bytes and all seeds", "why_tests_cant": "There are 2^64 messages of eight bytes for each of 2^64 seeds.", "anchors": ["src/clean-core/hash.xxh3.cc: make_hash_xxh3", "src/clean-core/detail/xxHash/xxh3.hh: XXH3_len_1to3_64b, XXH3_len_4to8_64b, XXH3_mix16B"]}
{"id": "C87", "title": "streaming xxh3 agrees with hashing at once", "statement": "In every history of resetting (with or without seed or secret), updating, copying, digesting and freeing streaming states, every digest is the hash of all data given to that state since its last reset, however it was cut into pieces, and no memory outside of live states is read.", "quantifier": "all histories of calls, all messages and all ways to cut them", "why_tests_cant": "The result depends on the alignment of all pieces with the 256 byte buffer and on the lifetime of copied states.", "anchors": ["src/clean-core/detail/xxHash/xxh3.hh: XXH3_64bits_reset, XXH3_64bits_update, XXH3_64bits_digest, XXH3_copyState, XXH3_consumeStripes, XXH3_digest_long"]}
{"id": "C88", "title": "the assertions of xxh3 never fail", "statement": "With the assertions of XXH3 enabled (XXH_DEBUGLEVEL), hashing any data with any seed gives the same result as without them.", "quantifier": "all data, seeds and builds", "why_tests_cant": "The assertion depends on the exact length.", "anchors": ["src/clean-core/detail/xxHash/xxh3.hh: XXH_ASSERT, XXH3_len_4to8_64b"]}
{"id": "C89", "title": "capped_array behaves as a fixed-size array and keeps object lifetimes", "statement": "Through every history of constructing (default, with size, defaulted, uninitialized, filled), resizing by assignment and emplace, copying, moving and writing capped_arrays, each one has the size and elements of the array that the same history gives, sizes above the capacity and indices out of range are refused by an assertion, and every element object is constructed once, never used before or after its lifetime, and destroyed once.", "quantifier": "all histories over any number of capped_arrays, capacities and element types", "why_tests_cant": "Lifetime errors need particular sequences of moves and self-assignments and are silent for trivial types.", "anchors": ["src/clean-core/capped_array.hh: capped_array, emplace, operator=", "src/clean-core/detail/compact_size_t.hh: compact_size_t_for", "src/clean-core/detail/container_impl_util.hh"]}
{"id": "C90", "title": "synchronized allocators are linearizable", "statement": "Whatever number of threads call synced_tlsf_allocator or synced_virtual_linear_allocator, in every schedule there is no data race on the backing allocator, every call takes effect at one moment between its begin and its return, the answers are those of the same calls made one after the other in that order, no call can be stuck for ever while the other threads go on, and the blocks handed out to all threads are apart, aligned and large enough.", "quantifier": "all numbers of threads, all schedules, all values the memory model allows, all ways the calls of the backing allocator are made of accesses", "why_tests_cant": "Interleavings cannot be enumerated, and races show only under particular timing.", "anchors": ["src/clean-core/allocators/synced_tlsf_allocator.hh: synced_tlsf_allocator", "src/clean-core/allocators/synced_virtual_linear_allocator.hh: synced_virtual_linear_allocator", "src/clean-core/lock_guard.hh: lock_guard", "src/clean-core/spin_lock.hh: spin_lock"]}
{"id": "C91", "title": "wide and UTF-8 strings are converted faithfully, within the destination", "statement": "widechar_to_char and char_to_widechar write the longest part of the text that fits into the destination span, never write outside of it, return how many characters they have written, stop at the terminator or after opt_num_src_chars characters of the source, answer -1 for a source that is no valid text, and converting there and back gives the text again.", "quantifier": "all texts, destination sizes and contents, source counts and memory contents behind the source", "why_tests_cant": "The space of texts with characters of one to four bytes against all destination sizes cannot be enumerated.", "anchors": ["src/clean-core/native/wchar_conversion.hh: widechar_to_char, char_to_widechar", "src/clean-core/native/wchar_conversion.cc"]}
{"id": "C92", "title": "to_string of a wide string is its UTF-8 form", "statement": "to_string(wchar_t const*) returns the UTF-8 form of the string, for every string, and [nullptr] for a null pointer.", "quantifier": "all wide strings", "why_tests_cant": "Tests use ASCII strings.", "anchors": ["src/clean-core/to_string.cc: to_string(wchar_t const*)"]}
{"id": "C93", "title": "approximate inverse square roots are as good as their documentation says", "statement": "intrin_rsqrt has a relative error below 0.000367 and each Newton-Raphson iteration of intrin_rsqrt_nr1 and intrin_rsqrt_nr2 makes it smaller, down to the order of the rounding error (2^-20, 2^-21), for every non-negative float; zero gives infinity and infinity gives zero as with 1 / sqrt.", "quantifier": "all float values, all answers of the hardware approximation within its documented error", "why_tests_cant": "There are 2^32 floats, and processors differ in the approximation within the documented error.", "anchors": ["src/clean-core/intrinsics.hh: intrin_rsqrt, intrin_rsqrt_nr1, intrin_rsqrt_nr2"]}
{"id": "C94", "title": "processor features are reported as they are", "statement": "test_cpu_support_lzcnt and test_cpu_support_popcount are true exactly if the processor has the instruction, on every processor.", "quantifier": "all processors, i.e. all answers of cpuid", "why_tests_cant": "A test runs on one processor.", "anchors": ["src/clean-core/intrinsics.hh: test_cpuid_register, test_cpu_support_lzcnt, test_cpu_support_popcount"]}
{"id": "C95", "title": "a failed assertion calls the handler of its thread and never goes on", "statement": "In every history of threads setting handlers and executing assertion macros, an active check that fails calls exactly the handler its own thread has set last (or the default one), once, with its own information, and the process is then aborted unless the handler throws; checks that hold, or that are switched off, have no effect.", "quantifier": "all histories of all numbers of threads, handlers that return or throw, compile flags", "why_tests_cant": "A failed assertion ends the test process, and what a handler of another thread does depends on the history.", "anchors": ["src/clean-core/assert.hh: CC_ASSERT, CC_RUNTIME_ASSERT, CC_CONTRACT, CC_UNREACHABLE, set_assertion_handler", "src/clean-core/assert.cc"]}
{"id": "C96", "title": "the bundled XXH32 and XXH64 compute the published hashes", "statement": "XXH32 and XXH64 give the published value for every block of memory and seed, whatever its length, address and alignment, the byte order of the machine and the way the tail is unrolled; they read nothing outside the block, make no misaligned aligned access and fail no assertion. Changing a single byte after the last full stripe always changes the value, different seeds give different values for blocks shorter than a stripe, and no two keys of 1, 4 (or, for XXH64, 8) bytes of the same size collide.", "quantifier": "all blocks, lengths, addresses, seeds, byte orders, compile-time variants", "why_tests_cant": "The tail is a switch with one label per remaining length, in two variants, and twice for the alignment; a test vector covers one path and one machine.", "anchors": ["src/clean-core/detail/xxHash/xxhash.hh: XXH32, XXH64, XXH32_finalize, XXH64_finalize, XXH32_endian_align, XXH64_endian_align"]}
{"id": "C97", "title": "XXH32 and XXH64 in pieces are XXH32 and XXH64 at once", "statement": "In every history of resets, updates, digests, copies and frees of any number of states each digest is the hash of the concatenation of the updates since the last reset, copies included, and does not disturb the state; updates with a null pointer answer with an error and change nothing. For XXH32 this holds even when more than 2^32 bytes are given.", "quantifier": "all histories of all numbers of states, all ways to cut data into pieces, all addresses", "why_tests_cant": "What the buffer holds depends on all lengths so far; data of more than 4 GiB is not tested.", "anchors": ["src/clean-core/detail/xxHash/xxhash.hh: XXH32_reset, XXH32_update, XXH32_digest, XXH32_copyState, XXH64_reset, XXH64_update, XXH64_digest, XXH64_copyState"]}
{"id": "C98", "title": "the canonical representation of a hash is the same on all machines", "statement": "canonicalFromHash writes the same bytes on every machine, highest byte first; hashFromCanonical on any machine gives the hash back; each sequence of bytes of the right size is the representation of exactly one hash; and comparing representations with memcmp is comparing hashes.", "quantifier": "all hashes, all pairs of machines", "why_tests_cant": "A test runs on one byte order.", "anchors": ["src/clean-core/detail/xxHash/xxhash.hh: XXH32_canonicalFromHash, XXH32_hashFromCanonical, XXH64_canonicalFromHash, XXH64_hashFromCanonical"]}
{"id": "C99", "title": "to_string of a floating-point number is its six-digit rounding", "statement": "to_string of every float, double and long double writes nothing beyond its buffer and gives a minus sign for negative numbers (zero included) followed by the number correctly rounded (ties to even) to six significant digits, written in the usual way: without exponent from 10^-4 up to 10^6, otherwise with one digit before the point and an exponent of at least two digits, without trailing zeros. The text is unique, differs from the number by at most one part in 200000, is exact for numbers of at most six digits, and larger numbers have texts of the same or larger value. Infinities are inf, NaNs nan.", "quantifier": "all finite numbers of the three types, infinities, NaNs, both signs", "why_tests_cant": "A double has 2^64 values; rounding that carries over all digits or over the change of notation, and the longest texts, are corner cases.", "anchors": ["src/clean-core/to_string.cc: to_string(float), to_string(double), to_string(long double)"]}
{"id": "C100", "title": "formatted floating-point numbers follow the format specification", "statement": "For every format specification with a floating-point type (e, f, g in small or capital letters, or none) the text of a float, double or long double is: the sign the specification asks for; the number correctly rounded to the given number of digits (six by default) in the notation of the type, with '#' keeping point and zeros; with '0' zeros between sign and digits up to the width, otherwise padding with the fill character by the alignment. Specifications with another type fail an assertion.", "quantifier": "all specifications, all numbers, infinities and NaNs", "why_tests_cant": "Width, precision, sign, alternative form, zero padding and type combine freely, and the text is put through a buffer of fixed size.", "anchors": ["src/clean-core/to_string.cc: to_string_float_impl, to_string(string_stream_ref, float, string_view), to_string(string_stream_ref, double, string_view), to_string(string_stream_ref, long double, string_view)"]}
{"id": "C101", "title": "from_string of a floating-point number reads exactly the numbers", "statement": "from_string for float and double succeeds exactly on the texts that as a whole (after white space and an optional sign) are a decimal number, a hexadecimal number, an infinity or a NaN, and not too large for the type; it then stores the representable number nearest to the one denoted, ties to even. Each text denotes at most one value. It always returns and reads nothing beyond the text.", "quantifier": "all texts, zero-terminated or given by a view, of any length", "why_tests_cant": "The accepted texts are an infinite language, and nearest is a statement about all other numbers.", "anchors": ["src/clean-core/from_string.cc: from_string(char const*, float&), from_string(char const*, double&), from_string(string_view, float&), from_string(string_view, double&)"]}
{"id": "C102", "title": "floating-point numbers survive to_string and from_string", "statement": "from_string accepts the text that to_string gives for every float and double and gives the same number again.", "quantifier": "all numbers of both types", "why_tests_cant": "There are 2^64 doubles, and the ones that come back changed are found by looking at the digits.", "anchors": ["src/clean-core/to_string.cc: to_string(float), to_string(double)", "src/clean-core/from_string.cc: from_string(char const*, float&), from_string(char const*, double&)"]}
{"id": "C103", "title": "the atomic operations are atomic, with either compiler", "statement": "Whatever threads do with intrin_cas, intrin_atomic_swap, intrin_atomic_add and intrin_atomic_or (and their pointer forms), in whatever order, the calls on a variable form a chain: each returns what the one before has left, the first the initial value, and leaves the value its name says; other variables are untouched. So no addition is lost and counting hands out every number once (up to 2^w calls); a value that is swapped in is returned by exactly one later call or is the final one; a bit is seen clear by exactly one of the calls that set it; of several attempts to replace a value by compare-and-swap exactly one succeeds and the others get its value; and counting by compare-and-swap counts the successful calls.", "quantifier": "all programs of all numbers of threads, all schedules, all widths, both compilers", "why_tests_cant": "Lost updates need an interleaving; the argument order of the two compilers differs, and a test runs with one of them.", "anchors": ["src/clean-core/intrinsics.hh: intrin_cas, intrin_cas_pointer, intrin_cas_pointer_t, intrin_atomic_swap, intrin_atomic_swap_pointer, intrin_atomic_swap_pointer_t, intrin_atomic_add, intrin_atomic_or"]}
{"id": "C104", "title": "sorting costs what the documentation says", "statement": "For every strict weak order sort needs O(n log n) comparisons in the worst case, quickselect O(n); is_sorted needs at most n-1 comparisons, and partition_by asks its predicate O(n) times. The recursion depth of sort stays logarithmic, so that sorting cannot exhaust the stack.", "quantifier": "all element and key types, all strict weak orders and predicates, all ranges and indices", "why_tests_cant": "A worst case has to be found among all inputs, and a growth rate is a statement about all sizes; tests time a few inputs.", "anchors": ["src/clean-core/sort.hh: sort, sort_by, quickselect, quickselect_by, partition_by, partition_ex, is_sorted, detail::sort_ex_impl, detail::partition_right, detail::small_sort"]}
{"id": "C105", "title": "containers grow at amortised constant cost", "statement": "However a container is filled, piece by piece and with any reservations in between, the elements that growing has to move, copy or link again are in total at most a constant times the greatest number of elements it held or was asked to hold, the memory stays within a constant factor of that number, and the memory is exchanged only a logarithmic number of times.", "quantifier": "all element types, all histories of calls on vector, string, string_stream, map and set", "why_tests_cant": "A growth rate is a statement about all sizes and all interleavings of appends, removals and reservations; a test only times a few of them.", "anchors": ["src/clean-core/vector.hh, src/clean-core/detail/vector_base.hh: push_back, emplace_back, push_back_range, insert_range_at, reserve, resize", "src/clean-core/sbo_string.hh: push_back, operator+=, resize, reserve", "src/clean-core/string_stream.hh: operator<<, reserve", "src/clean-core/map.hh: operator[], get_or_create, reserve", "src/clean-core/set.hh: add, reserve"]}
{"id": "C106", "title": "print writes exactly the text, println a whole line that has arrived", "statement": "Whichever overload is used, print writes exactly the text of its argument (the formatted text if a formatter and arguments are given) to the standard output and println the text and one end of line. Calls of several threads never mix within a text, the texts of one thread come in its order, and once println has returned its line and everything written before it has left the process, so that it survives a crash. A call that fails its contract writes nothing.", "quantifier": "all texts, format strings, arguments and overloads; all numbers of threads, schedules and behaviours of the output buffer; every crash point", "why_tests_cant": "Interleavings of threads, the moments at which a buffer is handed over, and crash points cannot be enumerated by tests, nor can all texts (among them those with zero characters).", "anchors": ["src/clean-core/print.hh: print, println", "src/clean-core/print.cc: print, println", "src/clean-core/format.hh: format, format_to", "src/clean-core/temp_cstr.hh: temp_cstr"]}
{"id": "C107", "title": "deferred code runs exactly once, at the end of its scope", "statement": "A function deferred with CC_DEFER, or returned by a function that uses CC_RETURN_DEFER, is called exactly once for every execution of the statement: when the scope that holds it is left, whether at its end, by return, break, continue or an exception; functions deferred in the same scope are called in the reverse order, inner scopes before outer ones.", "quantifier": "all programs built of scopes, calls, loops, exceptions and handlers, with deferred functions nested in any way", "why_tests_cant": "Control flow through scopes, exceptions and nested deferred functions has unboundedly many shapes, of which tests exercise a few.", "anchors": ["src/clean-core/defer.hh: CC_DEFER, CC_RETURN_DEFER, detail::deferred"]}
{"id": "C108", "title": "tuples and pairs are the sequence of their components", "statement": "A tuple has exactly the components it was made of, get<I> designates component I and writing through it changes no other one; two tuples or pairs are equal if and only if all components are, the comparison goes from the left and stops at the first difference, and != is its negation if it is for the components; apply calls the function once with all components in their places, with their changes visible afterwards; projection_function<I> returns argument I.", "quantifier": "all numbers and types of components, all component comparisons (also partial ones), all functions", "why_tests_cant": "Templates over any number of types: a test instantiates a few of them, with well-behaved comparisons.", "anchors": ["src/clean-core/tuple.hh: tuple, get, operator==, operator!=", "src/clean-core/pair.hh: pair", "src/clean-core/get.hh: get", "src/clean-core/apply.hh: apply", "src/clean-core/functors.hh: projection_function, constant_function"]}
{"id": "C109", "title": "a value of any type is formatted by the functions its type offers", "statement": "Every type that offers one of the documented functions (to_string with or without stream and format specification, as free function or member) can be given to cc::format; without a specification the text is that of one of these functions; a specification is handed to a function of the type that takes one if there is any, and only otherwise the text is formatted by the rules for strings.", "quantifier": "all types, described by the functions they offer, all values, all specifications", "why_tests_cant": "Which function is called is decided while compiling, for every type anew; a test covers the types in it.", "anchors": ["src/clean-core/format.hh: has_to_string_ss_args, has_to_string_ss, has_to_string_args, has_to_string, default_do_format::do_format"]}
{"id": "C110", "title": "the text of flags lists exactly the flags that are set", "statement": "to_string of a flags object is the list of the names of the contained enum values, in ascending order, separated by comma and space and enclosed in braces; it is defined for every flags object.", "quantifier": "all widths, all flags values, all names", "why_tests_cant": "The set of flags and the width of the enum are arbitrary; wide enums behave differently from narrow ones.", "anchors": ["src/clean-core/flags.hh: to_string(flags), operator&", "src/clean-core/detail/compact_size_t.hh: compact_size_t_by_bits"]}
{"id": "C111", "title": "the allocator's bit searches give the same answer with every compiler", "statement": "In each of the seven variants of the code (gcc and clang, SNC, MSVC on x86 and on PowerPC, ARM, Green Hills, and the generic fallback) the searches used by the TLSF allocator return the position of the highest or lowest one of the word, and -1 for an empty word, so that sizes fall into the same classes everywhere.", "quantifier": "all 32 and 64 bit words, all variants of the conditional compilation", "why_tests_cant": "Only one variant is compiled on a given machine, and there are 2^64 sizes.", "anchors": ["src/clean-core/detail/lib/tlsf.cc: tlsf_ffs, tlsf_fls, tlsf_fls_generic, tlsf_fls_sizet"]}
{"id": "C112", "title": "a cursor never reads or advances past its end", "statement": "For every class built on cc::cursor, get() and advance() are called only while is_valid() holds, as the header guarantees; a loop over a cursor visits each element once and in order and leaves the cursor itself as it was; a cursor made from any range with to_cursor yields exactly the elements of the range.", "quantifier": "all classes derived from cursor, all ranges and iterators, all programs using a cursor, all loop bodies, also those that leave the loop", "why_tests_cant": "The derived class, the range and the program are arbitrary.", "anchors": ["src/clean-core/cursor.hh: cursor, iterator_cursor, to_cursor"]}
{"id": "C113", "title": "views of elements as bytes or as another type show exactly the same bytes", "statement": "as_bytes, as_writable_bytes, as_byte_span and reinterpret_as give views over exactly the bytes of the given elements, in order, and writing through them changes only the byte written; converting back gives the original; from_byte_span refers to the object made up of the bytes; a vector reinterpreted as another type owns the same memory and the old one is empty; bit_cast keeps the bytes. What does not fit the other type is rejected.", "quantifier": "all types (sizes, alignments), all spans, arrays, ranges, vectors and objects at all addresses, all contents", "why_tests_cant": "Sizes, alignments and addresses are arbitrary; tests use a few aligned buffers.", "anchors": ["src/clean-core/span.hh: as_bytes, as_writable_bytes, reinterpret_as, as_byte_span, from_byte_span", "src/clean-core/vector.hh: reinterpret_as", "src/clean-core/bit_cast.hh: bit_cast"]}
{"id": "C114", "title": "what is called a collection can be used like one", "statement": "Every type for which collection_traits say so can be looped over with collection_begin/end, collection_size is the number of elements of that loop, element i of an indexed range is the i-th element of the loop, collection_add adds an element by the best function the type offers, and indices_of visits each index once.", "quantifier": "all types, described by the functions they offer, all their objects", "why_tests_cant": "The traits are evaluated for every type anew while compiling.", "anchors": ["src/clean-core/collection_traits.hh: collection_traits, collection_begin, collection_end, collection_size, collection_add, is_indexed_range", "src/clean-core/indices_of.hh: indices_of"]}
{"id": "C115", "title": "optionals and variants compare like the values they hold", "statement": "Comparing optionals, variants, nullopt and values in any combination with == gives true exactly if the values held are equal (an empty optional equals nullopt and empty optionals only); != is the negation; the order of the operands does not matter.", "quantifier": "all nestings of optional and variant over all value types, all values", "why_tests_cant": "The combinations of types are unbounded and each chooses among several overloads.", "anchors": ["src/clean-core/optional.hh: operator==, operator!=", "src/clean-core/variant.hh: operator==, operator!=, permissive_equal, permissive_not_equal"]}
{"id": "C116", "title": "the assertion and hint macros mean what their argument means, for every expression and compiler", "statement": "For every expression a user writes as condition, whatever operators it has, CC_ASSERT, CC_ASSERT_MSG, CC_RUNTIME_ASSERT, CC_CONTRACT and the null checks fail exactly if it is false, evaluate it once, and evaluate the message only on failure; CC_ASSERT_IN_BOUNDS fails exactly if the value is outside of the bounds; macros that are switched off evaluate nothing; CC_ASSUME is undefined exactly if its condition is false and CC_LIKELY has the value of its argument, with every compiler.", "quantifier": "all expressions (operators, calls, conditionals, assignments in any nesting), all values, all compilers and all combinations of switches", "why_tests_cant": "The text of the argument is arbitrary and precedence decides what the result means; each compiler has its own definitions.", "anchors": ["src/clean-core/assert.hh: CC_ASSERT, CC_ASSERT_MSG, CC_RUNTIME_ASSERT, CC_ASSERT_IN_BOUNDS, CC_ASSERT_IS_NULL, CC_ASSERT_NOT_NULL, CC_CONTRACT", "src/clean-core/assertf.hh: CC_ASSERTF", "src/clean-core/macros.hh: CC_ASSUME, CC_LIKELY, CC_UNLIKELY, CC_CONDITION_LIKELY, CC_UNUSED"]}
{"id": "C117", "title": "memory ranges are reserved, committed and freed byte by byte", "statement": "Every byte of a range that was committed with commit_physical_memory, aligned or not, can be read and written until it is decommitted or its reservation freed, whatever happens to other ranges; it keeps its value; prefault_memory reads only bytes of its range and touches all of its pages; after all reservations are freed nothing is mapped and no memory is used; decommitted memory is given back.", "quantifier": "all histories of reserve, commit, decommit, prefault, free, reads and writes with any number of reservations, all addresses the operating system may choose, all page sizes", "why_tests_cant": "Rounding to pages matters for every address and size, and ranges share pages with their neighbours; the page size depends on the machine.", "anchors": ["src/clean-core/native/memory.hh: reserve_virtual_memory, free_virtual_memory, commit_physical_memory, decommit_physical_memory, prefault_memory", "src/clean-core/native/memory.cc"]}
{"id": "C118", "title": "converting a capped box keeps the object", "statement": "A capped_box of a base class that is made from a capped_box of a derived class holds the object afterwards and destroys it, and the conversion touches no memory outside of the two boxes.", "quantifier": "all classes (size, trivially movable or not, with or without destructor), all capacities of the destination, all objects", "why_tests_cant": "Sizes are template parameters, and reading or writing past a box is not noticed in a test.", "anchors": ["src/clean-core/experimental/capped_box.hh: capped_box(capped_box<U>&&), operator=(capped_box<U>&&)"]}
{"id": "C119", "title": "128 bit hashes are the same on every machine", "statement": "XXH128 and its variants with a seed or a secret compute one function of data, seed and secret, whatever the vector unit, byte order, pointer size or multiplication of the machine, never read outside of the data, and do not collide for data of the same length of at most 16 bytes or for different seeds of such data.", "quantifier": "all data of all lengths, seeds, secrets of at least 136 bytes, and all machines", "why_tests_cant": "Hashes get stored and exchanged between machines; a test runs one code path on one machine with a few lengths.", "anchors": ["src/clean-core/detail/xxHash/xxh3.hh: XXH128, XXH3_128bits, XXH3_128bits_withSeed, XXH3_128bits_withSecret"]}
{"id": "C120", "title": "128 bit hashes can be computed in pieces", "statement": "Updating a state with pieces of a message and taking the digest gives the 128 bit hash of the whole message at once, for every way to cut it, with interleaved digests, resets and copies of states.", "quantifier": "all histories of reset, update, digest, copy and free with any number of states, messages and seeds", "why_tests_cant": "The digest depends on how the pieces meet the boundaries of the buffer, for which there are too many combinations.", "anchors": ["src/clean-core/detail/xxHash/xxh3.hh: XXH3_128bits_reset, XXH3_128bits_update, XXH3_128bits_digest"]}
{"id": "C121", "title": "128 bit hashes compare and serialise as numbers", "statement": "XXH128_isEqual holds exactly for equal hashes; XXH128_cmp is a total order that agrees with it; the canonical form is the big-endian number on every machine, converting back gives the hash, and comparing canonical forms bytewise is comparing hashes.", "quantifier": "all hashes, all machines", "why_tests_cant": "2^256 pairs; byte order depends on the machine.", "anchors": ["src/clean-core/detail/xxHash/xxh3.hh: XXH128_isEqual, XXH128_cmp, XXH128_canonicalFromHash, XXH128_hashFromCanonical"]}
{"id": "C122", "title": "all forms of to_string give the same text", "statement": "For every value of every supported type, to_string(value), to_string(stream, value) and to_string(value) with an empty specification give the same text, and to_string(value, spec) is what to_string(stream, value, spec) appends; pointers are printed with all their digits, so different pointers have different texts; null pointers of all kinds print [nullptr]; types without format specifications reject them.", "quantifier": "all values of all types to_string is declared for, all format specifications", "why_tests_cant": "There are more than fifty overloads, and the least and largest values of each type.", "anchors": ["src/clean-core/to_string.hh: to_string", "src/clean-core/to_string.cc: to_string"]}
{"id": "C123", "title": "a container of n elements has memory for n elements", "statement": "Making an array, vector, alloc_array, alloc_vector, fwd_array, string or chunk with n elements either gives a container all of whose n elements can be used, or stops in a defined way (an assertion or an exception), whatever n and sizeof(T) are and whether or not there is enough memory. The same for adding an element to a full vector.", "quantifier": "all containers that allocate, all sizes of elements, all numbers of elements below 2^64, all answers of the C library", "why_tests_cant": "Sizes near 2^64 and refused requests do not occur in tests.", "anchors": ["src/clean-core/array.hh: array, _alloc", "src/clean-core/vector.hh: vector", "src/clean-core/detail/vector_base.hh: _alloc, _realloc, reserve, emplace_back", "src/clean-core/alloc_array.hh: alloc_array", "src/clean-core/alloc_vector.hh: alloc_vector", "src/clean-core/fwd_array.hh: fwd_array", "src/clean-core/sbo_string.hh: reserve", "src/clean-core/experimental/chunked_buffer.hh: emplace_back", "src/clean-core/allocators/system_allocator.hh: alloc, realloc"]}
{"id": "C124", "title": "the copying string functions give what the changing ones give", "statement": "trimmed, trimmed_start, trimmed_end, removed_prefix, removed_suffix and + are written separately from trim, trim_start, trim_end, remove_prefix, remove_suffix and +=. For every string both forms give the same text, the one the function is documented to give, and refuse the same arguments by an assertion; the new string is always zero terminated, also where the changing form leaves the zero out. first, last and substring(offset) give the stated part. ==, != and + between strings of different inline capacities compare and join the texts. contains, starts_with, ends_with and split see exactly the text, never the unused rest of the buffer.", "quantifier": "all strings made by any history of operations, all predicates, arguments and inline capacities", "why_tests_cant": "The two forms share no code and differ only on inputs such as an all-blank string, a prefix equal to the whole string, or a string whose buffer still holds removed characters.", "anchors": ["src/clean-core/sbo_string.hh: trimmed, trimmed_start, trimmed_end, removed_prefix, removed_suffix, first, last, substring, operator+, operator==, operator!=, contains, starts_with, ends_with, split", "src/clean-core/string_view.hh: trim, trim_start, trim_end, remove_prefix, remove_suffix, first, last"]}
{"id": "C125", "title": "destroying a file watch returns", "statement": "Destroying the last file watch for a directory stops the thread that watches it. Whatever this thread is doing, whatever changes in the directory, and in whatever order the threads run: the destructor returns after finitely many steps of the thread, the thread has ended then and does not touch the watch any more, and what was taken from the operating system (descriptor, watch, handles) is given back, each exactly once and under its own number.", "quantifier": "all interleavings of the destructor, the watching thread and changes of the directory, including its deletion; unix and Windows", "why_tests_cant": "A hang needs one particular order of steps of two threads and the file system.", "anchors": ["src/clean-core/experimental/filewatch.cc: Monitor::~Monitor, Monitor::launch, Monitor::create, onFlagDestruction"]}
{"id": "C126", "title": "The size that an mpmc queue reports", "statement": "If sizes are tracked, a multi-producer queue reports, whenever no call is running, exactly the number of stored elements, also after it has been initialized again. At any moment the report is too small by at most the number of producers and too big by at most the number of consumers. Tracking sizes does not change what the queue does.", "quantifier": "every capacity, every number of threads, every schedule, every value loaded under the memory model, every number of initializations", "why_tests_cant": "the error depends on where every thread is between publishing its element and adding to the counter; a test sees few interleavings and seldom initializes a queue twice", "anchors": ["src/clean-core/experimental/mpmc_queue.hh: enqueue, dequeue, initialize, get_approximate_size, _current_size, CC_MPMC_QUEUE_TRACK_SIZE"]}
{"id": "C127", "title": "containers compare like their elements", "statement": "Two arrays, vectors, capped vectors, allocated arrays or spans are equal exactly if they have as many elements and the elements at the same place are equal; their inequality is the opposite, and their equality is an equivalence relation, exactly if this is so for the elements, to any depth of nesting; equals_content agrees with the equality under the same condition; contains finds a value exactly if an element equals it. No comparison reads behind the elements.", "quantifier": "every element type with any operators == and !=, every length, every content, every depth of nesting", "why_tests_cant": "the operators are loops over any number of elements with operators that the user supplies; a test fixes a few types and lengths", "anchors": ["src/clean-core/detail/vector_base.hh: operator==, operator!=, contains", "src/clean-core/array.hh: operator==, operator!=", "src/clean-core/capped_vector.hh: operator==, operator!=, contains", "src/clean-core/alloc_array.hh: operator==, operator!=", "src/clean-core/span.hh: equals_content"]}
{"id": "C128", "title": "owning pointers are usable as keys", "statement": "After any history in which no call uses a pointer that disappears in its course, two owning pointers are equal exactly if they own the same object or both own none (two that own alone are equal only if both are null); != is the opposite; the order is a strict total order of the owned objects; the hashes are equal exactly if the pointers are, stay the same while the pointer is not changed, and move with the pointer; a new pointer equals no other one. All this although addresses of freed objects are used again. Boxes compare like their values, and comparing one that was moved from is caught. Type ids are equal exactly for the same type.", "quantifier": "every history of calls on shared or unique pointers in variables and in members of owned objects, every placement of the objects in memory that gives living objects different addresses", "why_tests_cant": "whether an address stands for one object depends on the whole history of allocations and on no dangling pointer being left; tests see one allocator and a few objects", "anchors": ["src/clean-core/unique_ptr.hh: operator==, operator!=, hash, less", "src/clean-core/poly_unique_ptr.hh: operator==, operator!=, hash, less", "src/clean-core/shared_ptr.hh: operator==, operator<, hash", "src/clean-core/experimental/box.hh: operator==", "src/clean-core/type_id.hh: type_id_t, type_id, hash"]}
{"id": "C129", "title": "set references stay valid until their element is removed", "statement": "A reference to an element of a set, as iteration gives it, reads that element until the element is removed or the set is cleared or replaced, whatever else is added or removed. References to different elements are different, and a copy of a set has elements of its own.", "quantifier": "every element type with a lawful equality and hash, every history of calls before and after the reference is taken", "why_tests_cant": "whether a reference survives depends on the number of elements and buckets at every later call; tests with few elements never make the set grow at the wrong moment", "anchors": ["src/clean-core/set.hh: add, _reserve, remove, iterator", "src/clean-core/forward_list.hh: copy constructor"]}
{"id": "C130", "title": "the bucket statistics of a map tell how its keys collide", "statement": "Every key has one bucket, below the number of buckets, equal keys the same; the size of a bucket is the number of entries whose keys belong to it and the sizes add up to the size of the map. The hash badness is the relative excess of the mean number of entries in the bucket of an entry over the mean of a random spread: never negative, always finite, zero for the empty map and when no two keys share a bucket, the greatest for a constant hash, and it depends only on the contents and the number of buckets. A greater table never brings two keys together that were in different buckets.", "quantifier": "every key and value type with a lawful equality and hash, every history of calls", "why_tests_cant": "the numbers depend on how all keys of every history fall into the buckets; tests only look at a few key sequences and check that the badness is small", "anchors": ["src/clean-core/map.hh: experimental::compute_hash_badness, detail::bucket_count, detail::bucket_idx, detail::bucket_size", "src/clean-core/forward_list.hh: size"]}
{"id": "C131", "title": "allocators own their memory from initialize to destroy", "statement": "A virtual allocator holds one range of addresses from initialize to destroy or its destructor; at every moment exactly the ranges that allocators hold are reserved, and none when all are gone. Without a range it refuses to allocate and has size zero, and it can be initialised again. A tlsf allocator has one heap from initialize to destroy: no two objects have the same heap, moving hands it on, a second initialize is refused, an object without a heap refuses to be used, and comparing objects changes nothing.", "quantifier": "every history of constructing, initialising, moving, using, destroying and dropping any number of allocators, every address the operating system returns", "why_tests_cant": "leaks and lost heaps only show in what is reserved after long histories; tests initialise each allocator once", "anchors": ["src/clean-core/allocators/virtual_linear_allocator.hh, .cc: initialize, destroy, reset, sizes", "src/clean-core/allocators/virtual_stack_allocator.hh, .cc: initialize, destroy", "src/clean-core/allocators/tlsf_allocator.hh, .cc: constructors, operator==, initialize, destroy", "src/clean-core/native/memory.cc: reserve_virtual_memory, free_virtual_memory"]}
{"id": "C132", "title": "The body of a loop over a map or set may change the container", "statement": "While a range-based for loop goes over a map or set, its body may call any operation of the same container, whatever it decides from the entries it has seen so far, as long as it does not remove the entry that the loop is at and adds nothing that needs room which is not there. The loop then ends, shows no entry twice, shows every entry that was there at the beginning and is not removed by the body before its turn, and the container is in the end what the calls make of it. In particular m[k] for a key k that is in the map, and s |= s, are harmless.", "quantifier": "all hash functions and equalities, all histories of the container, all loop bodies (functions from what has been shown to lists of calls), all numbers of rounds", "why_tests_cant": "The failure depends on the number of elements relative to the number of buckets at the moment of the call and on the chain an element is in; for most sizes the same loop works, and when it fails it may also silently skip or repeat entries.", "anchors": ["src/clean-core/map.hh: iterator, begin, operator[], get_or_create, reserve, remove_key, clear", "src/clean-core/set.hh: iterator, begin, add, operator|=, remove, reserve"]}
{"id": "C133", "title": "References to vector elements stay valid exactly while capacity() stays", "statement": "A reference, pointer or iterator to an element of a vector refers to the element at its index for as long as no call changes the value of capacity() of the vector and the vector is not replaced as a whole; moving a vector to another one hands its references over. push_back changes capacity() exactly when size() equals it, reserve, resize and insertions exactly when more room is asked for than there is, shrink_to_fit exactly when size() is smaller, copy assignment exactly when the other vector has more elements than there is room for, and removing elements never does. After capacity() has changed, no old reference may be used any more, and none ever becomes valid again.", "quantifier": "all element types (trivially copyable or not), all histories of calls on any number of vectors, before and after the reference is taken, all indices", "why_tests_cant": "Using a dangling reference mostly reads the old value; whether memory is exchanged depends on the whole history of sizes and reservations.", "anchors": ["src/clean-core/detail/vector_base.hh: emplace_back, reserve, resize, shrink_to_fit, push_back_range, insert_range_at, remove_at, clear", "src/clean-core/vector.hh: operator=, constructors"]}
{"id": "C134", "title": "The body of a loop over a vector may change vectors, within limits that can be told", "statement": "A range-based for loop over a vector makes as many rounds as there were elements when it started, and round k shows the element that is at index k at that time, whatever the body calls, also on the same vector. It is undefined behaviour exactly if a round comes to an index behind the last element or comes after capacity() of the vector has changed or the vector was replaced; if the vector is moved to another variable the loop goes on there. If the body leaves the vector alone the loop shows exactly its elements. Appending every element to the same vector in such a loop doubles it if there is room for all but the last new element, and reads memory that was given back otherwise.", "quantifier": "all element types, all histories before the loop, all loop bodies (functions from what has been shown to lists of calls on any vectors), all sizes", "why_tests_cant": "Whether such a loop works depends on the spare capacity left by the whole history; when it fails it mostly still prints the expected values.", "anchors": ["src/clean-core/detail/vector_base.hh: begin, end, emplace_back, reserve, remove_at, clear", "src/clean-core/vector.hh: operator="]}
{"id": "C135", "title": "References to elements of a chunked_buffer stay valid", "statement": "Every reference that push_back or emplace_back of a chunked_buffer has returned leads to its element, with the value last assigned to it, until the buffer is destroyed, whatever is called in between. No two references lead to the same element. An element may be pushed into the buffer it is in. The destructor gives all memory back, nothing twice.", "quantifier": "all element types, all histories of push_back, push_back of an own element, assignment through any earlier reference and set_chunk_size, all chunk sizes", "why_tests_cant": "Whether a reference survives shows only if the memory behind it is used again, and the history that matters is any number of calls long.", "anchors": ["src/clean-core/experimental/chunked_buffer.hh: emplace_back, push_back, set_chunk_size, ~chunked_buffer"]}
{"id": "C136", "title": "Loops over the chunks of a chunked_buffer show all elements, also if the body adds some", "statement": "A loop over chunks(), or for_each_chunk, shows each element that was in the buffer when the loop began exactly once and in order, also if the body adds elements to the buffer.", "quantifier": "all element types, all histories before the loop, all bodies (functions from the chunks shown so far to lists of calls)", "why_tests_cant": "It depends on where the chunks end and on the spare capacity of an internal array; when it fails it mostly still shows the expected values, or silently leaves some out.", "anchors": ["src/clean-core/experimental/chunked_buffer.hh: for_each_chunk, chunk_iterator, chunks", "src/clean-core/detail/vector_base.hh: emplace_back", "src/clean-core/detail/srange.hh: srange"]}
{"id": "C137", "title": "References to elements of a forward_list stay valid until the element is removed", "statement": "A reference or iterator to an element of a forward_list leads to that element, with its value, whatever is called on any lists, until the element itself is removed by pop_front or erase_after or its list is cleared, destroyed or assigned to. Adding other elements, removing others and moving the whole list to another variable do not matter: an iterator then belongs to the other list. Using it after the element has been removed is undefined behaviour.", "quantifier": "all element types, all numbers of lists, all histories before and after the reference is taken without assignment of a list to itself", "why_tests_cant": "Reading a removed element mostly still gives the old value; the histories that matter are any number of calls long.", "anchors": ["src/clean-core/forward_list.hh: begin, iterator, front, emplace_front, pop_front, erase_after, clear, operator="]}
{"id": "C138", "title": "The body of a loop over a forward_list may change lists, within limits that can be told", "statement": "A range-based for loop over a forward_list goes from each element to the one that is behind it when the body has run, in whichever list that is by then. It ends after at most as many rounds as there were elements, whatever the body does, also if it pushes to the same list in each round. It is undefined behaviour exactly if the body removes the current element. If the body leaves the list alone the loop shows exactly its elements.", "quantifier": "all element types, all histories before the loop, all loop bodies (functions from what has been shown to lists of calls on any lists, without assignment of a list to itself), all sizes", "why_tests_cant": "The bodies are arbitrary programs; a loop that goes on from a removed element mostly still works.", "anchors": ["src/clean-core/forward_list.hh: begin, end, iterator, pop_front, erase_after, emplace_front, clear"]}
{"id": "C139", "title": "References to elements of a ringbuffer stay valid within its capacity", "statement": "A reference to an element of a ringbuffer (from front, back, operator[] or returned by a pushing call) stays valid, and keeps referring to the same element, whatever is pushed and popped at either end, until the element itself is removed, the ringbuffer is assigned to, or an element is pushed when size() equals capacity(). Moving a ringbuffer takes the elements and their references along. Writing through the reference is writing the element. A pushing call returns a reference to the new element. After a push beyond the capacity all earlier references to elements of this ringbuffer are dangling for good.", "quantifier": "all histories of calls on any number of ringbuffers (at most 2^60), all moments at which the reference is taken, both ends, wrapped around or not, growing or not, elements with or without destructor", "why_tests_cant": "whether an element keeps its place depends on where the ring begins, how it wraps around and when it grew; the combinations of pushes and pops at both ends are unbounded, and a read through a dangling reference often happens to give the old value", "anchors": ["src/clean-core/experimental/ringbuffer.hh: cc::ringbuffer::emplace_back, emplace_front, emplace_back_stable, emplace_front_stable, pop_back, pop_front, operator[], front, back"]}
{"id": "C140", "title": "sorting with a comparison that is not an order stays inside the range", "statement": "sort, sort_by, sort_descending, quickselect, quickselect_range, sort_multi and sort_multi_by end, access only elements of their range and leave a permutation of it (for the multi forms the same permutation of all arrays) whenever the comparison never says both a before b and b before a, even if it is not transitive, for example operator< on floating-point numbers with NaN among them. For up to 16 elements every comparison is safe. For more than 16 elements a comparison that holds of an element and itself, such as <=, makes sort read past the end when all elements are that element. With NaN the numbers are not always sorted.", "quantifier": "every range, every key function, every asymmetric comparison, every index and window; every comparison for ranges of up to 16 elements; every reflexive comparison and every length above 16 for the limit", "why_tests_cant": "the partition loops have no bounds checks and rely on a sentinel that the pivot selection leaves behind; whether an odd comparison ever runs past it depends on all arrangements of the elements", "anchors": ["src/clean-core/sort.hh: sort, sort_by, sort_multi, sort_multi_by, quickselect, quickselect_range, detail::sort3, detail::partition_right"]}
{"id": "C141", "title": "sorting and unordered removal do not harm an element by swapping it with itself", "statement": "sort, quickselect, partition and remove_at_unordered give the same result whatever cc::swap does to an object and itself. This holds for partition, for sort of up to 16 elements, for remove_at_unordered of any element but the last, and for element types that survive swap(a, a), such as cc::optional. It fails otherwise: sort of more than 16 equal elements and remove_at_unordered of the last element call swap(a, a), and for cc::variant and cc::result that constructs from a destroyed object.", "quantifier": "every range, key, comparison and index, and every behaviour of swap(a, a); every variant type list and value, every result and optional", "why_tests_cant": "whether an element meets itself depends on where the pivot ends up for a particular arrangement, and the damage is undefined behaviour that often goes unnoticed", "anchors": ["src/clean-core/sort.hh: detail::partition_right, detail::small_sort, partition_ex", "src/clean-core/utility.hh: swap", "src/clean-core/detail/vector_base.hh: remove_at_unordered", "src/clean-core/variant.hh: operator=(variant&&)", "src/clean-core/result.hh: operator=(result&&)"]}
{"id": "C142", "title": "references to elements of an alloc_vector stay valid exactly while capacity() stays, whatever the allocators", "statement": "A reference, pointer or iterator to an element of an alloc_vector refers to the element at its index for as long as no call changes capacity() of the vector and the vector is not assigned or reset as a whole. Moving a vector hands its references over together with the allocator; moving it to a temporary and back keeps them. reset_reserve always ends them, also with the same allocator and capacity. Calls on vectors with the same or other allocators never affect the references of another vector. capacity() after every call is a function of sizes and requests alone, independent of the allocators. After the memory has been given back every use is undefined, and no reference becomes valid again.", "quantifier": "all element types, all histories of calls on any number of vectors with any allocators (which keep the promises of cc::allocator), before and after the reference is taken, all indices", "why_tests_cant": "Whether memory is exchanged depends on the whole history of sizes, reservations and moves between allocators; a dangling reference mostly reads the old value.", "anchors": ["src/clean-core/alloc_vector.hh: constructors, operator=, reset_reserve", "src/clean-core/detail/vector_base.hh: emplace_back, reserve, resize, shrink_to_fit, push_back_range, insert_range_at, remove_at"]}
{"id": "C143", "title": "all forms of == and != on strings compare the texts", "statement": "Between a string_view, a string of any inline capacity, a zero-terminated char pointer and a string literal, in either order, == tells whether the two texts are the same sequence of characters and != is its negation; the relation is symmetric and transitive across the forms. The text of a pointer or literal are the characters before its first zero, so a literal with a zero inside equals the part before the zero and not the view of all its characters. A view equals a char, in either order, exactly if it shows that one character; an empty view, even with a null pointer, is not read. A char array without a zero must not be compared, whatever the other side is.", "quantifier": "all views inside their arrays, all strings of whatever history, all arrays and positions, all characters", "why_tests_cant": "There are twelve operators with separate loops; they differ for texts of the same length, with zeros inside, or for buffers with old characters behind the text, which samples miss.", "anchors": ["src/clean-core/string_view.hh: operator==, operator!=, string_view(char const*)", "src/clean-core/sbo_string.hh: operator==, operator!=, operator string_view"]}
{"id": "C144", "title": "views of a string stay valid exactly while the string has the room it needs", "statement": "A view, pointer or iterator into a string shows the characters at its positions for as long as the calls on that string need no more room than its capacity(): appending, inserting, padding, resizing, filling, replacing, removing and trimming then work in the same memory, and capacity() stays. A call that needs more room changes capacity() and ends every view. Calls on other strings, also copies of this string, never affect it. clear() gives the memory back, shrink_to_fit keeps it exactly if there is nothing to give back. Assigning another string by copy always exchanges the memory of a long string, also if capacity() is the same afterwards. Moving a long string hands its memory over with all views, moving a short string leaves the views in the source.", "quantifier": "all inline capacities, all histories of calls on any number of strings before and after the view is taken, all positions", "why_tests_cant": "Whether memory is exchanged depends on sizes and capacities from the whole history; a dangling view mostly shows the old text.", "anchors": ["src/clean-core/sbo_string.hh: sbo_string, _reserve_force, _grow, reserve, operator=, clear, shrink_to_fit, replace, operator+="]}
{"id": "C145", "title": "The body of a loop over a string may change it within its capacity", "statement": "A range-based for loop over a string whose body changes characters, appends, inserts, removes or replaces, needing no more room than capacity(), and does anything to other strings, visits as many positions as the string had characters at the beginning, in order, and sees at each the character that is there at that time; characters appended in the body are not visited. The text must not become shorter than the position to be visited. If the body makes the string use other memory (more room than capacity(), clear, assignment) or destroys it, the next iteration is undefined.", "quantifier": "all inline capacities, all histories before the loop, all bodies that depend on position and character, all numbers of iterations", "why_tests_cant": "Whether an iteration reads freed memory depends on sizes and capacities from the whole history; such a read mostly gives the old character.", "anchors": ["src/clean-core/sbo_string.hh: begin, end, operator+=, push_back, replace, insert, clear, operator="]}
{"id": "C146", "title": "The body of a loop over an alloc_vector may change vectors of any allocators, within limits that can be told", "statement": "A range-based for loop over an alloc_vector makes as many rounds as there were elements when it started, and round k shows the element that is at index k at that time, whatever the body calls on vectors with the same or other allocators. It is undefined behaviour exactly if a round comes to an index behind the last element, or comes after capacity() of the vector has changed or the vector was assigned or reset, also when it was reset with the same allocator and capacity. If the vector is moved to another variable the loop goes on there. If the body leaves the vector alone the loop shows exactly its elements. Appending every element to the same vector in such a loop doubles it and keeps the allocator if there is room for all but the last new element, and reads memory that was given back otherwise.", "quantifier": "all element types, all histories before the loop, all loop bodies (functions from what has been shown to lists of calls on any vectors with any allocators), all sizes", "why_tests_cant": "Whether such a loop works depends on the spare capacity left by the whole history and on which allocator every vector has got by moves; memory that was given back to an arena mostly still reads as expected.", "anchors": ["src/clean-core/alloc_vector.hh: alloc_vector, operator=, reset_reserve", "src/clean-core/detail/vector_base.hh: begin, end, emplace_back, reserve, remove_at, clear"]}
{"id": "C147", "title": "The body of a loop over a capped_vector may change it, and appending in a loop never dangles", "statement": "A range-based for loop over a capped_vector makes as many rounds as there were elements when it started, and round k shows the element that is at index k at that time, whatever the body calls, also on the same vector: the storage never moves, so appending, inserting by assignment and removing are all fine as long as the index of every later round exists then. A call out of contract in the body ends the program. If no whole vectors are moved, all other loops are undefined behaviour: a round comes to an index behind the last element, or the vector object was destroyed. Appending every element to the same vector in such a loop doubles it if there is room and otherwise fails the contract of push_back; unlike for vector it is never undefined.", "quantifier": "all capacities, all element types, all histories before the loop, all loop bodies (functions from what has been shown to lists of calls on any vectors)", "why_tests_cant": "The outcome depends on the history and on what the body does in every round; reading behind the last element of inline storage mostly shows the old value.", "anchors": ["src/clean-core/capped_vector.hh: begin, end, push_back, remove_at, clear, resize, operator="]}
