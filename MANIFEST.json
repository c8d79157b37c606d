{
 "claims": [
  {
   "property": "C01",
   "status": "proved",
   "theorems": [
    "Verif.Map.C01_map_refines_finite_map",
    "Verif.Map.C01_map_no_fault"
   ],
   "note": "Every history on the modelled map has the abstract map's observations; faults exactly when get() is called for a missing key."
  },
  {
   "property": "C02",
   "status": "proved",
   "theorems": [
    "Verif.Map.C02_map_iteration"
   ],
   "note": ""
  },
  {
   "property": "C03",
   "status": "proved",
   "theorems": [
    "Verif.Map.C03_map_pointer_stability",
    "Verif.Map.C03_map_reference_is_pointer"
   ],
   "note": ""
  },
  {
   "property": "C04",
   "status": "proved",
   "theorems": [
    "Verif.Map.C04_map_reserve"
   ],
   "note": "For n > 0 (reserve(0) on an empty map leaves no table, so the first insertion has to build one)."
  },
  {
   "property": "C05",
   "status": "proved",
   "theorems": [
    "Verif.Map.C05_map_equality"
   ],
   "note": ""
  },
  {
   "property": "C06",
   "status": "proved",
   "theorems": [
    "Verif.Set.C06_set_refines_finite_set",
    "Verif.Set.C06_set_iteration",
    "Verif.Set.C06_set_equality",
    "Verif.Set.C06_set_union"
   ],
   "note": ""
  },
  {
   "property": "C07",
   "status": "partial",
   "theorems": [
    "Verif.Set.C07_set_reserve_partial",
    "Verif.Set.C07_set_reserve_zero_asserts"
   ],
   "note": "False of the code for reserve(0) on a non-empty set (second theorem); proved for every n > 0."
  },
  {
   "property": "C08",
   "status": "proved",
   "theorems": [
    "Verif.Sort.C08_sort_by",
    "Verif.Sort.C08_sort_descending"
   ],
   "note": ""
  },
  {
   "property": "C09",
   "status": "proved",
   "theorems": [
    "Verif.Sort.C09_quickselect",
    "Verif.Sort.C09_quickselect_agrees_with_sort",
    "Verif.Sort.C09_quickselect_any_index"
   ],
   "note": "For ranges of fewer than 2^63 elements (every real array)."
  },
  {
   "property": "C10",
   "status": "partial",
   "theorems": [
    "Verif.Sort.C10_quickselect_range_partial",
    "Verif.Sort.C10_quickselect_range_agrees_with_sort_partial",
    "Verif.Sort.C10_quickselect_range_huge_count",
    "Verif.Sort.C10_quickselect_range_overflow"
   ],
   "note": "False of the code for idx + count >= 2^63 (last two theorems); proved for all smaller idx, count."
  },
  {
   "property": "C100",
   "status": "partial",
   "theorems": [
    "Verif.Flt.C100_text_partial",
    "Verif.Flt.C100_fits",
    "Verif.Flt.C100_long_text_undefined",
    "Verif.Flt.C100_align_ignored",
    "Verif.Flt.C100_long_double_undefined",
    "Verif.Flt.C100_type_rejected"
   ],
   "note": "Violated for texts of more than 30 characters, for other alignments and fill characters than the default, and for long double."
  },
  {
   "property": "C101",
   "status": "partial",
   "theorems": [
    "Verif.Flt.C101_c_str",
    "Verif.Flt.C101_unique",
    "Verif.Flt.C101_overflow",
    "Verif.Flt.C101_view_partial",
    "Verif.Flt.C101_long_view_cut",
    "Verif.Flt.C101_view_with_zero_accepted"
   ],
   "note": "Proved for zero-terminated texts; violated for views with 256 or more characters or with a zero."
  },
  {
   "property": "C102",
   "status": "partial",
   "theorems": [
    "Verif.Flt.C102_six_digits_partial",
    "Verif.Flt.C102_accepted_partial",
    "Verif.Flt.C102_second_time",
    "Verif.Flt.C102_special",
    "Verif.Flt.C102_not_exact"
   ],
   "note": "Violated for numbers that need more than six digits."
  },
  {
   "property": "C103",
   "status": "proved",
   "theorems": [
    "Verif.Atom.C103_chain",
    "Verif.Atom.C103_program",
    "Verif.Atom.C103_add_sum",
    "Verif.Atom.C103_tickets",
    "Verif.Atom.C103_tickets_distinct",
    "Verif.Atom.C103_swap",
    "Verif.Atom.C103_or",
    "Verif.Atom.C103_or_once",
    "Verif.Atom.C103_cas_claim",
    "Verif.Atom.C103_cas_count"
   ],
   "note": ""
  },
  {
   "property": "C104",
   "status": "partial",
   "theorems": [
    "Verif.Sort.C104_counts",
    "Verif.Sort.C104_sort_partial",
    "Verif.Sort.C104_quickselect_partial",
    "Verif.Sort.C104_partition",
    "Verif.Sort.C104_is_sorted",
    "Verif.Sort.C104_sort_quadratic",
    "Verif.Sort.C104_sort_not_nlogn",
    "Verif.Sort.C104_quickselect_quadratic",
    "Verif.Sort.C104_quickselect_not_linear",
    "Verif.Sort.C104_sort_depth"
   ],
   "note": "Violated by sort and quickselect: equal elements cost about n*n/2 comparisons and a recursion of depth n-15. Proved: n*n+13n as the bound that does hold, and the linear bounds of partition_by and is_sorted."
  },
  {
   "property": "C105",
   "status": "partial",
   "theorems": [
    "Verif.Vector.C105_vector",
    "Verif.Str.C105_string_partial",
    "Verif.Str.C105_string_resize_quadratic",
    "Verif.Str.C105_string_resize_not_amortised",
    "Verif.SStream.C105_stream",
    "Verif.SStream.C105_stream_char",
    "Verif.Map.C105_map",
    "Verif.Set.C105_set_partial",
    "Verif.Set.C105_set_reserve_quadratic"
   ],
   "note": "Violated by string::resize (reserves exactly) and set::reserve (always rebuilds): growing one at a time through them is quadratic. Proved for all histories of vector and map, for everything appended to string and string_stream, and for set without reserve."
  },
  {
   "property": "C106",
   "status": "partial",
   "theorems": [
    "Verif.Print.C106_cut",
    "Verif.Print.C106_text_partial",
    "Verif.Print.C106_schedule_partial",
    "Verif.Print.C106_flushed_partial",
    "Verif.Print.C106_rejected",
    "Verif.Print.C106_zero_cuts",
    "Verif.Print.C106_stale_tail",
    "Verif.Print.C106_formatter_ignored",
    "Verif.Print.C106_format_to_ignores_formatter",
    "Verif.Print.C106_no_arguments_no_escapes"
   ],
   "note": "Violated: all overloads go through C strings, so a text is cut at its first zero; a string after remove_suffix is printed with its removed end; the Formatter given to print, println and format_to(string&) is ignored. Proved for all other texts, all threads and schedules."
  },
  {
   "property": "C107",
   "status": "partial",
   "theorems": [
    "Verif.Defer.C107_order_partial",
    "Verif.Defer.C107_once_partial",
    "Verif.Defer.C107_not_terminated",
    "Verif.Defer.C107_copy_runs_twice",
    "Verif.Defer.C107_throw_terminates"
   ],
   "note": "Violated: a deferred object can be copied and moved (auto y = x), and its function then runs for each copy; an exception out of a deferred function terminates the program. Proved for all programs without such copies; up to the termination if a deferred function throws."
  },
  {
   "property": "C108",
   "status": "proved",
   "theorems": [
    "Verif.Tuple.C108_components",
    "Verif.Tuple.C108_equal",
    "Verif.Tuple.C108_not_equal",
    "Verif.Tuple.C108_consistent",
    "Verif.Tuple.C108_equivalence",
    "Verif.Tuple.C108_pair",
    "Verif.Tuple.C108_pair_equal",
    "Verif.Tuple.C108_apply",
    "Verif.Tuple.C108_projection"
   ],
   "note": "Value categories are not modelled: apply hands on all components as lvalues."
  },
  {
   "property": "C109",
   "status": "partial",
   "theorems": [
    "Verif.Disp.C109_formats_partial",
    "Verif.Disp.C109_own_function",
    "Verif.Disp.C109_accepted",
    "Verif.Disp.C109_stream_only_rejected",
    "Verif.Disp.C109_stream_hides_others",
    "Verif.Disp.C109_string_with_spec_rejected",
    "Verif.Disp.C109_spec_not_passed",
    "Verif.Disp.C109_spec_not_passed_witness"
   ],
   "note": "Violated: has_to_string_args tests for the wrong function. A type with only to_string(stream, value) or only to_string(value, spec) is rejected, and with to_string(value, spec) and to_string(value) the specification is not handed on. Proved for all other types."
  },
  {
   "property": "C11",
   "status": "proved",
   "theorems": [
    "Verif.Sort.C11_partition"
   ],
   "note": ""
  },
  {
   "property": "C110",
   "status": "partial",
   "theorems": [
    "Verif.Flags.C110_text_partial",
    "Verif.Flags.C110_wide_undefined",
    "Verif.Flags.C110_not_counted"
   ],
   "note": "Violated: with more than 32 bits the text of any flags is undefined behaviour (int shifted by 32); values from Bits on are not listed. Proved for up to 32 bits and values below Bits."
  },
  {
   "property": "C111",
   "status": "partial",
   "theorems": [
    "Verif.Tlsf.C111_fls",
    "Verif.Tlsf.C111_fls_size",
    "Verif.Tlsf.C111_ffs_partial",
    "Verif.Tlsf.C111_snc_empty"
   ],
   "note": "Violated only by the SNC variant of tlsf_ffs for an empty word (undefined). Everything else is proved."
  },
  {
   "property": "C112",
   "status": "partial",
   "theorems": [
    "Verif.Cursor.C112_guarantee_partial",
    "Verif.Cursor.C112_loop_guarantee",
    "Verif.Cursor.C112_loop_visits",
    "Verif.Cursor.C112_range_cursor",
    "Verif.Cursor.C112_not_guaranteed",
    "Verif.Cursor.C112_needs_bool",
    "Verif.Cursor.C112_false_element"
   ],
   "note": "Violated: the operators of cursor do not check, so ++ and * at the end call the functions of the class on an invalid object; to_cursor needs iterators that convert to bool and fails for elements whose iterator is false. Proved for loops, for programs that keep within the elements, and for cursors over ranges (contract fails at the end)."
  },
  {
   "property": "C113",
   "status": "partial",
   "theorems": [
    "Verif.Reint.C113_reinterpret_partial",
    "Verif.Reint.C113_as_bytes",
    "Verif.Reint.C113_write_bytes",
    "Verif.Reint.C113_round_trip",
    "Verif.Reint.C113_as_byte_span",
    "Verif.Reint.C113_as_byte_span_part",
    "Verif.Reint.C113_from_bytes_partial",
    "Verif.Reint.C113_vector",
    "Verif.Reint.C113_vector_accepted",
    "Verif.Reint.C113_bit_cast",
    "Verif.Reint.C113_misaligned",
    "Verif.Reint.C113_from_bytes_misaligned"
   ],
   "note": "Violated: span::reinterpret_as and from_byte_span accept addresses that do not suit the type, access is then undefined. Everything else is proved."
  },
  {
   "property": "C114",
   "status": "partial",
   "theorems": [
    "Verif.Coll.C114_indexed_partial",
    "Verif.Coll.C114_contiguous_partial",
    "Verif.Coll.C114_range_partial",
    "Verif.Coll.C114_range_exact",
    "Verif.Coll.C114_size",
    "Verif.Coll.C114_add",
    "Verif.Coll.C114_no_add",
    "Verif.Coll.C114_indices_of",
    "Verif.Coll.C114_const_array",
    "Verif.Coll.C114_map_is_indexed"
   ],
   "note": "Violated: const arrays of fixed size are called ranges but cannot be used as such, maps with integer keys are called indexed ranges. Proved for all other types."
  },
  {
   "property": "C115",
   "status": "partial",
   "theorems": [
    "Verif.Mixed.C115_equal_partial",
    "Verif.Mixed.C115_not_equal",
    "Verif.Mixed.C115_symmetric",
    "Verif.Mixed.C115_variants_rejected",
    "Verif.Mixed.C115_optional_variant_rejected",
    "Verif.Mixed.C115_optional_alternative_rejected"
   ],
   "note": "Violated: two variants, or a variant and an optional, cannot be compared (ambiguous), and a variant with an optional among its alternatives is not comparable with other alternatives. Proved for every comparison that compiles."
  },
  {
   "property": "C116",
   "status": "partial",
   "theorems": [
    "Verif.Macro.C116_assert",
    "Verif.Macro.C116_runtime_assert",
    "Verif.Macro.C116_contract",
    "Verif.Macro.C116_null",
    "Verif.Macro.C116_in_bounds",
    "Verif.Macro.C116_checked",
    "Verif.Macro.C116_assume_partial",
    "Verif.Macro.C116_assume_gcc",
    "Verif.Macro.C116_assume_fails",
    "Verif.Macro.C116_likely",
    "Verif.Macro.C116_likely_operand_partial",
    "Verif.Macro.C116_likely_fails",
    "Verif.Macro.C116_one_argument",
    "Verif.Macro.C116_comma_in_conditional",
    "Verif.Macro.C116_deterministic"
   ],
   "note": "Violated: CC_ASSUME with gcc and CC_LIKELY with msvc lack parentheses around their argument. Everything else is proved for every expression."
  },
  {
   "property": "C117",
   "status": "partial",
   "theorems": [
    "Verif.NMem.C117_commit",
    "Verif.NMem.C117_decommit",
    "Verif.NMem.C117_prefault",
    "Verif.NMem.C117_history_partial",
    "Verif.NMem.C117_free",
    "Verif.NMem.C117_decommit_neighbour",
    "Verif.NMem.C117_decommit_keeps_memory",
    "Verif.NMem.C117_large_pages",
    "Verif.NMem.C117_large_pages_commit"
   ],
   "note": "Violated: decommitting a range that is not aligned takes away its neighbours' pages; decommitting gives no physical memory back; with pages larger than 4096 bytes nothing can be reserved. Histories in which decommitted ranges are aligned are proved in full."
  },
  {
   "property": "C118",
   "status": "partial",
   "theorems": [
    "Verif.CConv.C118_convert_partial",
    "Verif.CConv.C118_out_of_bounds",
    "Verif.CConv.C118_cut_off",
    "Verif.CConv.C118_not_destroyed",
    "Verif.CConv.C118_source",
    "Verif.CConv.C118_again"
   ],
   "note": "Violated: the sizes of the boxes are not compared. Proved when they fit; all cases in which the conversion leaves the storage are characterised."
  },
  {
   "property": "C119",
   "status": "proved",
   "theorems": [
    "Verif.Xxh128.C119_xxh128",
    "Verif.Xxh128.C119_plain",
    "Verif.Xxh128.C119_secret",
    "Verif.Xxh128.C119_short_secret",
    "Verif.Xxh128.C119_no_collision",
    "Verif.Xxh128.C119_tiny",
    "Verif.Xxh128.C119_seeds",
    "Verif.Xxh128.C119_low_half"
   ],
   "note": "Secrets shorter than 136 bytes are out of contract (C119_short_secret shows the read outside)."
  },
  {
   "property": "C12",
   "status": "proved",
   "theorems": [
    "Verif.Sort.C12_is_sorted",
    "Verif.Sort.C12_is_strictly_sorted"
   ],
   "note": ""
  },
  {
   "property": "C120",
   "status": "partial",
   "theorems": [
    "Verif.Xxh128.C120_stream_partial",
    "Verif.Xxh128.C120_pieces",
    "Verif.Xxh128.C120_stale_buffer",
    "Verif.Xxh128.C120_copy_dangles",
    "Verif.Xxh128.C120_full_fails"
   ],
   "note": "Violated as C87: old bytes of the buffer are used after an update that bypasses it, and a copy of a state with a seed points into the original. All other histories are proved."
  },
  {
   "property": "C121",
   "status": "proved",
   "theorems": [
    "Verif.Xxh128.C121_equal",
    "Verif.Xxh128.C121_cmp",
    "Verif.Xxh128.C121_order",
    "Verif.Xxh128.C121_canonical",
    "Verif.Xxh128.C121_round_trip",
    "Verif.Xxh128.C121_canonical_order"
   ],
   "note": ""
  },
  {
   "property": "C122",
   "status": "partial",
   "theorems": [
    "Verif.Text.C122_forms_partial",
    "Verif.Text.C122_least",
    "Verif.Text.C122_long_double",
    "Verif.Text.C122_full_fails",
    "Verif.Text.C122_formatted",
    "Verif.Text.C122_pointer",
    "Verif.Text.C122_pointer_unique",
    "Verif.Text.C122_null",
    "Verif.Text.C122_rejected",
    "Verif.Text.C122_ignored"
   ],
   "note": "Violated for the least int, long and long long, and for long double, where the stream form is undefined and the string form is not. Wide strings ignore specifications instead of rejecting them. All other values are proved. to_string(void const*, string_view) is declared but not defined."
  },
  {
   "property": "C123",
   "status": "partial",
   "theorems": [
    "Verif.Room.C123_exact_partial",
    "Verif.Room.C123_fits",
    "Verif.Room.C123_refused",
    "Verif.Room.C123_no_memory",
    "Verif.Room.C123_full_fails",
    "Verif.Room.C123_limit",
    "Verif.Room.C123_push",
    "Verif.Room.C123_push_refused",
    "Verif.Room.C123_string"
   ],
   "note": "Violated: n * sizeof(T) is not checked for overflow (array<uint64_t>(1 << 61) asks for 0 bytes), and vector does not look whether it got memory. The exact condition is proved for each container; fwd_array is always right."
  },
  {
   "property": "C124",
   "status": "proved",
   "theorems": [
    "Verif.Str.C124_forms",
    "Verif.Str.C124_text_unique",
    "Verif.Str.C124_parts",
    "Verif.Str.C124_two_strings",
    "Verif.Str.C124_queries"
   ],
   "note": ""
  },
  {
   "property": "C125",
   "status": "partial",
   "theorems": [
    "Verif.Watch.Unix.C125_stops_partial",
    "Verif.Watch.Unix.C125_undeleted",
    "Verif.Watch.Unix.C125_stuck_for_ever",
    "Verif.Watch.Unix.C125_deleted_hangs",
    "Verif.Watch.Unix.C125_closed_descriptor",
    "Verif.Watch.Unix.C125_given_back",
    "Verif.Watch.Win.C125_windows_stops",
    "Verif.Watch.Win.C125_windows_leak"
   ],
   "note": "Violated on unix: if the directory was deleted the destructor waits for ever, and inotify_rm_watch may be called with a descriptor the thread has closed. Violated on Windows: two event handles are never closed. Proved: it returns in all other runs on unix, and always on Windows."
  },
  {
   "property": "C126",
   "status": "partial",
   "theorems": [
    "Verif.Mpmc.Size.C126_exact_partial",
    "Verif.Mpmc.Size.C126_error",
    "Verif.Mpmc.Size.C126_same_queue",
    "Verif.Mpmc.Size.C126_initialized_again",
    "Verif.Mpmc.Size.C126_fits",
    "Verif.Mpmc.Size.C126_negative",
    "Verif.Mpmc.Size.C126_above_capacity",
    "Verif.Mpmc.Size.C126_wrong_after_initialize"
   ],
   "note": "Violated: initialize does not reset the counter, so a queue that is initialized again reports the old count in addition for ever. Proved for queues initialized once, and for the others it is proved what they report."
  },
  {
   "property": "C127",
   "status": "proved",
   "theorems": [
    "Verif.SeqEq.C127_equal",
    "Verif.SeqEq.C127_not_equal",
    "Verif.SeqEq.C127_equals_content",
    "Verif.SeqEq.C127_contains",
    "Verif.SeqEq.C127_opposite",
    "Verif.SeqEq.C127_equivalence",
    "Verif.SeqEq.C127_content_agrees"
   ],
   "note": ""
  },
  {
   "property": "C128",
   "status": "partial",
   "theorems": [
    "Verif.Own.Key.C128_equal",
    "Verif.Own.Key.C128_unique_equal",
    "Verif.Own.Key.C128_raw",
    "Verif.Own.Key.C128_order",
    "Verif.Own.Key.C128_hash",
    "Verif.Own.Key.C128_lasting",
    "Verif.Own.Key.C128_moved",
    "Verif.Own.Key.C128_new",
    "Verif.Own.Key.C128_box_partial",
    "Verif.Own.Key.C128_box_value",
    "Verif.Own.Key.C128_type_id"
   ],
   "note": "All of it except the comparison of a moved-from box with a plain value, which is undefined instead of caught; histories are those of C55 and C56"
  },
  {
   "property": "C129",
   "status": "partial",
   "theorems": [
    "Verif.Set.C129_references",
    "Verif.Set.C129_copy",
    "Verif.Set.C129_stable_partial",
    "Verif.Set.C129_stable_room_partial",
    "Verif.Set.C129_growth_dangles"
   ],
   "note": "False of the code: when the set grows or reserve is called all references dangle (C129_growth_dangles, for all sets). Proved: stability as long as elements are added only while there are fewer elements than buckets"
  },
  {
   "property": "C13",
   "status": "proved",
   "theorems": [
    "Verif.Sort.C13_sort_multi",
    "Verif.Sort.C13_sort_multi_rejects",
    "Verif.Sort.C13_sort_multi_by",
    "Verif.Sort.C13_sort_multi_by_rejects"
   ],
   "note": ""
  },
  {
   "property": "C130",
   "status": "proved",
   "theorems": [
    "Verif.Map.C130_bucket",
    "Verif.Map.C130_bucket_size",
    "Verif.Map.C130_bucket_sum",
    "Verif.Map.C130_key_in_bucket",
    "Verif.Map.C130_badness",
    "Verif.Map.C130_range",
    "Verif.Map.C130_perfect",
    "Verif.Map.C130_worst",
    "Verif.Map.C130_history_free",
    "Verif.Map.C130_reserve_splits",
    "Verif.Map.C130_reserve_shares_less"
   ],
   "note": "double arithmetic is exact in the model"
  },
  {
   "property": "C131",
   "status": "partial",
   "theorems": [
    "Verif.Life.Virtual.C131_virtual_partial",
    "Verif.Life.Virtual.C131_virtual_all_returned_partial",
    "Verif.Life.Virtual.C131_virtual_empty",
    "Verif.Life.Virtual.C131_virtual_leak",
    "Verif.Life.Virtual.C131_virtual_size_after_destroy",
    "Verif.Life.Tlsf.C131_tlsf_exclusive",
    "Verif.Life.Tlsf.C131_tlsf_uses_own",
    "Verif.Life.Tlsf.C131_tlsf_initialize",
    "Verif.Life.Tlsf.C131_tlsf_empty",
    "Verif.Life.Tlsf.C131_tlsf_uninitialised",
    "Verif.Life.Tlsf.C131_tlsf_uninitialised_alloc",
    "Verif.Life.Tlsf.C131_tlsf_equal_moves"
   ],
   "note": "False of the code in four points: a second initialize of a virtual allocator leaks the first range for ever (C131_virtual_leak), its sizes are wrong after destroy, tlsf alloc without a heap is undefined instead of refused, and operator== of tlsf allocators moves. Everything else proved for all histories"
  },
  {
   "property": "C132",
   "status": "partial",
   "theorems": [
    "Verif.Walk.C132_map_begin",
    "Verif.Walk.C132_map_partial",
    "Verif.Walk.C132_map_current",
    "Verif.Walk.C132_map_removed",
    "Verif.Walk.C132_map_room",
    "Verif.Walk.C132_map_prune",
    "Verif.Walk.C132_map_lookup_breaks",
    "Verif.Walk.C132_map_lookup_stops",
    "Verif.Walk.C132_map_grow_repeats",
    "Verif.Walk.C132_set_begin",
    "Verif.Walk.C132_set_partial",
    "Verif.Walk.C132_set_current",
    "Verif.Walk.C132_set_removed",
    "Verif.Walk.C132_set_self_partial",
    "Verif.Walk.C132_set_self_breaks"
   ],
   "note": "Partial because the code violates it: operator[] and add make room before they look for the key, so that a loop which only uses m[k] with existing keys, or s |= s, fails (or silently skips or repeats entries) when the container is full. Everything else is proved: all bodies that keep the array."
  },
  {
   "property": "C133",
   "status": "proved",
   "theorems": [
    "Verif.Vector.C133_capacity",
    "Verif.Vector.C133_references",
    "Verif.Vector.C133_same_capacity"
   ],
   "note": "For trivially copyable element types a reference behind the last element is not claimed to be detected (such memory may be read in the model)."
  },
  {
   "property": "C134",
   "status": "proved",
   "theorems": [
    "Verif.Vector.C134_loop",
    "Verif.Vector.C134_loop_trivial",
    "Verif.Vector.C134_body_elsewhere",
    "Verif.Vector.C134_self_append"
   ],
   "note": "Undefined behaviour is claimed exactly for element types that are not trivially copyable; for the others only that the loop is right whenever the specification allows it."
  },
  {
   "property": "C135",
   "status": "proved",
   "theorems": [
    "Verif.Chunk.Ref.C135_references",
    "Verif.Chunk.Ref.C135_same_references",
    "Verif.Chunk.Ref.C135_destroy"
   ],
   "note": "Memory for a new chunk is always available. Destructors of the elements are the subject of C67."
  },
  {
   "property": "C136",
   "status": "partial",
   "theorems": [
    "Verif.Chunk.Ref.C136_chunks",
    "Verif.Chunk.Ref.C136_for_each_chunk",
    "Verif.Chunk.Ref.C136_chunks_shows",
    "Verif.Chunk.Ref.C136_one_chunk",
    "Verif.Chunk.Ref.C136_for_each_chunk_partial",
    "Verif.Chunk.Ref.C136_chunks_fails",
    "Verif.Chunk.Ref.C136_for_each_chunk_misses"
   ],
   "note": "Violated by the code: adding elements in the body can make both loops read memory that has been given back, and makes for_each_chunk leave elements out. Proved: exactly what both loops do for all bodies; a loop over chunks() that does not fail shows exactly the elements that were there."
  },
  {
   "property": "C137",
   "status": "proved",
   "theorems": [
    "Verif.FList.C137_references"
   ],
   "note": "Histories without assignment of a list to itself (that one removes all elements, see C62)."
  },
  {
   "property": "C138",
   "status": "proved",
   "theorems": [
    "Verif.FList.C138_loop",
    "Verif.FList.C138_ends",
    "Verif.FList.C138_elsewhere",
    "Verif.FList.C138_examples"
   ],
   "note": "Bodies without assignment of a list to itself (that one removes all elements, see C62)."
  },
  {
   "property": "C139",
   "status": "proved",
   "theorems": [
    "Verif.Ring.Ref.C139_references",
    "Verif.Ring.Ref.C139_push_returns",
    "Verif.Ring.Ref.C139_write",
    "Verif.Ring.Ref.C139_growth"
   ],
   "note": "A reference is followed through every history; block addresses are never reused in the model, so that a read through a dangling reference is recognised."
  },
  {
   "property": "C14",
   "status": "proved",
   "theorems": [
    "Verif.Base64.C14_encode_is_rfc4648",
    "Verif.Base64.C14_encode_shape",
    "Verif.Base64.C14_decode_encode"
   ],
   "note": ""
  },
  {
   "property": "C140",
   "status": "proved",
   "theorems": [
    "Verif.Sort.C140_sort",
    "Verif.Sort.C140_quickselect",
    "Verif.Sort.C140_quickselect_range",
    "Verif.Sort.C140_sort_multi",
    "Verif.Sort.C140_sort_multi_by",
    "Verif.Sort.C140_short",
    "Verif.Sort.C140_reflexive_faults",
    "Verif.Sort.C140_nan",
    "Verif.Sort.C140_nan_unsorted"
   ],
   "note": "deterministic comparisons; quickselect_range for windows that do not overflow int64 (C10)"
  },
  {
   "property": "C141",
   "status": "partial",
   "theorems": [
    "Verif.Sort.C141_short",
    "Verif.Sort.C141_partition",
    "Verif.Sort.C141_harmless_partial",
    "Verif.Sort.C141_equal_elements",
    "Verif.Sort.C141_remove_unordered",
    "Verif.Sort.C141_remove_last",
    "Verif.Sort.C141_remove_refused",
    "Verif.Sort.C141_variant",
    "Verif.Sort.C141_result",
    "Verif.Sort.C141_optional",
    "Verif.Sort.C141_string",
    "Verif.Sort.C141_unique_ptr",
    "Verif.Sort.C141_vector"
   ],
   "note": "false of the code: sort of more than 16 equal elements and remove_at_unordered of the last element swap an object with itself, which is undefined for variant and result; strings, owning pointers and vectors survive it unchanged"
  },
  {
   "property": "C142",
   "status": "proved",
   "theorems": [
    "Verif.AVec.C142_capacity",
    "Verif.AVec.C142_references",
    "Verif.AVec.C142_same_capacity"
   ],
   "note": "histories on any number of vectors and allocators; the allocators are assumed to keep the promises of cc::allocator"
  },
  {
   "property": "C143",
   "status": "proved",
   "theorems": [
    "Verif.Str.C143_texts",
    "Verif.Str.C143_equivalence",
    "Verif.Str.C143_char",
    "Verif.Str.C143_char_as_text",
    "Verif.Str.C143_unterminated",
    "Verif.Str.C143_literal_with_zero"
   ],
   "note": "strings made by any history; which overload is chosen is read from the source, not modelled"
  },
  {
   "property": "C144",
   "status": "proved",
   "theorems": [
    "Verif.Str.C144_call",
    "Verif.Str.C144_history",
    "Verif.Str.C144_replace",
    "Verif.Str.C144_assign",
    "Verif.Str.C144_move",
    "Verif.Str.C144_clear_shrink"
   ],
   "note": "reading the small buffer after the text has moved to a block is counted as an error; C144_move is about single objects"
  },
  {
   "property": "C145",
   "status": "proved",
   "theorems": [
    "Verif.Str.C145_loop",
    "Verif.Str.C145_loop_fails"
   ],
   "note": "bodies are histories of the calls of C45 that depend on position and character"
  },
  {
   "property": "C146",
   "status": "proved",
   "theorems": [
    "Verif.AVec.C146_loop",
    "Verif.AVec.C146_loop_trivial",
    "Verif.AVec.C146_body_elsewhere",
    "Verif.AVec.C146_self_append"
   ],
   "note": "All histories, all bodies, all allocators. For trivially copyable elements, memory behind the last element can be read in the model, so there the theorem speaks of the loops that the specification allows. Allocators are assumed to keep the promises of cc::allocator, as in C71."
  },
  {
   "property": "C147",
   "status": "proved",
   "theorems": [
    "Verif.Capped.C147_loop",
    "Verif.Capped.C147_loop_exact",
    "Verif.Capped.C147_self_append"
   ],
   "note": "Constructing calls stand for a vector on the heap that is destroyed and replaced, as in C52."
  },
  {
   "property": "C15",
   "status": "partial",
   "theorems": [
    "Verif.Base64.C15_decode_total_partial",
    "Verif.Base64.C15_decode_drops_long_text",
    "Verif.Base64.C15_decode_drops_long_text_witness",
    "Verif.Base64.C15_decode_overflow"
   ],
   "note": "False of the code for texts of 2^31 characters and more (last three theorems); proved for all shorter texts."
  },
  {
   "property": "C16",
   "status": "proved",
   "theorems": [
    "Verif.Bits.C16_popcount_narrow",
    "Verif.Bits.C16_popcount",
    "Verif.Bits.C16_count_leading_zeros",
    "Verif.Bits.C16_count_leading_zeros_lzcnt",
    "Verif.Bits.C16_count_leading_zeros_msvc",
    "Verif.Bits.C16_count_leading_zeros_narrow",
    "Verif.Bits.C16_count_trailing_zeros",
    "Verif.Bits.C16_byteswap_bytes",
    "Verif.Bits.C16_byteswap_involution",
    "Verif.Bits.C16_bit_log2",
    "Verif.Bits.C16_is_pow2",
    "Verif.Bits.C16_mod_div_pow2",
    "Verif.Bits.C16_ceil_pow2",
    "Verif.Bits.C16_ceil_pow2_wraps",
    "Verif.Bits.C16_single_bits"
   ],
   "note": "Compiler intrinsics are modelled by their documented meaning; the software byteswap/popcount paths and the wrappers are modelled bit by bit."
  },
  {
   "property": "C17",
   "status": "proved",
   "theorems": [
    "Verif.Bits.C17_align_up",
    "Verif.Bits.C17_align_down",
    "Verif.Bits.C17_is_aligned",
    "Verif.Bits.C17_int_div_ceil",
    "Verif.Bits.C17_int_ceil_to_multiple",
    "Verif.Bits.C17_wrapped",
    "Verif.Bits.C17_min_max",
    "Verif.Bits.C17_clamp"
   ],
   "note": ""
  },
  {
   "property": "C18",
   "status": "partial",
   "theorems": [
    "Verif.Vector.C18_vector_is_list_partial",
    "Verif.Vector.C18_remove_range_wraps",
    "Verif.Vector.C18_reserve_limit"
   ],
   "note": "False of the code for remove_range calls whose start_index + count wraps around 2^64 (second theorem); proved for every other history of all modelled calls on any number of vectors."
  },
  {
   "property": "C19",
   "status": "partial",
   "theorems": [
    "Verif.Vector.C19_vector_lifetimes_partial",
    "Verif.Vector.C19_vector_no_undefined_behaviour",
    "Verif.Vector.C19_shrink_to_fit_leaks",
    "Verif.Vector.C19_shrink_to_fit_leak_size"
   ],
   "note": "False of the code for shrink_to_fit on element types with a destructor: the moved-from elements are never destroyed. Proved for all other histories."
  },
  {
   "property": "C20",
   "status": "proved",
   "theorems": [
    "Verif.Vector.C20_push_back_own_element",
    "Verif.Vector.C20_push_back_range_own_elements_fails"
   ],
   "note": "The second theorem records that push_back_range of the vector's own elements is not safe."
  },
  {
   "property": "C21",
   "status": "proved",
   "theorems": [
    "Verif.Ring.C21_ringbuffer_is_deque",
    "Verif.Ring.C21_ringbuffer_destructor",
    "Verif.Ring.C21_stable_push_keeps_storage"
   ],
   "note": "Histories of at most 2^60 calls (index arithmetic is on size_t)."
  },
  {
   "property": "C22",
   "status": "proved",
   "theorems": [
    "Verif.DSet.C22_disjoint_set_refines_partition",
    "Verif.DSet.C22_same_set_iff_connected",
    "Verif.DSet.C22_representative",
    "Verif.DSet.C22_set_size",
    "Verif.DSet.C22_set_count",
    "Verif.DSet.C22_merge_result",
    "Verif.DSet.C22_find_depth",
    "Verif.DSet.C22_parent"
   ],
   "note": "Elements are ints, so up to 2^31 - 1 of them."
  },
  {
   "property": "C23",
   "status": "proved",
   "theorems": [
    "Verif.Flat.C23_flat_vector_is_list_of_lists",
    "Verif.Flat.C23_narrow_index_wraps"
   ],
   "note": "For histories adding fewer elements than IndexT can count (2^64 by default); the second theorem shows what a narrow index type does."
  },
  {
   "property": "C24",
   "status": "partial",
   "theorems": [
    "Verif.Chunk.C24_chunks_cover_all",
    "Verif.Chunk.C24_zero_chunk_size_asserts",
    "Verif.Chunk.C24_for_each_chunk_partial",
    "Verif.Chunk.C24_for_each_chunk_skips_full_chunk",
    "Verif.Chunk.C24_for_each_chunk_default_size"
   ],
   "note": "False of the code for for_each_chunk when the last chunk is exactly full (last two theorems); proved for chunks() always and for for_each_chunk otherwise."
  },
  {
   "property": "C25",
   "status": "proved",
   "theorems": [
    "Verif.Mpmc.C25_mpmc_fifo",
    "Verif.Mpmc.C25_no_loss",
    "Verif.Mpmc.C25_fits",
    "Verif.Mpmc.C25_init_rejects"
   ],
   "note": "All schedules, any number of threads, release/acquire memory with stale loads; data races and signed overflow are undefined outcomes. Valid until a position reaches 2^63 - n, where the signed comparison overflows; C25_fits shows that every schedule shorter than that is covered."
  },
  {
   "property": "C26",
   "status": "partial",
   "theorems": [
    "Verif.Mpmc.C26_enqueue_false_partial",
    "Verif.Mpmc.C26_dequeue_false_partial",
    "Verif.Mpmc.C26_sequential",
    "Verif.Mpmc.C26_false_while_claimed"
   ],
   "note": "Sequential behaviour proved in full. Under concurrency false of the code as stated: enqueue can fail while nothing is stored, when a stalled dequeue still holds the oldest cell (last theorem); proved: it fails only when the cell it needs has not been given back at that moment (load of the newest value)."
  },
  {
   "property": "C27",
   "status": "proved",
   "theorems": [
    "Verif.Spin.C27_mutual_exclusion",
    "Verif.Spin.C27_released_once",
    "Verif.Spin.C27_unlocked_can_be_taken",
    "Verif.Spin.C27_try_lock_false",
    "Verif.Spin.C27_try_lock_true"
   ],
   "note": "All schedules of clients that unlock only what they hold, any number of threads, with protected non-atomic data and stale relaxed loads."
  },
  {
   "property": "C28",
   "status": "proved",
   "theorems": [
    "Verif.LPool.C28_no_double_allocation",
    "Verif.LPool.C28_refuses_only_when_full",
    "Verif.LPool.C28_private",
    "Verif.LPool.C28_capacity",
    "Verif.LPool.C28_exactly_capacity",
    "Verif.LPool.C28_release_and_reuse",
    "Verif.LPool.C28_short_schedules"
   ],
   "note": "All schedules, any number of threads, stale loads, release/acquire views; handles may be passed between threads. Hypotheses: the free list has the one entry that initialize writes behind its allocation (see C30), and no thread is stopped in front of the compare-exchange of acquire while others do 2^32 operations (C28_short_schedules: implied by fewer than 2^32 - 1 steps)."
  },
  {
   "property": "C29",
   "status": "proved",
   "theorems": [
    "Verif.LPool.C29_packing",
    "Verif.LPool.C29_stale",
    "Verif.LPool.C29_stale_refused",
    "Verif.LPool.C29_live"
   ],
   "note": "Exact condition for a released handle to be accepted again: 2^13 releases of its slot. Assertions enabled (generation check on)."
  },
  {
   "property": "C30",
   "status": "partial",
   "theorems": [
    "Verif.LPool.C30_init_overflows",
    "Verif.LPool.C30_init_refuses",
    "Verif.LPool.C30_init_partial"
   ],
   "note": "False of the code: for every capacity that is accepted (2 to 65535) initialize writes one element behind the free list; capacity 1 is refused. Proved only for an allocation with a spare entry."
  },
  {
   "property": "C31",
   "status": "proved",
   "theorems": [
    "Verif.Radix.C31_radix_sort",
    "Verif.Radix.C31_unique"
   ],
   "note": ""
  },
  {
   "property": "C32",
   "status": "proved",
   "theorems": [
    "Verif.LPool.C32_iterate",
    "Verif.LPool.C32_liveSlots",
    "Verif.LPool.C32_collect",
    "Verif.LPool.C32_release_all",
    "Verif.LPool.C32_destroy"
   ],
   "note": "Any functor, also one that changes the pool; early stop included; release_all and the destructor as instances."
  },
  {
   "property": "C33",
   "status": "partial",
   "theorems": [
    "Verif.APool.C33_block_given_twice",
    "Verif.APool.C33_null_dereference",
    "Verif.APool.C33_free_behind_the_buffer",
    "Verif.APool.C33_calm_partial",
    "Verif.APool.C33_sequential_partial",
    "Verif.APool.C33_sequential_alloc_partial",
    "Verif.APool.C33_sequential_reuse_partial"
   ],
   "note": "False of the code: ABA gives one block to two threads, and two threads racing for the last block dereference null. Proved for all schedules in which no block is freed while another thread stands between reading its link and its compare-exchange (exactly the ABA situation) and the pool does not run empty in the middle of an alloc; and for all histories without interleaving."
  },
  {
   "property": "C34",
   "status": "partial",
   "theorems": [
    "Verif.Alloc.Linear.C34_history_partial",
    "Verif.Alloc.Linear.C34_alloc_partial",
    "Verif.Alloc.Linear.C34_huge_request_accepted"
   ],
   "note": "False for requests near 2^64 (the bound check wraps around). Proved for all histories with sizes and alignments up to 2^62."
  },
  {
   "property": "C35",
   "status": "partial",
   "theorems": [
    "Verif.Alloc.Stack.C35_history_partial",
    "Verif.Alloc.Stack.C35_free_restores_partial",
    "Verif.Alloc.Stack.C35_out_of_order_partial",
    "Verif.Alloc.Stack.C35_contents_partial",
    "Verif.Alloc.Stack.C35_huge_request_accepted",
    "Verif.Alloc.Stack.C35_huge_alignment",
    "Verif.Alloc.Stack.C35_double_free_accepted"
   ],
   "note": "False for requests near 2^64, for alignments that do not fit the 32-bit padding, and for a second free of a block (the id may be in use again). Proved for all histories with sizes up to 2^62, alignments up to 2^31, buffers below 16 GiB and pointers to live blocks."
  },
  {
   "property": "C36",
   "status": "partial",
   "theorems": [
    "Verif.Alloc.AtomicLinear.C36_schedules_partial",
    "Verif.Alloc.AtomicLinear.C36_alloc_partial",
    "Verif.Alloc.AtomicLinear.C36_overcommit_writes_outside",
    "Verif.Alloc.AtomicLinear.C36_huge_request_accepted"
   ],
   "note": "All schedules of any number of threads with alloc, realloc, writes and reset, as long as the requests since the last reset add up to at most 2^62. In addition: get_allocation_size returns the requested size, and contents stay what was written, also through realloc. Outside of that the sum wraps around, and a request that does not fit writes its header outside of the buffer before the assertion."
  },
  {
   "property": "C37",
   "status": "partial",
   "theorems": [
    "Verif.Alloc.VLinear.C37_linear_partial",
    "Verif.Alloc.VLinear.C37_linear_alloc_partial",
    "Verif.Alloc.VLinear.C37_linear_decommit_partial",
    "Verif.Alloc.VLinear.C37_linear_reset_partial",
    "Verif.Alloc.VLinear.C37_small_chunk_faults",
    "Verif.Alloc.VLinear.C37_decommit_returns_nonsense",
    "Verif.Alloc.VLinear.C37_refuses_what_fits",
    "Verif.Alloc.VLinear.C37_huge_request_accepted",
    "Verif.Alloc.VStack.C37_stack_partial",
    "Verif.Alloc.VStack.C37_stack_calls_partial",
    "Verif.Alloc.VStack.C37_stack_contents_partial",
    "Verif.Alloc.VStack.C37_stack_decommit_partial",
    "Verif.Alloc.VStack.C37_stack_small_chunk_faults",
    "Verif.Alloc.VStack.C37_is_latest_unchecked"
   ],
   "note": "All histories with sizes and alignments up to 2^60 (stack: alignments up to 2^31, ranges below 16 GiB) and chunks of at least a page. False for smaller chunks (memory in use is decommitted), and the returned number is right only if the chunk size divides the address of the range, which the operating system does not guarantee."
  },
  {
   "property": "C38",
   "status": "partial",
   "theorems": [
    "Verif.TPool.C38_history",
    "Verif.TPool.C38_calls",
    "Verif.TPool.C38_lifo",
    "Verif.TPool.C38_reuse_partial",
    "Verif.TPool.C38_reuse_single",
    "Verif.TPool.C38_large_objects_fail",
    "Verif.TPool.C38_no_reuse_across_threads"
   ],
   "note": "Disjointness, alignment and containment hold for all histories, any number of threads, and sizes up to 65536. Reuse holds per thread (exactly: a thread requests memory if and only if it has handed out everything it requested and everything that was given back on it), but not across threads. Larger objects always fail."
  },
  {
   "property": "C39",
   "status": "partial",
   "theorems": [
    "Verif.Tlsf.C39_insert",
    "Verif.Tlsf.C39_classes",
    "Verif.Tlsf.C39_search",
    "Verif.Tlsf.C39_search_in_range",
    "Verif.Tlsf.C39_adjust",
    "Verif.Tlsf.C39_good_fit",
    "Verif.Tlsf.C39_huge_request_accepted",
    "Verif.Tlsf.C39_pool_partial",
    "Verif.Tlsf.C39_largest_pool_out_of_range"
   ],
   "note": "Proved for every size below 2^32. False of the code at two boundaries: a pool of exactly 2^32+16 bytes is accepted but its block belongs to no class (C39_largest_pool_out_of_range), and requests of more than 2^64-8 bytes wrap around and get the smallest block (C39_huge_request_accepted)."
  },
  {
   "property": "C40",
   "status": "partial",
   "theorems": [
    "Verif.Tlsf.C40_history_partial",
    "Verif.Tlsf.C40_free_all",
    "Verif.Tlsf.C40_malloc_succeeds",
    "Verif.Tlsf.C40_memalign_succeeds",
    "Verif.Tlsf.Example.C40_realloc_huge_fails",
    "Verif.Tlsf.Example.C40_memalign_huge_misaligned",
    "Verif.Tlsf.Example.C40_memalign_huge_too_small",
    "Verif.Tlsf.Example.C40_malloc_huge_too_small",
    "Verif.Tlsf.Example.C40_realloc_ignores_alignment",
    "Verif.Tlsf.Example.C40_largest_pool_undefined",
    "Verif.Tlsf.Example.C40_initialize_without_pool"
   ],
   "note": "Proved for every history of add_pool, remove_pool, malloc, memalign, realloc, free and writes, any number of pools, all sizes up to 2^64-8 (realloc: 2^32-8) and alignments up to 2^62. False of the code outside those bounds: realloc to more than 2^32-8 bytes destroys the block, memalign with alignment 2^63 is misaligned and too small, malloc of more than 2^64-8 bytes gets 24 bytes, the largest pool is undefined behaviour, realloc does not keep the alignment asked for."
  },
  {
   "property": "C41",
   "status": "proved",
   "theorems": [
    "Verif.Sha1.C41_sha1_any_chunking",
    "Verif.Sha1.C41_make_hash_sha1",
    "Verif.Sha1.C41_make_hash_sha1_string",
    "Verif.Sha1.C41_padding"
   ],
   "note": "Model literal in the 80 unrolled calls; specification is FIPS 180-4, checked against published test vectors by kernel evaluation."
  },
  {
   "property": "C42",
   "status": "partial",
   "theorems": [
    "Verif.StrView.C42_equality",
    "Verif.StrView.C42_equals_ignore_case",
    "Verif.StrView.C42_lexicographic",
    "Verif.StrView.C42_lexicographic_total",
    "Verif.StrView.C42_ascii_less_partial",
    "Verif.StrView.C42_ascii_less_stops_at_zero",
    "Verif.StrView.C42_contains_char",
    "Verif.StrView.C42_contains",
    "Verif.StrView.C42_contains_ignore_case",
    "Verif.StrView.C42_index_of_char",
    "Verif.StrView.C42_last_index_of_char",
    "Verif.StrView.C42_index_of",
    "Verif.StrView.C42_last_index_of",
    "Verif.StrView.C42_all_indices_of",
    "Verif.StrView.C42_common_prefix",
    "Verif.StrView.C42_starts_ends",
    "Verif.StrView.C42_starts_ends_char"
   ],
   "note": "Everything is exact for all texts and needles, except that ascii_lexicographical_less does not look behind a zero character (C42_ascii_less_stops_at_zero); it is proved for texts without zero characters."
  },
  {
   "property": "C43",
   "status": "proved",
   "theorems": [
    "Verif.StrView.C43_pieces",
    "Verif.StrView.C43_join",
    "Verif.StrView.C43_split_keep",
    "Verif.StrView.C43_split_skip",
    "Verif.StrView.C43_split_once",
    "Verif.StrView.C43_trim_start",
    "Verif.StrView.C43_trim_end",
    "Verif.StrView.C43_trim",
    "Verif.StrView.C43_white_space"
   ],
   "note": "The empty text has no pieces at all (first part of C43_split_keep)."
  },
  {
   "property": "C44",
   "status": "partial",
   "theorems": [
    "Verif.StrView.C44_subview_partial",
    "Verif.StrView.C44_subview_wraps",
    "Verif.StrView.C44_clamped_partial",
    "Verif.StrView.C44_clamped_wraps",
    "Verif.StrView.C44_parts",
    "Verif.StrView.C44_remove_affix"
   ],
   "note": "False of the code when offset + size is not representable: the checks wrap around (C44_subview_wraps, C44_clamped_wraps). Proved for all other arguments."
  },
  {
   "property": "C45",
   "status": "partial",
   "theorems": [
    "Verif.Str.C45_history_partial",
    "Verif.Str.C45_no_leak",
    "Verif.Str.C45_capacity",
    "Verif.Str.C45_uninitialized",
    "Verif.Str.C45_from_c_str",
    "Verif.Str.C45_moved_from_keeps_size",
    "Verif.Str.C45_self_move_loses_text",
    "Verif.Str.C45_insert_own_view_wrong",
    "Verif.Str.C45_replace_count_wraps",
    "Verif.Str.C45_reserve_max_wraps"
   ],
   "note": "Proved for all histories over any number of strings, every small-buffer capacity from 7 to 2^61 and texts below 2^61 characters. Outside the specification because the code is wrong there (proved by witness): move-assignment of a string to itself, insert/replace of a view of the string itself, counts and sizes near 2^64, reading a moved-from heap string."
  },
  {
   "property": "C46",
   "status": "partial",
   "theorems": [
    "Verif.Str.C46_c_str_partial",
    "Verif.Str.C46_c_str_flag",
    "Verif.Str.C46_remove_suffix_no_zero",
    "Verif.Str.C46_remove_prefix_no_zero"
   ],
   "note": "False of the code after remove_prefix and remove_suffix, which do not store the zero (witnesses). Proved for all histories without them, and after them as soon as an operation stores the zero again (flag of the specification)."
  },
  {
   "property": "C47",
   "status": "proved",
   "theorems": [
    "Verif.Str.C47_replace_agrees",
    "Verif.Str.C47_spec_determines",
    "Verif.Str.C47_empty_old_rejected"
   ],
   "note": "For every string made by any history and results below 2^61 characters; old and new do not view the string itself."
  },
  {
   "property": "C48",
   "status": "proved",
   "theorems": [
    "Verif.Num.C48_round_trip",
    "Verif.Num.C48_decimal_unique",
    "Verif.Num.C48_char",
    "Verif.Num.C48_bool",
    "Verif.Num.C48_byte",
    "Verif.Num.C48_byte_digits"
   ],
   "note": "For every value of each of the ten integer types (reading back for the eight that from_string has overloads for), zero-terminated texts and views, characters, truth values and bytes. snprintf and strtol are modelled, not proved."
  },
  {
   "property": "C49",
   "status": "partial",
   "theorems": [
    "Verif.Num.C49_c_str_partial",
    "Verif.Num.C49_int64",
    "Verif.Num.C49_view_partial",
    "Verif.Num.C49_byte",
    "Verif.Num.C49_char",
    "Verif.Num.C49_bool",
    "Verif.Num.C49_wide_number_accepted",
    "Verif.Num.C49_negative_accepted",
    "Verif.Num.C49_leading_space_accepted",
    "Verif.Num.C49_embedded_zero_accepted",
    "Verif.Num.C49_long_view_truncated",
    "Verif.Num.C49_view_exact_partial",
    "Verif.Num.C49_huge_view"
   ],
   "note": "False of the code in six ways (witnesses): numbers over 32 bits are truncated, negative numbers are accepted for unsigned types, leading white space is accepted, views are read up to a zero character or 255 characters, views of 2^31 characters may be read behind their end. Proved: what is read of every smaller view; full equivalence for int64_t after white space; for the others, success on every representable number, and only on numerals, with the right value whenever the 64-bit detour is exact."
  },
  {
   "property": "C50",
   "status": "partial",
   "theorems": [
    "Verif.Fmt.C50_string_partial",
    "Verif.Fmt.C50_accepts_only_grammar",
    "Verif.Fmt.C50_padded_unique",
    "Verif.Fmt.C50_malformed_rejected",
    "Verif.Fmt.C50_cut_not_padded",
    "Verif.Fmt.C50_huge_text"
   ],
   "note": "False of the code when the text is both cut to the precision and shorter than the width: it is not padded (C50_cut_not_padded); and for texts of 2^31 characters (C50_huge_text). Proved for all other texts and all specifications of the grammar; only the grammar is accepted."
  },
  {
   "property": "C51",
   "status": "partial",
   "theorems": [
    "Verif.Format.C51_format",
    "Verif.Format.C51_reject_partial",
    "Verif.Format.C51_safe",
    "Verif.Format.C51_unique",
    "Verif.Format.C51_index_wraps",
    "Verif.Format.C51_reads_past_view",
    "Verif.Format.C51_unterminated"
   ],
   "note": "Meaning: proved for every format string of the grammar, all three syntaxes, any arguments. Rejection of everything else: proved for zero-terminated format strings without a digit sequence of 2^64 or more; false outside this (witnesses: the index wraps around, the conversion character is read behind the view)."
  },
  {
   "property": "C52",
   "status": "partial",
   "theorems": [
    "Verif.Capped.C52_capped_vector_is_bounded_list",
    "Verif.Capped.C52_capped_vector_lifetimes_partial",
    "Verif.Capped.C52_move_construction_leaks",
    "Verif.Capped.C52_reuse_after_move_leaks",
    "Verif.Capped.C52_move_leak_size"
   ],
   "note": "The list behaviour is proved for all histories. 'Each element is destroyed exactly once' is false of the code after whole-vector moves of elements with a destructor (last three theorems) and proved for all other histories."
  },
  {
   "property": "C53",
   "status": "partial",
   "theorems": [
    "Verif.Opt.C53_optional_is_option_partial",
    "Verif.Opt.C53_self_copy_assignment_clears",
    "Verif.Opt.C53_self_copy_assignment_program",
    "Verif.Opt.C53_emplace_own_value",
    "Verif.Opt.C53_less",
    "Verif.Opt.C53_less_strict_weak"
   ],
   "note": "Proved for all histories except copy self-assignment, which empties the optional, and emplace with the optional's own value, which reads a destroyed value."
  },
  {
   "property": "C54",
   "status": "partial",
   "theorems": [
    "Verif.Variant.C54_variant_partial",
    "Verif.Variant.C54_construct_from_lvalue",
    "Verif.Variant.C54_construct_from_lvalue_program",
    "Verif.Variant.C54_self_assignment",
    "Verif.Variant.C54_self_assignment_program",
    "Verif.Variant.C54_is_of_foreign_type"
   ],
   "note": "False of the code for construction from an lvalue (wrong alternative), self-assignment (reads a destroyed value) and is<T> of a foreign type; proved for all other histories."
  },
  {
   "property": "C55",
   "status": "partial",
   "theorems": [
    "Verif.Own.C55_shared_ptr_partial",
    "Verif.Own.C55_owned_objects_live",
    "Verif.Own.C55_assign_from_own_member",
    "Verif.Own.C55_reset_self_owner"
   ],
   "note": "Object graphs of any shape, including cycles. False of the code for assignments whose source lies inside the object that the assignment destroys (p = p->next) and for resetting the last self-owner from inside; proved for all other histories."
  },
  {
   "property": "C56",
   "status": "partial",
   "theorems": [
    "Verif.Own.C56_unique_ownership_partial",
    "Verif.Own.C56_self_move_empties",
    "Verif.Own.C56_assign_from_own_member"
   ],
   "note": "False of the code for p = move(p->next); proved for all other histories."
  },
  {
   "property": "C57",
   "status": "partial",
   "theorems": [
    "Verif.Span.C57_span_access",
    "Verif.Span.C57_span_first_last",
    "Verif.Span.C57_subspan_partial",
    "Verif.Span.C57_subspan_wraps",
    "Verif.Span.C57_equals_content",
    "Verif.Span.C57_copy_from",
    "Verif.Span.C57_fill_from",
    "Verif.Span.C57_clamped_span",
    "Verif.Span.C57_wrapped_span",
    "Verif.Span.C57_strided_access",
    "Verif.Span.C57_strided_first_last",
    "Verif.Span.C57_strided_subspan_partial",
    "Verif.Span.C57_strided_subspan_wraps",
    "Verif.Span.C57_strided_reversed",
    "Verif.Span.C57_strided_iteration"
   ],
   "note": "False of the code for subspan(offset, count) when offset + count wraps around (C57_subspan_wraps, C57_strided_subspan_wraps); everything else is proved. Spans of 2^63 or more elements are excluded for the signed indices of clamped_span and wrapped_span."
  },
  {
   "property": "C58",
   "status": "partial",
   "theorems": [
    "Verif.Flags.C58_flags_set_algebra_partial",
    "Verif.Flags.C58_flags_queries_partial",
    "Verif.Flags.C58_flags_single",
    "Verif.Flags.C58_flags_iteration_partial",
    "Verif.Flags.C58_flags64_value_31",
    "Verif.Flags.C58_flags64_value_32",
    "Verif.Flags.C58_flags64_iteration"
   ],
   "note": "Proved for enum values below 31 (and 32-bit storage); false of the code for values 31 and up in 64-bit storage (last three theorems)."
  },
  {
   "property": "C59",
   "status": "partial",
   "theorems": [
    "Verif.BitSet.C59_bitset_is_set_partial",
    "Verif.BitSet.C59_bitset_eq_partial",
    "Verif.BitSet.C59_complement_not_masked",
    "Verif.BitSet.C59_large_index_wrong",
    "Verif.BitSet.C59_mask_overflows"
   ],
   "note": "Proved for indices below 31 and the operations that keep bits at N and above clear; false of the code otherwise (last three theorems)."
  },
  {
   "property": "C60",
   "status": "partial",
   "theorems": [
    "Verif.Arr.C60_dynamic_array_empty_partial",
    "Verif.Arr.C60_fixed_array_empty_is_inverted",
    "Verif.Arr.C60_fixed_array_empty_wrong",
    "Verif.Arr.C60_fixed_array_access"
   ],
   "note": "False of the code for array<T, N>: empty() is inverted for every N. Right for array<T>; vector, ring buffer, capped_vector and span are covered by the history theorems of C18, C21, C52, C57."
  },
  {
   "property": "C61",
   "status": "partial",
   "theorems": [
    "Verif.Hash.C61_equal_values_hash_equally_partial",
    "Verif.Hash.C61_string_view_hashes_the_pointer",
    "Verif.Hash.C61_string_view_hash_wrong",
    "Verif.Hash.C61_float",
    "Verif.Hash.C61_double",
    "Verif.Hash.C61_scalar",
    "Verif.Hash.C61_plain_one_byte",
    "Verif.Hash.C61_combine_injective",
    "Verif.Hash.C61_combine_order",
    "Verif.Hash.C61_pair_order",
    "Verif.Hash.C61_combine_variadic",
    "Verif.Hash.C61_fold_one_change",
    "Verif.Hash.C61_stringhash",
    "Verif.Hash.C61_stringhash_n_partial",
    "Verif.Hash.C61_stringhash_n_zero",
    "Verif.Hash.C61_stringhash_n_reads_past_limit"
   ],
   "note": "False of the code for string_view (generic hash of pointer and size) and for stringhash_n with limit 0; proved for every other type, nested to any depth."
  },
  {
   "property": "C62",
   "status": "partial",
   "theorems": [
    "Verif.FList.C62_forward_list_partial",
    "Verif.FList.C62_self_assignment_clears",
    "Verif.FList.C62_self_assignment_loses_elements"
   ],
   "note": "Proved for all histories without self-assignment, including node lifetimes (no use after free, no leak). Self-assignment empties the list (last two theorems)."
  },
  {
   "property": "C63",
   "status": "partial",
   "theorems": [
    "Verif.Map.C63_map_moved_from_clear_partial",
    "Verif.Map.C63_map_moved_from_not_usable",
    "Verif.Set.C63_set_moved_from_not_usable",
    "Verif.Set.C63_set_moved_from_clear_partial"
   ],
   "note": "False of the code: a moved-from map/set keeps its old size but has no table, so lookups hit an assertion (C63_map_moved_from_not_usable). What holds: clear() makes it a correct empty map again."
  },
  {
   "property": "C64",
   "status": "partial",
   "theorems": [
    "Verif.Set.C64_set_add_own_element_partial",
    "Verif.Set.C64_set_add_own_element_dangles"
   ],
   "note": "False of the code when the add rehashes (second theorem); proved when no rehash is due."
  },
  {
   "property": "C65",
   "status": "partial",
   "theorems": [
    "Verif.Set.C65_set_reserve_partial",
    "Verif.Set.C65_set_reserve_rehashes"
   ],
   "note": "False of the code: adding a duplicate at full load rehashes (second theorem); proved when every add happens below n elements."
  },
  {
   "property": "C66",
   "status": "proved",
   "theorems": [
    "Verif.Vector.C66_reserve_then_push_keeps_buffer"
   ],
   "note": ""
  },
  {
   "property": "C67",
   "status": "partial",
   "theorems": [
    "Verif.Chunk.C67_chunked_buffer_lifetimes_partial",
    "Verif.Chunk.C67_chunked_buffer_never_destroys"
   ],
   "note": "False of the code: no element destructor ever runs (second theorem). Holds for trivially destructible types and empty buffers."
  },
  {
   "property": "C68",
   "status": "partial",
   "theorems": [
    "Verif.Arr.C68_array_is_list_partial",
    "Verif.Arr.C68_resize_with_own_element",
    "Verif.Arr.C68_resize_with_own_element_program"
   ],
   "note": "Proved for all histories except resize with an element of the array itself as value, which reads freed memory (last two theorems)."
  },
  {
   "property": "C69",
   "status": "partial",
   "theorems": [
    "Verif.Fmt.C69_int_partial",
    "Verif.Fmt.C69_default_partial",
    "Verif.Fmt.C69_type_rejected",
    "Verif.Fmt.C69_least_undefined",
    "Verif.Fmt.C69_binary_zero_empty",
    "Verif.Fmt.C69_binary_not_padded",
    "Verif.Fmt.C69_hex_prefix_overflows",
    "Verif.Fmt.C69_prefix_misplaced",
    "Verif.Fmt.C69_align_ignored",
    "Verif.Fmt.C69_unsigned_sign_ignored",
    "Verif.Fmt.C69_char_bool_not_padded"
   ],
   "note": "Proved for all types, values and specifications outside the listed defects, each shown by a witness: least value, zero in binary, width in binary, #x buffer, # with padding, alignment, sign with unsigned types."
  },
  {
   "property": "C70",
   "status": "proved",
   "theorems": [
    "Verif.Tlsf.C70_validate",
    "Verif.Tlsf.C70_walk",
    "Verif.Tlsf.C70_allocation_size",
    "Verif.Tlsf.C70_detects"
   ],
   "note": "For the legal histories of C40, with assertions enabled or not, for every sufficiently large number of rounds of the loops; the converse for every memory."
  },
  {
   "property": "C71",
   "status": "proved",
   "theorems": [
    "Verif.AVec.C71_contents",
    "Verif.AVec.C71_blocks_have_one_owner",
    "Verif.AVec.C71_no_undefined_behaviour",
    "Verif.AVec.C71_all_memory_returned",
    "Verif.AVec.C71_moves"
   ],
   "note": "For sizes up to 2^48 elements and remove_range sums below 2^64; elements skipped by shrink_to_fit as in C19."
  },
  {
   "property": "C72",
   "status": "partial",
   "theorems": [
    "Verif.AArr.C72_contents_partial",
    "Verif.AArr.C72_memory_partial",
    "Verif.AArr.C72_sized_is_uninitialised",
    "Verif.AArr.C72_own_element_is_dead"
   ],
   "note": "False of the code for arrays of trivially constructible types created by size (elements are uninitialised) and for resize/reset with an element of the array itself (read after destruction); proved for all other histories."
  },
  {
   "property": "C73",
   "status": "partial",
   "theorems": [
    "Verif.Result.C73_result_partial",
    "Verif.Result.C73_self_move_reads_dead_object"
   ],
   "note": "False of the code for r = cc::move(r) (reads a destroyed object); proved for all other histories."
  },
  {
   "property": "C74",
   "status": "partial",
   "theorems": [
    "Verif.CBox.C74_contents_partial",
    "Verif.CBox.C74_lifetimes_partial",
    "Verif.CBox.C74_move_construction_loses",
    "Verif.CBox.C74_moved_from_source_destroys_twice",
    "Verif.CBox.C74_own_object_is_dead"
   ],
   "note": "False of the code for moves from moved-from boxes (of types with destructor), self-moves, emplacing a box's own object and (objects lost) move construction; proved for all other histories."
  },
  {
   "property": "C75",
   "status": "partial",
   "theorems": [
    "Verif.SysAlloc.C75_buffers_partial",
    "Verif.SysAlloc.C75_try_realloc_without_memory",
    "Verif.SysAlloc.C75_huge_request_accepted"
   ],
   "note": "False of the code when a buffer is resized and there is no memory (copy to null) and, without aligned_alloc, for sizes near 2^64; proved for all other histories and all C libraries that keep to the standard."
  },
  {
   "property": "C76",
   "status": "partial",
   "theorems": [
    "Verif.AHelp.C76_helpers_partial",
    "Verif.AHelp.C76_array_size_wraps",
    "Verif.AHelp.C76_new_array_hangs",
    "Verif.AHelp.C76_size_unaligned",
    "Verif.AHelp.C76_null_source"
   ],
   "note": "False of the code for array sizes that wrap around, 2^32 or more elements with a constructor and, by the letter of the standard, for array headers of types with alignment below 8 and null arguments to memcpy/memset; proved for all other histories and all allocators that keep to the interface."
  },
  {
   "property": "C77",
   "status": "proved",
   "theorems": [
    "Verif.SStream.C77_stream",
    "Verif.SStream.C77_reserve"
   ],
   "note": ""
  },
  {
   "property": "C78",
   "status": "partial",
   "theorems": [
    "Verif.FArr.C78_array_partial",
    "Verif.FArr.C78_no_loss",
    "Verif.FArr.C78_bounds",
    "Verif.FArr.C78_list_loses_objects",
    "Verif.FArr.C78_span_loses_objects"
   ],
   "note": "The code violates one part: the constructors from a list and from a span construct over living objects, whose destructors never run; the number of lost objects is proved exactly, everything else holds."
  },
  {
   "property": "C79",
   "status": "partial",
   "theorems": [
    "Verif.VBox.C79_boxes_partial",
    "Verif.VBox.C79_no_sharing",
    "Verif.VBox.C79_moved_from_caught",
    "Verif.VBox.C79_conversion_unchecked",
    "Verif.VBox.C79_own_object_is_dead",
    "Verif.VBox.C79_no_virtual_destructor"
   ],
   "note": "The code violates three parts: assigning or emplacing a poly_box from its own object reads a deleted object, the implicit conversion to a reference is not checked after a move, and a poly_box accepts derived objects for a class without virtual destructor. Everything else holds."
  },
  {
   "property": "C80",
   "status": "partial",
   "theorems": [
    "Verif.IRange.C80_forward",
    "Verif.IRange.C80_reversed_partial",
    "Verif.IRange.C80_reversed_twice",
    "Verif.IRange.C80_skip_first",
    "Verif.IRange.C80_skip_last",
    "Verif.IRange.C80_max",
    "Verif.IRange.C80_indices",
    "Verif.IRange.C80_between",
    "Verif.IRange.C80_between_ascending",
    "Verif.IRange.C80_reversed_overflows"
   ],
   "note": "The code violates one case: reversing a range that begins at the least value of int or a longer signed type overflows. Everything else holds."
  },
  {
   "property": "C81",
   "status": "proved",
   "theorems": [
    "Verif.Algo.C81_copy",
    "Verif.Algo.C81_copy_overlap",
    "Verif.Algo.C81_copy_short",
    "Verif.Algo.C81_fill",
    "Verif.Algo.C81_equal",
    "Verif.Algo.C81_any_of_range",
    "Verif.Algo.C81_any_of_values",
    "Verif.Algo.C81_cascaded_less",
    "Verif.Algo.C81_less_total_order"
   ],
   "note": "Contiguous ranges of one element type, all elements alive."
  },
  {
   "property": "C82",
   "status": "partial",
   "theorems": [
    "Verif.Call.C82_callables_partial",
    "Verif.Call.C82_empty_caught",
    "Verif.Call.C82_stream_in_order",
    "Verif.Call.C82_default_stream_dangles",
    "Verif.Call.C82_lvalue_is_moved"
   ],
   "note": "The code violates two parts: a default stream_ref refers to a lambda that is gone, and a unique_function made from an lvalue moves from it. Everything else holds. with_custom_invoker and conversions of values are not modelled."
  },
  {
   "property": "C83",
   "status": "partial",
   "theorems": [
    "Verif.ErrMsg.C83_pictures_partial",
    "Verif.ErrMsg.C83_lines",
    "Verif.ErrMsg.C83_empty_string",
    "Verif.ErrMsg.C83_outside",
    "Verif.ErrMsg.C83_several_lines"
   ],
   "note": "The code violates one part: for a target that reaches into a later line, an assertion fails instead of showing it. Everything else holds. Sizes beyond the range of int are not modelled."
  },
  {
   "property": "C84",
   "status": "partial",
   "theorems": [
    "Verif.Watch.C84_watches_partial",
    "Verif.Watch.C84_no_change_lost",
    "Verif.Watch.C84_paths",
    "Verif.Watch.C84_second_watch_blind"
   ],
   "note": "The code violates one part: of two watches for one file only the first reports changes. Everything else holds. Limits of inotify queues, failures of system calls and static destruction are not modelled."
  },
  {
   "property": "C85",
   "status": "proved",
   "theorems": [
    "Verif.Xxh3.C85_xxh3",
    "Verif.Xxh3.C85_secret",
    "Verif.Xxh3.C85_plain",
    "Verif.Xxh3.C85_short_secret"
   ],
   "note": "For builds without XXH_DEBUGLEVEL (see C88). NEON and VSX code, prefetching and the 128 bit hashes are not modelled."
  },
  {
   "property": "C86",
   "status": "proved",
   "theorems": [
    "Verif.Xxh3.C86_no_collision",
    "Verif.Xxh3.C86_tiny",
    "Verif.Xxh3.C86_seeds",
    "Verif.Xxh3.C86_collisions"
   ],
   "note": "The last theorem shows that more cannot be expected of longer data."
  },
  {
   "property": "C87",
   "status": "partial",
   "theorems": [
    "Verif.Xxh3.C87_stream_partial",
    "Verif.Xxh3.C87_pieces",
    "Verif.Xxh3.C87_stale_buffer",
    "Verif.Xxh3.C87_copy_seed",
    "Verif.Xxh3.C87_copy_dangles",
    "Verif.Xxh3.C87_full_fails"
   ],
   "note": "The code violates it: if an update bypasses the buffer and the message ends 1 to 63 bytes after a multiple of 256, the digest uses old bytes of the buffer; a copy of a state with a seed points into the original. All other histories are proved."
  },
  {
   "property": "C88",
   "status": "partial",
   "theorems": [
    "Verif.Xxh3.C88_assertions_partial",
    "Verif.Xxh3.C88_eight_bytes"
   ],
   "note": "The code violates it for data of eight bytes; every other length is proved."
  },
  {
   "property": "C89",
   "status": "partial",
   "theorems": [
    "Verif.CArr.C89_capped_array_is_list_partial",
    "Verif.CArr.C89_lifetimes_partial",
    "Verif.CArr.C89_size_type",
    "Verif.CArr.C89_size_type_least",
    "Verif.CArr.C89_emplace_own_element",
    "Verif.CArr.C89_move_leak_size",
    "Verif.CArr.C89_reuse_and_self_move"
   ],
   "note": "The code violates it: emplace destroys the contents before it reads an argument in them, moved-from elements are never destroyed, self-move loses the elements. All other histories are proved."
  },
  {
   "property": "C90",
   "status": "proved",
   "theorems": [
    "Verif.Synced.C90_linearizable",
    "Verif.Synced.C90_faults",
    "Verif.Synced.C90_invariant",
    "Verif.Synced.C90_no_deadlock",
    "Verif.Synced.C90_unguarded_races",
    "Verif.Synced.C90_virtual_linear",
    "Verif.Synced.C90_tlsf"
   ],
   "note": "For the calls that take the lock (or do nothing). initialize and get_backing do not take it; C90_unguarded_races shows that they race. The rules for requests are those of C37 and C40."
  },
  {
   "property": "C91",
   "status": "partial",
   "theorems": [
    "Verif.WChar.C91_to_utf8_partial",
    "Verif.WChar.C91_to_wide_partial",
    "Verif.WChar.C91_round_trip",
    "Verif.WChar.C91_bad_wide",
    "Verif.WChar.C91_bad_utf8",
    "Verif.WChar.C91_counted_ascii_partial",
    "Verif.WChar.C91_counted_wide_fails",
    "Verif.WChar.C91_counted_narrow_fails",
    "Verif.WChar.C91_c_locale"
   ],
   "note": "The code violates the part about opt_num_src_chars (it limits the bytes of the destination, to a quarter, or the number of results), and works only in a UTF-8 locale. Without a count and in that locale it is proved."
  },
  {
   "property": "C92",
   "status": "partial",
   "theorems": [
    "Verif.WChar.C92_to_string_ascii_partial",
    "Verif.WChar.C92_to_string_truncates",
    "Verif.WChar.C92_null"
   ],
   "note": "The code violates it for every text with a character that is not ASCII: the result is cut to one byte per character (C92_to_string_truncates)."
  },
  {
   "property": "C93",
   "status": "partial",
   "theorems": [
    "Verif.Rsqrt.C93_error_partial",
    "Verif.Rsqrt.C93_error_moderate",
    "Verif.Rsqrt.C93_zero_is_nan",
    "Verif.Rsqrt.C93_infinity_is_nan"
   ],
   "note": "The code violates it for zero, denormal numbers and infinity: the iterations give NaN. Proved for all normal numbers."
  },
  {
   "property": "C94",
   "status": "partial",
   "theorems": [
    "Verif.Cpu.C94_answer",
    "Verif.Cpu.C94_recognised_partial",
    "Verif.Cpu.C94_popcount_hypervisor",
    "Verif.Cpu.C94_wrong",
    "Verif.Cpu.C94_missing_level"
   ],
   "note": "The code violates it: any higher bit of the register makes the answer yes, and a missing level leaves the registers uninitialised. That the feature is never missed is proved."
  },
  {
   "property": "C95",
   "status": "partial",
   "theorems": [
    "Verif.Assert.C95_assertions_partial",
    "Verif.Assert.C95_stops",
    "Verif.Assert.C95_never_aborts",
    "Verif.Assert.C95_flags"
   ],
   "note": "The code violates the part about abort: SIGTRAP is raised even without a debugger and ends the process before std::abort (C95_never_aborts). All else is proved, for both actions of SIGTRAP (C95_stops)."
  },
  {
   "property": "C96",
   "status": "proved",
   "theorems": [
    "Verif.Xxh64.C96_xxh64",
    "Verif.Xxh64.C96_xxh32",
    "Verif.Xxh64.C96_one_byte64",
    "Verif.Xxh64.C96_one_byte32",
    "Verif.Xxh64.C96_seed64",
    "Verif.Xxh64.C96_seed32",
    "Verif.Xxh64.C96_keys64",
    "Verif.Xxh64.C96_keys32"
   ],
   "note": ""
  },
  {
   "property": "C97",
   "status": "proved",
   "theorems": [
    "Verif.Xxh64.C97_stream",
    "Verif.Xxh64.C97_pieces64",
    "Verif.Xxh64.C97_pieces32"
   ],
   "note": "For XXH64 fewer than 2^64 bytes."
  },
  {
   "property": "C98",
   "status": "proved",
   "theorems": [
    "Verif.Xxh64.C98_canonical64",
    "Verif.Xxh64.C98_canonical32",
    "Verif.Xxh64.C98_exchange64",
    "Verif.Xxh64.C98_exchange32",
    "Verif.Xxh64.C98_onto64",
    "Verif.Xxh64.C98_onto32",
    "Verif.Xxh64.C98_order64",
    "Verif.Xxh64.C98_order32"
   ],
   "note": ""
  },
  {
   "property": "C99",
   "status": "proved",
   "theorems": [
    "Verif.Flt.C99_text",
    "Verif.Flt.C99_unique",
    "Verif.Flt.C99_special",
    "Verif.Flt.C99_accuracy",
    "Verif.Flt.C99_denotes",
    "Verif.Flt.C99_monotone"
   ],
   "note": ""
  }
 ]
}