{
 "claims": [
  {
   "property": "C01",
   "status": "partial",
   "theorems": [
    "Trident.C01_field_roundtrip_partial",
    "Trident.C01_five_byte_field_violated"
   ],
   "note": "Proved for all widths and values below 2^39 (5 bytes) and 2^63 (8 bytes). The code misreads larger 5-byte values (C01_five_byte_field_violated)."
  },
  {
   "property": "C02",
   "status": "proved",
   "theorems": [
    "Trident.C02_varint_roundtrip",
    "Trident.C02_varint_roundtrip_mem"
   ],
   "note": "For all numbers and all following bytes; kognac's varint coder is modelled (not in /repo)."
  },
  {
   "property": "C03",
   "status": "proved",
   "theorems": [
    "Trident.C03_signature_roundtrip",
    "Trident.C03_signature_injective",
    "Trident.C03_aggregated_signature",
    "Trident.C03_fixed_strategies",
    "Trident.C03_getStrategy_violated"
   ],
   "note": "All selectable layouts and widths, the aggregated row signature and the fixed strategies. getStrategy itself ignores its second width (C03_getStrategy_violated), harmless for its only caller."
  },
  {
   "property": "C04",
   "status": "proved",
   "theorems": [
    "Trident.C04_chosen_layout_wide_enough",
    "Trident.C04_six_byte_ids_violated"
   ],
   "note": "For all sorted lists with 5-byte values, all configuration parameters. For six-byte ids the chosen field is too narrow (C04_six_byte_ids_violated)."
  },
  {
   "property": "C05",
   "status": "proved",
   "theorems": [
    "Trident.C05_row_scan"
   ],
   "note": "For all lists, widths and memories."
  },
  {
   "property": "C06",
   "status": "proved",
   "theorems": [
    "Trident.C06_cluster_scan"
   ],
   "note": "For all lists, widths, counter widths and memories."
  },
  {
   "property": "C07",
   "status": "proved",
   "theorems": [
    "Trident.C07_column_scan"
   ],
   "note": "For all lists of pairs (values and length below 2^56), all offload thresholds and all memories."
  },
  {
   "property": "C08",
   "status": "partial",
   "theorems": [
    "Trident.C08_any_layout_partial",
    "Trident.C08_layout_independence_partial",
    "Trident.C08_store_and_read_partial",
    "Trident.C08_large_ids_violated"
   ],
   "note": "End to end: choose the layout, write, read; all layouts, memories and constraints, ids below 2^39. False from 2^39 on, because 5-byte fields are misread (C08_large_ids_violated)."
  },
  {
   "property": "C09",
   "status": "proved",
   "theorems": [
    "Trident.C09_row_first_fixed"
   ],
   "note": "Non-empty tables (the code reads past an empty table)."
  },
  {
   "property": "C10",
   "status": "proved",
   "theorems": [
    "Trident.C10_row_both_fixed"
   ],
   "note": "Non-empty tables."
  },
  {
   "property": "C11",
   "status": "proved",
   "theorems": [
    "Trident.C11_cluster_first_fixed",
    "Trident.C11_cluster_both_fixed"
   ],
   "note": "First value fixed: any sorted list. Both fixed: sorted without duplicates."
  },
  {
   "property": "C12",
   "status": "proved",
   "theorems": [
    "Trident.C12_column_first_fixed",
    "Trident.C12_column_both_fixed"
   ],
   "note": "Sorted tables without duplicates, any pair of constants."
  },
  {
   "property": "C13",
   "status": "partial",
   "theorems": [
    "Trident.C13_cluster_seek",
    "Trident.C13_cluster_seek_after_reset",
    "Trident.C13_column_seek",
    "Trident.C13_column_seek_both",
    "Trident.C13_column_seek_first_partial",
    "Trident.C13_column_seek_after_reset",
    "Trident.C13_column_seek_first_violated",
    "Trident.C13_array_seek_after_reset_violated",
    "Trident.C13_row_seek",
    "Trident.C13_row_seek_after_reset_violated"
   ],
   "note": "All three layouts and rebuilt (array) tables. Right for every reachable position on full scans and lookups, except: row layout and rebuilt tables right after reset (witnesses proved); column layout with the first value fixed when seeking forward inside the group (C13_column_seek_first_violated)."
  },
  {
   "property": "C14",
   "status": "proved",
   "theorems": [
    "Trident.C14_cluster_mark_reset",
    "Trident.C14_column_mark_reset",
    "Trident.C14_array_scan",
    "Trident.C14_array_first",
    "Trident.C14_row_mark_reset"
   ],
   "note": "All three layouts and rebuilt tables; mark at any reachable position, any operations in between."
  },
  {
   "property": "C15",
   "status": "partial",
   "theorems": [
    "Trident.C15_cluster_distinct",
    "Trident.C15_column_distinct",
    "Trident.C15_array",
    "Trident.C15_array_seek_violated",
    "Trident.C15_row_distinct",
    "Trident.C15_row_seek_distinct_violated",
    "Trident.C15_row_late_ignore_violated"
   ],
   "note": "All three layouts, with seeks for cluster and column; rebuilt tables. Row: false after a seek in distinct mode and for a late ignoreSecondColumn; rebuilt tables: false after a seek."
  },
  {
   "property": "C16",
   "status": "partial",
   "theorems": [
    "Trident.C16_cluster_cardinality_partial",
    "Trident.C16_cluster_cardinality_distinct",
    "Trident.C16_cluster_both_fixed_violated",
    "Trident.C16_cluster_both_fixed_undefined",
    "Trident.C16_cluster_cardinality_breaks_iterator",
    "Trident.C16_column_cardinality_partial",
    "Trident.C16_column_cardinality_distinct",
    "Trident.C16_column_failed_lookup_violated",
    "Trident.C16_array",
    "Trident.C16_array_lookup_violated",
    "Trident.C16_row_cardinality",
    "Trident.C16_row_cardinality_distinct",
    "Trident.C16_row_cardinality_distinct_consumes"
   ],
   "note": "All three layouts and rebuilt tables. The call damages the iterator in row distinct mode and on fresh cluster iterators; it is wrong for cluster lookups with both values fixed, for column lookups that find nothing and for lookups in rebuilt tables (witnesses proved)."
  },
  {
   "property": "C17",
   "status": "proved",
   "theorems": [
    "Trident.C17_union",
    "Trident.C17_seek",
    "Trident.C17_seek_after_hasNext",
    "Trident.C17_tables",
    "Trident.C17_seek_back_after_hasNext_violated",
    "Trident.C17_distinct",
    "Trident.C17_distinct_seek",
    "Trident.C17_debug_assertion_violated"
   ],
   "note": "Union of any child iterators (array, tables of any layout, nested), sorted by key; seeks after next and, for tables, after hasNext; distinct mode with counts. Seeking backwards after hasNext loses the current element (C17_seek_back_after_hasNext_violated). Debug builds: an assertion fails with one child (C17_debug_assertion_violated)."
  },
  {
   "property": "C18",
   "status": "proved",
   "theorems": [
    "Trident.C18_difference",
    "Trident.C18_seek",
    "Trident.C18_scan_difference",
    "Trident.C18_distinct",
    "Trident.C18_seek_after_hasNext_violated"
   ],
   "note": "Difference of any child iterators, also on full scans; seeks right after next; distinct mode counts. A seek after hasNext is wrong (C18_seek_after_hasNext_violated)."
  },
  {
   "property": "C19",
   "status": "partial",
   "theorems": [
    "Trident.C19_additions",
    "Trident.C19_deletions",
    "Trident.C19_term_list_partial",
    "Trident.C19_added_keys_partial",
    "Trident.C19_deletions_violated",
    "Trident.C19_count_violated",
    "Trident.C19_key_lost_violated",
    "Trident.C19_key_kept_violated",
    "Trident.C19_stored_partial",
    "Trident.C19_absent_order_partial",
    "Trident.C19_absent_order_violated"
   ],
   "note": "Exact list for every history in which each update changes the set of keys (subjects, or additions only); keys exact and counts never too high after additions. False in general: stale counts, lost and kept keys, and deletions for other orders, all refuted with witnesses."
  },
  {
   "property": "C20",
   "status": "proved",
   "theorems": [
    "Trident.C20_bound_first",
    "Trident.C20_bound_first_joins",
    "Trident.C20_permute",
    "Trident.C20_roundtrip",
    "Trident.C20_order_arrays",
    "Trident.C20_injective"
   ],
   "note": "For all 8 shapes of pattern (and the shapes with join variables) the chosen order has the bound positions first, and permute/unpermute are inverse for all values."
  },
  {
   "property": "C21",
   "status": "partial",
   "theorems": [
    "Trident.C21_stored_partial",
    "Trident.C21_chosen_index_partial",
    "Trident.C21_load_then_query_partial",
    "Trident.C21_load_then_query_index_partial",
    "Trident.C21_empty_graph_violated"
   ],
   "note": "Proved from the input triples to the rows the iterator returns: load (any layouts, file size, skipping, 1/3/4/6 indices), map the files, query; orders that are read through another index are in C66_load_then_query. Missing: ids from 2^39 on and the empty graph, for which the claim is false (C08_large_ids_violated, C21_empty_graph_violated); aggregated tables."
  },
  {
   "property": "C22",
   "status": "proved",
   "theorems": [
    "Trident.C22_reversed",
    "Trident.C22_second_only_violated"
   ],
   "note": "Any partner iterator; first value or both optionally fixed. A second value fixed without a first is ignored (C22_second_only_violated)."
  },
  {
   "property": "C23",
   "status": "partial",
   "theorems": [
    "Trident.C23_add_stores_new_partial",
    "Trident.C23_del_stores_existing_partial",
    "Trident.C23_match"
   ],
   "note": "proved for stored non-empty graphs, ids below 2^32-1, batches below 2^24 and histories below 2^27 triples; the comparison itself (C23_match) has no limits; term ids are given (dictionary lookup is C51)"
  },
  {
   "property": "C24",
   "status": "partial",
   "theorems": [
    "Trident.C24_history_partial",
    "Trident.C24_load_update_query_partial",
    "Trident.C24_empty_base_violated"
   ],
   "note": "proved for non-empty stored graphs, ids below 2^32-1, batches below 2^24 and histories below 2^27 triples; the empty base graph and larger ids are proved violated"
  },
  {
   "property": "C25",
   "status": "partial",
   "theorems": [
    "Trident.C25_size",
    "Trident.C25_card_on_index_partial",
    "Trident.C25_get_card_partial",
    "Trident.C25_get_card_one_partial",
    "Trident.C25_three_indices_violated",
    "Trident.C25_skipped_tables_violated",
    "Trident.C25_deletions_counted_violated",
    "Trident.C25_memo_violated",
    "Trident.Python.C25_two_fixed_partial"
   ],
   "note": "The size of the graph is proved exact after any history, and the cardinalities of patterns with no, one or three fixed positions on a given index; with two fixed positions on stored graphs without updates (C25_two_fixed_partial). getCard is refuted for one fixed position (deletions are added, three indices or skipped tables give 0, answers are remembered by address)."
  },
  {
   "property": "C26",
   "status": "partial",
   "theorems": [
    "Trident.C26_merge_partial",
    "Trident.C26_update_after_merge_partial",
    "Trident.C26_addition_lost_violated",
    "Trident.C26_undefined_violated",
    "Trident.C26_added_back_violated",
    "Trident.C26_next_number_violated"
   ],
   "note": "proved when every request changes the set of subjects and no stored triple is added back after a deletion; C26_*_violated refute the four other cases"
  },
  {
   "property": "C27",
   "status": "partial",
   "theorems": [
    "Trident.C27_early_stop_partial",
    "Trident.C27_late_stop_partial",
    "Trident.C27_deletion_each_order_partial",
    "Trident.C27_addition_nonempty_partial",
    "Trident.C27_deletion_violated",
    "Trident.C27_addition_violated"
   ],
   "note": "Proved: stopping before the first tree shows the old content; stopping after the last step (for a deletion: after the three trees) shows the new content; every order shows the old or the new content of an interrupted deletion; an interrupted addition shows the old content to every query that has an answer. Proved false: the orders can disagree after an interrupted deletion; an interrupted addition is opened as a deletion and some queries become undefined. Not modelled: partially written tree files."
  },
  {
   "property": "C28",
   "status": "partial",
   "theorems": [
    "Trident.C28_before_renames_partial",
    "Trident.C28_crash_partial",
    "Trident.C28_between_renames_violated",
    "Trident.C28_stale_newdiff_violated"
   ],
   "note": "proved for every stop before the first rename (every history) and after the second (conditions of C26); C28_between_renames_violated and C28_stale_newdiff_violated refute the rest"
  },
  {
   "property": "C29",
   "status": "partial",
   "theorems": [
    "Trident.C29_tables_keep_pairs_partial",
    "Trident.C29_scan_keeps_triples_partial",
    "Trident.C29_blocks_fit_partial",
    "Trident.C29_large_id_violated",
    "Trident.C29_first_pair_violated"
   ],
   "note": "proved for ids below 2^32-1, fewer than 2^24 triples and files below 2 GiB; violations outside of the limits proved"
  },
  {
   "property": "C30",
   "status": "partial",
   "theorems": [
    "Trident.C30_map_partial",
    "Trident.C30_append_partial",
    "Trident.C30_odd_capacity_violated",
    "Trident.C30_negative_key_violated",
    "Trident.C30_reloaded_leaf_violated"
   ],
   "note": "get = last put for every history of non-negative keys and even capacities (append of increasing keys = put); refuted for odd capacities, negative keys and reloaded leaves."
  },
  {
   "property": "C31",
   "status": "partial",
   "theorems": [
    "Trident.C31_iteration_partial"
   ],
   "note": "The iterator returns the puts in increasing order, each key once with its last value, for every history of non-negative keys and even capacities."
  },
  {
   "property": "C32",
   "status": "partial",
   "theorems": [
    "Trident.C32_keys_partial",
    "Trident.C32_large_step_violated",
    "Trident.C32_written_twice_violated"
   ],
   "note": "Every node of every tree: keys are read back, unless they form a progression with step 128..255 (refuted); also refuted for nodes written a second time."
  },
  {
   "property": "C33",
   "status": "partial",
   "theorems": [
    "Trident.C33_coords_partial",
    "Trident.C33_numbers_partial",
    "Trident.C33_large_leaf_violated"
   ],
   "note": "Every leaf of every tree: keys and coordinates (or numbers) are read back if the leaf can be written; a leaf with over 65535 bytes of coordinates cannot (refuted)."
  },
  {
   "property": "C34",
   "status": "partial",
   "theorems": [
    "Trident.C34_exact_partial",
    "Trident.C34_replace_partial",
    "Trident.C34_replace_violated"
   ],
   "note": "Exact content after any history; replaced if the new coordinates cover the old ones beyond their first permutation; refuted otherwise."
  },
  {
   "property": "C35",
   "status": "partial",
   "theorems": [
    "Trident.SPool.C35_get_partial",
    "Trident.SPool.C35_end_of_block_violated"
   ],
   "note": "Proved for every sequence of strings and block size from 4 to 2^28 if the pool does not end at the end of a block or another string follows; refuted for the last string at the end of a block."
  },
  {
   "property": "C36",
   "status": "proved",
   "theorems": [
    "Trident.SPool.C36_cmp"
   ],
   "note": "For every stored string and argument; for a reopened pool see C37_reopen_partial."
  },
  {
   "property": "C37",
   "status": "partial",
   "theorems": [
    "Trident.SPool.C37_reopen_partial",
    "Trident.SPool.C37_lost_violated",
    "Trident.SPool.C37_previous_block_violated"
   ],
   "note": "Proved if the size is not a multiple of the block size; refuted otherwise."
  },
  {
   "property": "C38",
   "status": "proved",
   "theorems": [
    "Trident.SPool.C38_order",
    "Trident.SPool.C38_complete"
   ],
   "note": "Transition system of both threads with spurious wake-ups; LZ4 is taken to be lossless."
  },
  {
   "property": "C39",
   "status": "partial",
   "theorems": [
    "Trident.SPool.C39_close_partial",
    "Trident.SPool.C39_lost_finish_violated",
    "Trident.SPool.C39_lost_end_violated"
   ],
   "note": "Refuted by two lost notifications; proved that hand-overs return and that these two are the only ways to hang."
  },
  {
   "property": "C40",
   "status": "partial",
   "theorems": [
    "Trident.Dict.C40_inverse_partial",
    "Trident.Dict.C40_distinct_partial",
    "Trident.Dict.C40_loaded_partial",
    "Trident.Dict.C40_add_partial",
    "Trident.Dict.C40_merge_partial",
    "Trident.Dict.C40_merge_violated"
   ],
   "note": "missing: merging after small additions (false), terms with white space in small additions (C41), pools that end at a block boundary (C35), the text-keyed tree (taken as a map)"
  },
  {
   "property": "C41",
   "status": "partial",
   "theorems": [
    "Trident.Dict.C41_restart_partial",
    "Trident.Dict.C41_space_violated",
    "Trident.Dict.C41_number_violated"
   ],
   "note": "proved for terms without white space; false for others"
  },
  {
   "property": "C42",
   "status": "proved",
   "theorems": [
    "Trident.C42_marks_locate_tables",
    "Trident.C42_marks_list_tables",
    "Trident.C42_marks_in_parts"
   ],
   "note": "Every table is found at its mark, the iterator over marks lists all tables, and marks stored in parts give the same file. Field limits (positions and keys below 2^40) are hypotheses."
  },
  {
   "property": "C43",
   "status": "proved",
   "theorems": [
    "Trident.NodeStore.C43_last_write",
    "Trident.NodeStore.C43_total",
    "Trident.NodeStore.C43_disjoint",
    "Trident.NodeStore.C43_reopened",
    "Trident.NodeStore.C43_compacted"
   ],
   "note": "Model of NodeManager. Every history of writes; also the index written on closing and the compaction, within 32-bit limits and for dense node numbers."
  },
  {
   "property": "C44",
   "status": "proved",
   "theorems": [
    "Trident.Files.C44_accounting",
    "Trident.Files.C44_eviction",
    "Trident.Files.C44_limit"
   ],
   "note": "Accounting and eviction over every history of the memory manager."
  },
  {
   "property": "C45",
   "status": "proved",
   "theorems": [
    "Trident.Files.C45_distinct",
    "Trident.Files.C45_full"
   ],
   "note": "Every history of the file manager."
  },
  {
   "property": "C46",
   "status": "partial",
   "theorems": [
    "Trident.Join.C46_join_partial",
    "Trident.Join.C46_projection_violated",
    "Trident.Join.C46_shared_violated"
   ],
   "note": "Proved for two or more inputs that each share one or two variables with those before and projections that keep a prefix of the new columns of the last input; refuted otherwise."
  },
  {
   "property": "C47",
   "status": "partial",
   "theorems": [
    "Trident.Par.C47_covers_partial",
    "Trident.Par.C47_begin_violated",
    "Trident.Par.C47_twice_violated"
   ],
   "note": "Holds for loops that start at 0; refuted for every other start."
  },
  {
   "property": "C48",
   "status": "proved",
   "theorems": [
    "Trident.PermSorter.C48_order",
    "Trident.PermSorter.C48_decode",
    "Trident.PermSorter.C48_order_count",
    "Trident.PermSorter.C48_decode_count"
   ],
   "note": "Records of 15 and of 23 bytes."
  },
  {
   "property": "C49",
   "status": "proved",
   "theorems": [
    "Trident.C49_inserter"
   ],
   "note": "For sorted rows with repetitions, any layout strategy, any file size limit, with and without skipping of small tables; ids below 2^39 (see C01) and fewer than 2^32 rows."
  },
  {
   "property": "C50",
   "status": "partial",
   "theorems": [
    "Trident.C50_lookup_partial",
    "Trident.C50_iteration_partial",
    "Trident.C50_query_partial",
    "Trident.C50_range_violated",
    "Trident.C50_page_violated",
    "Trident.C50_three_violated"
   ],
   "note": "Lookup, iteration and queries with the flat tree agree with the ordinary tree for every labelled graph with six orders, if some SOP table is written, there are at most 16384 files per order, the id is at most the largest one, and the file does not end within three bytes of the end of a page (or the largest id is no predicate). Missing: the excluded cases are false (see the violations); unlabelled graphs store positions of bytes instead (model only)."
  },
  {
   "property": "C51",
   "status": "partial",
   "theorems": [
    "Trident.Dict.C51_add_partial",
    "Trident.Dict.C51_delete_partial",
    "Trident.Dict.C51_delete_violated"
   ],
   "note": "missing: empty terms, zero bytes in subjects; for deletions unknown terms that are twice in a column (false)"
  },
  {
   "property": "C52",
   "status": "partial",
   "theorems": [
    "Trident.PermSorter.C52_sort_partial",
    "Trident.PermSorter.C52_permute",
    "Trident.PermSorter.C52_filler_violated",
    "Trident.PermSorter.C52_threads_violated"
   ],
   "note": "For ids up to 4311810305 and thread counts that are multiples of the number of readers; both limits are shown to be needed by counterexamples."
  },
  {
   "property": "C53",
   "status": "proved",
   "theorems": [
    "Trident.C53_merge_entries",
    "Trident.C53_partner_needed"
   ],
   "note": "Including the 23-byte records between the inserter and the merge. The condition on the partners is established for every load in C21_load_then_query_partial; C53_partner_needed shows that it is needed."
  },
  {
   "property": "C54",
   "status": "proved",
   "theorems": [
    "Trident.C54_chained_permutations",
    "Trident.C54_rows"
   ],
   "note": "For every sequence of permutations that has PSO at most at the end, as in the loader."
  },
  {
   "property": "C55",
   "status": "proved",
   "theorems": [
    "Trident.Files.C55_held",
    "Trident.Files.C55_read_only",
    "Trident.Files.C55_read_only_returns"
   ],
   "note": "Every history of sessions and reads."
  },
  {
   "property": "C56",
   "status": "proved",
   "theorems": [
    "Trident.Par.C56_sort"
   ],
   "note": "For every strict weak order and number of threads, given that std::sort sorts."
  },
  {
   "property": "C57",
   "status": "proved",
   "theorems": [
    "Trident.Par.C57_fifo",
    "Trident.Par.C57_no_lost_wakeup"
   ],
   "note": "Transition system with any number of consumers; safety and no lost wake-up."
  },
  {
   "property": "C58",
   "status": "partial",
   "theorems": [
    "Trident.Files.C58_returns_partial",
    "Trident.Files.C58_all_locked_violated",
    "Trident.Files.C58_full_violated"
   ],
   "note": "Returns if enough memory is unlocked and a slot is free; refuted if all blocks are locked or all slots are used."
  },
  {
   "property": "C59",
   "status": "partial",
   "theorems": [
    "Trident.Join.C59_scan_partial",
    "Trident.Join.C59_tuple_partial",
    "Trident.Join.C59_repeated_violated",
    "Trident.Join.C59_repeated_lost_violated",
    "Trident.Join.C59_unset_violated"
   ],
   "note": "The scan of a pattern with different names, and the tuple iterator with repeated variables where the compared positions are set, over any querier that answers queries (shown for stored and updated graphs). Refuted: repeated names in a scan; unset positions."
  },
  {
   "property": "C60",
   "status": "partial",
   "theorems": [
    "Trident.Join.C60_sorted_partial",
    "Trident.Join.C60_three_columns_violated"
   ],
   "note": "At most two columns, or all three in the order of SPO, POS or OPS. Refuted for the other three orders."
  },
  {
   "property": "C61",
   "status": "partial",
   "theorems": [
    "Trident.Join.C61_patterns_partial"
   ],
   "note": "Under the conditions of C46 and C59: each pattern shares one or two variables with the previous ones, different names within a pattern."
  },
  {
   "property": "C62",
   "status": "partial",
   "theorems": [
    "Trident.Join.Table.C62_merge",
    "Trident.Join.Table.C62_union",
    "Trident.Join.Table.C62_retain_partial",
    "Trident.Join.Table.C62_difference_partial",
    "Trident.Join.Table.C62_difference_violated",
    "Trident.Join.Table.C62_difference_first_violated",
    "Trident.Join.Table.C62_empty_violated"
   ],
   "note": "Union proved. Difference: nothing only in the first table is lost and nothing invented for any tables; exact if the last row of each table is not in the other. Refuted at the ends of the tables, and for the flag that says whether the result is empty."
  },
  {
   "property": "C63",
   "status": "partial",
   "theorems": [
    "Trident.Join.Table.C63_join_partial",
    "Trident.Join.Table.C63_size_partial",
    "Trident.Join.Table.C63_sortBy_partial",
    "Trident.Join.Table.C63_sort_then_join",
    "Trident.Join.Table.C63_unsorted_violated"
   ],
   "note": "Tables sorted by the shared columns, and any tables after sortBy. Refuted for tables that are not sorted."
  },
  {
   "property": "C64",
   "status": "proved",
   "theorems": [
    "Trident.Join.Table.C64_rows",
    "Trident.Join.Table.C64_runs",
    "Trident.Join.Table.C64_no_columns",
    "Trident.Join.Table.C64_runs_exist"
   ],
   "note": "Tables of at most 2^32 rows: the row number is a 32-bit argument."
  },
  {
   "property": "C65",
   "status": "partial",
   "theorems": [
    "Trident.PermSorter.C65_feed_partial"
   ],
   "note": "Same limits as C52. FileMerger is taken by its specification."
  },
  {
   "property": "C66",
   "status": "partial",
   "theorems": [
    "Trident.C66_absent_order",
    "Trident.C66_load_then_query",
    "Trident.C66_updates_partial",
    "Trident.C66_updates_violated",
    "Trident.C66_goto_key_partial",
    "Trident.C66_goto_key_past_end_violated"
   ],
   "note": "Proved for all graphs, patterns, orders and 1/3/4/6 stored orders from the input triples on (C66_load_then_query); the term list jump is only used as far as proved in C68. With updates: proved for patterns with free subject and predicate or with fixed subject (except fixed subject and object with free predicate); refuted for fixed predicate and free subject."
  },
  {
   "property": "C68",
   "status": "partial",
   "theorems": [
    "Trident.Load.C68_jump_partial",
    "Trident.Load.C68_jump_violated",
    "Trident.C68_scan_jump_after_hasNext_violated"
   ],
   "note": "The safe half is proved at byte level after any calls: nothing from k on is left out, and the end is found. The other half is refuted."
  },
  {
   "property": "C67",
   "status": "partial",
   "theorems": [
    "Trident.Sparql.C67_aggregates_partial",
    "Trident.Sparql.C67_groups",
    "Trident.Sparql.C67_mixed_sum",
    "Trident.Sparql.C67_mixed_min",
    "Trident.Sparql.C67_mixed_max",
    "Trident.Sparql.C67_last_group_violated",
    "Trident.Sparql.C67_sum_multiplicity_violated",
    "Trident.Sparql.C67_distinct_violated",
    "Trident.Sparql.C67_decimal_violated",
    "Trident.Sparql.C67_negative_violated",
    "Trident.Sparql.C67_average_violated",
    "Trident.Sparql.C67_group_variable_violated",
    "Trident.Sparql.C67_empty_violated"
   ],
   "note": "One row per group with the right COUNT, SUM, MIN, MAX and integer AVG is proved for integer arguments without DISTINCT when the last group has two rows or is the only one. The remaining cases are refuted by witnesses."
  },
  {
   "property": "C69",
   "status": "partial",
   "theorems": [
    "Trident.Sparql.Hash.C69_join",
    "Trident.Sparql.Hash.C69_left_optional_partial",
    "Trident.Sparql.Hash.C69_left_optional_violated",
    "Trident.Sparql.Hash.C69_right_optional_violated",
    "Trident.Sparql.Hash.C69_right_optional_empty_violated"
   ],
   "note": "The inner join is proved in full, with termination. With the left side optional everything but the join variable is proved. The rest of OPTIONAL is refuted by witnesses."
  },
  {
   "property": "C70",
   "status": "partial",
   "theorems": [
    "Trident.Sparql.Merge.C70_join",
    "Trident.Sparql.Merge.C70_order",
    "Trident.Sparql.Merge.C70_skipping",
    "Trident.Sparql.Merge.C70_optional_block_violated",
    "Trident.Sparql.Merge.C70_optional_buffer_violated",
    "Trident.Sparql.Merge.C70_optional_skipping_violated",
    "Trident.Sparql.Merge.C70_optional_endless_violated",
    "Trident.Sparql.Merge.C70_left_optional_violated"
   ],
   "note": "Inner joins are proved for all sorted inputs and all skipping. OPTIONAL is refuted by witnesses."
  },
  {
   "property": "C71",
   "status": "partial",
   "theorems": [
    "Trident.Sparql.Union.C71_union",
    "Trident.Sparql.MergeUnion.C71_merge_union_partial",
    "Trident.Sparql.MergeUnion.C71_merge_union_values",
    "Trident.Sparql.MergeUnion.C71_merge_union_sorted",
    "Trident.Sparql.MergeUnion.C71_merge_union_violated"
   ],
   "note": "The general operator is proved. For `MergeUnion` the values and the order are proved; the number of occurrences is refuted and proved for the case without the repetition."
  },
  {
   "property": "C72",
   "status": "proved",
   "theorems": [
    "Trident.Sparql.Distinct.C72_distinct"
   ],
   "note": ""
  },
  {
   "property": "C73",
   "status": "partial",
   "theorems": [
    "Trident.Sparql.Limit.C73_subquery",
    "Trident.Sparql.Limit.C73_print",
    "Trident.Sparql.Limit.C73_print_all_partial",
    "Trident.Sparql.Limit.C73_print_all_violated",
    "Trident.Sparql.Limit.C73_count",
    "Trident.Sparql.Limit.C73_json_partial",
    "Trident.Sparql.Limit.C73_distinct_partial",
    "Trident.Sparql.Limit.C73_json_limit_violated",
    "Trident.Sparql.Limit.C73_distinct_offset_violated",
    "Trident.Sparql.Limit.C73_distinct_count_violated"
   ],
   "note": "Subqueries, text output and counting are proved. JSON is proved for rows that occur once, DISTINCT without offset; the rest is refuted."
  },
  {
   "property": "C74",
   "status": "partial",
   "theorems": [
    "Trident.Sparql.Algebra.C74_minus_partial",
    "Trident.Sparql.Algebra.C74_minus_disjoint_violated",
    "Trident.Sparql.Algebra.C74_minus_unbound_violated"
   ],
   "note": "Proved if there are common variables and all solutions bind them; both other cases are refuted."
  },
  {
   "property": "C75",
   "status": "partial",
   "theorems": [
    "Trident.Sparql.Algebra.C75_values_partial",
    "Trident.Sparql.Algebra.C75_values_violated",
    "Trident.Sparql.Algebra.C75_bind_partial",
    "Trident.Sparql.Algebra.C75_bind_violated"
   ],
   "note": "VALUES is proved for one variable, BIND for rows that occur once; the rest is refuted."
  },
  {
   "property": "C76",
   "status": "partial",
   "theorems": [
    "Trident.Sparql.Algebra.C76_product",
    "Trident.Sparql.Algebra.C76_left_optional",
    "Trident.Sparql.Algebra.C76_right_optional_partial",
    "Trident.Sparql.Algebra.C76_right_optional_violated",
    "Trident.Sparql.Algebra.C76_nested_loop"
   ],
   "note": "Products, nested loops and an OPTIONAL left side are proved; for an OPTIONAL right side the first row is refuted."
  },
  {
   "property": "C77",
   "status": "proved",
   "theorems": [
    "Trident.Sparql.Domain.C77_observed",
    "Trident.Sparql.Domain.C77_start",
    "Trident.Sparql.Domain.C77_restrict",
    "Trident.Sparql.Domain.C77_sync",
    "Trident.Sparql.Domain.C77_next_sound",
    "Trident.Sparql.Domain.C77_next",
    "Trident.Sparql.Domain.C77_next_violated",
    "Trident.Sparql.Hint.C77_hint3",
    "Trident.Sparql.Hint.C77_hint2",
    "Trident.Sparql.Hint.C77_scan3",
    "Trident.Sparql.Hint.C77_scan2"
   ],
   "note": "All parts are proved; the order of the next candidate fails only at the end of the 64 bit range, where it is harmless."
  },
  {
   "property": "C78",
   "status": "partial",
   "theorems": [
    "Trident.Sparql.Plan.C78_plan_partial",
    "Trident.Sparql.Plan.C78_same",
    "Trident.Sparql.Plan.C78_runs",
    "Trident.Sparql.Plan.C78_union_violated",
    "Trident.Sparql.Plan.C78_optional_violated"
   ],
   "note": "Proved for all trees of scans and hash joins; UNION and OPTIONAL are refuted by witnesses."
  },
  {
   "property": "C79",
   "status": "partial",
   "theorems": [
    "Trident.Sparql.Select.C79_check_partial",
    "Trident.Sparql.Select.C79_filter_partial",
    "Trident.Sparql.Select.C79_start",
    "Trident.Sparql.Select.C79_integers",
    "Trident.Sparql.Select.C79_less_violated",
    "Trident.Sparql.Select.C79_long_id_violated",
    "Trident.Sparql.Select.C79_unknown_violated",
    "Trident.Sparql.Select.C79_unbound_violated",
    "Trident.Sparql.Select.C79_bound_violated",
    "Trident.Sparql.Select.C79_literal_iri_violated",
    "Trident.Sparql.Select.C79_contains_violated",
    "Trident.Sparql.Select.C79_blank_violated",
    "Trident.Sparql.Select.C79_datatype_violated",
    "Trident.Sparql.Select.C79_negative_violated",
    "Trident.Sparql.Select.C79_exception_violated",
    "Trident.Sparql.Select.C79_equal_numbers_violated",
    "Trident.Sparql.Select.C79_decimals_violated",
    "Trident.Sparql.Select.C79_strings_violated",
    "Trident.Sparql.Select.C79_unknown_order_violated",
    "Trident.Sparql.Select.C79_nan_violated"
   ],
   "note": "Proved for bound values and stored constants with ids below 2^32 - 1; the other cases are refuted by witnesses. Arithmetic, str, regex and replace are not modelled."
  },
  {
   "property": "C80",
   "status": "partial",
   "theorems": [
    "Trident.Sparql.Parse.C80_tokens",
    "Trident.Sparql.Parse.C80_where_partial",
    "Trident.Sparql.Parse.C80_printed_partial",
    "Trident.Sparql.Parse.C80_blank_nodes_violated",
    "Trident.Sparql.Parse.C80_nested_minus_violated",
    "Trident.Sparql.Parse.C80_nested_values_violated",
    "Trident.Sparql.Parse.C80_nested_filter_violated",
    "Trident.Sparql.Parse.C80_filter_subject_violated",
    "Trident.Sparql.Parse.C80_variable_word_violated",
    "Trident.Sparql.Parse.C80_values_violated",
    "Trident.Sparql.Parse.C80_numbers_violated",
    "Trident.Sparql.Parse.C80_escapes_violated",
    "Trident.Sparql.Parse.C80_order_violated"
   ],
   "note": "Proved for triple patterns, OPTIONAL, UNION, MINUS, VALUES, FILTER (conditions as in C83) and nested groups without MINUS, VALUES and FILTER; the order between the kinds of parts is not kept. BIND, subqueries, property lists in brackets and the parts outside of WHERE are not modelled; the failing cases are refuted by witnesses."
  },
  {
   "property": "C81",
   "status": "partial",
   "theorems": [
    "Trident.Sparql.Parse.C81_iri",
    "Trident.Sparql.Parse.C81_literal_partial",
    "Trident.Sparql.Parse.C81_literal_iri_violated",
    "Trident.Sparql.Parse.C81_literal_blank_violated",
    "Trident.Sparql.Parse.C81_language_violated",
    "Trident.Sparql.Parse.C81_language_never_violated",
    "Trident.Sparql.Parse.C81_type_violated"
   ],
   "note": "Proved for IRIs, and for literals without type or with integer, decimal, double, boolean or date whose text does not begin with <, _ or a quote. The other cases are refuted."
  },
  {
   "property": "C82",
   "status": "partial",
   "theorems": [
    "Trident.Sparql.Analysis.C82_unknown_partial",
    "Trident.Sparql.Analysis.C82_values_violated",
    "Trident.Sparql.Analysis.C82_not_exists_violated"
   ],
   "note": "Proved for triple patterns, OPTIONAL, UNION and MINUS at any depth, and for VALUES and NOT EXISTS with known terms; unknown terms there are refuted. Other filters, BIND and subqueries are not modelled here."
  },
  {
   "property": "C83",
   "status": "partial",
   "theorems": [
    "Trident.Sparql.Parse.C83_filter_partial",
    "Trident.Sparql.Parse.C83_bind_partial",
    "Trident.Sparql.Parse.C83_unambiguous_partial",
    "Trident.Sparql.Parse.C83_prologue",
    "Trident.Sparql.Parse.C83_in_violated",
    "Trident.Sparql.Parse.C83_not_in_empty_violated",
    "Trident.Sparql.Parse.C83_not_in_violated",
    "Trident.Sparql.Parse.C83_exists_violated",
    "Trident.Sparql.Parse.C83_empty_prefix_violated",
    "Trident.Sparql.Parse.C83_numbers_violated",
    "Trident.Sparql.Parse.C83_function_prefix_violated",
    "Trident.Sparql.Parse.C83_comparisons_violated"
   ],
   "note": "Proved for all operators, brackets, strings, numbers, truth values, prefixed names, functions and casts of the grammar except IN, NOT IN, EXISTS and aggregates, which are refuted or not modelled."
  },
  {
   "property": "C84",
   "status": "partial",
   "theorems": [
    "Trident.Sparql.Parse.C84_condition_partial",
    "Trident.Sparql.Parse.C84_filter_partial",
    "Trident.Sparql.Parse.C84_values_violated",
    "Trident.Sparql.Parse.C84_optional_violated",
    "Trident.Sparql.Parse.C84_order_violated",
    "Trident.Sparql.Parse.C84_value_violated"
   ],
   "note": "Proved for &&, ||, !, comparisons, IN, sameTerm, bound, isIRI and isLiteral on bound variables, for integers, floats, dates and strings; constants of order comparisons must be stored. What is missing is refuted here, in C79 and in C81, or is listed there as not modelled."
  },
  {
   "property": "C85",
   "status": "partial",
   "theorems": [
    "Trident.Sparql.PlanGen.C85_answers_partial",
    "Trident.Sparql.PlanGen.C85_repeated_violated",
    "Trident.Sparql.PlanGen.C85_constant_violated",
    "Trident.Sparql.PlanGen.C85_wide_violated",
    "Trident.Sparql.PlanGen.C85_empty_violated"
   ],
   "note": "Proved for all groups of 1 to 64 triple patterns without repeated variable inside one pattern, with conditions that depend on their variables only and can be evaluated for the values that single patterns give them, and all estimates for which a scan costs the same with and without guaranteed order (as TridentLayer::getScanCost). The excluded cases are refuted. Other parts of groups are not modelled. Patterns with a constant and two variables that are nowhere else are excluded (C85_constant_violated)."
  },
  {
   "property": "C86",
   "status": "partial",
   "theorems": [
    "Trident.Sparql.Parse.C86_print_partial",
    "Trident.Sparql.Parse.C86_print_distinct_partial",
    "Trident.Sparql.Parse.C86_blank_violated",
    "Trident.Sparql.Parse.C86_select_partial",
    "Trident.Sparql.Parse.C86_distinct_partial",
    "Trident.Sparql.Parse.C86_tail",
    "Trident.Sparql.Parse.C86_limit_zero_violated",
    "Trident.Sparql.Parse.C86_where_violated",
    "Trident.Sparql.Parse.C86_offset_twice_violated",
    "Trident.Sparql.Parse.C86_constant_violated",
    "Trident.Sparql.Parse.C86_load_select_partial",
    "Trident.Sparql.Parse.C86_load_distinct_partial"
   ],
   "note": "Proved for groups of 1 to 64 triple patterns without repeated variable inside one pattern and conditions made of ||, &&, !, comparisons, sameTerm, isIRI, isLiteral, bound and IN that have a value on the terms of single patterns; constants as in C81 and C84; columns of the group; less than 2^32 answers without LIMIT; DISTINCT without OFFSET. C86_load_* are the same over the store that the loader writes with three or six indices. Triple patterns with a constant and two variables that are nowhere else are excluded (C86_constant_violated)."
  },
  {
   "property": "C87",
   "status": "partial",
   "theorems": [
    "Trident.Sparql.PlanGen.C87_scan",
    "Trident.Sparql.PlanGen.C87_skip_last",
    "Trident.Sparql.PlanGen.C87_skip_last_two",
    "Trident.Sparql.PlanGen.C87_answers_partial",
    "Trident.Sparql.PlanGen.C87_aggregated_partial",
    "Trident.Sparql.PlanGen.C87_load_then_query_partial",
    "Trident.Sparql.PlanGen.C87_absent_order_violated",
    "Trident.Sparql.PlanGen.C87_addition_violated"
   ],
   "note": "C87_scan, C87_skip_last and C87_skip_last_two: every scan of a pattern without repeated variables. C87_load_then_query_partial: from loading with three or six indices to the output, for all queries of C85. Refuted for one or two indices (C87_absent_order_violated) and after updates (C87_addition_violated), where counts of aggregated scans are wrong; C87_answers_partial covers these for queries without aggregated scans. Hints are in C68, C77 and C78."
  },
  {
   "property": "C88",
   "status": "partial",
   "theorems": [
    "Trident.C88_stored_partial"
   ],
   "note": "C88_stored_partial: stores without updates. Missing: updates (the merged iterators with an ignored column)."
  },
  {
   "property": "C89",
   "status": "partial",
   "theorems": [
    "Trident.Sparql.OrderBy.C89_sort_partial",
    "Trident.Sparql.OrderBy.C89_keys",
    "Trident.Sparql.OrderBy.C89_stale_violated",
    "Trident.Sparql.OrderBy.C89_short_violated",
    "Trident.Sparql.OrderBy.C89_count_violated",
    "Trident.Sparql.OrderBy.C89_absent_violated",
    "Trident.Sparql.OrderBy.C89_mixed_violated",
    "Trident.Sparql.OrderBy.C89_terms_violated",
    "Trident.Sparql.Parse.C89_query_partial",
    "Trident.Sparql.Parse.C89_query_distinct_partial",
    "Trident.Sparql.Parse.C89_load_partial",
    "Trident.Sparql.Parse.C89_distinct_violated",
    "Trident.Sparql.Parse.C89_expression_violated",
    "Trident.Sparql.Parse.C89_star_violated",
    "Trident.Sparql.Parse.C89_null_violated",
    "Trident.Sparql.Parse.C89_print_partial"
   ],
   "note": "C89_sort_partial: rows whose sorted columns have terms or computed integers, when the last text that was looked up is not an IRI. C89_query_partial, C89_query_distinct_partial and C89_load_partial: whole texts with ORDER BY over variables of the group, with or without ASC and DESC, for the queries of C86. The missing part is false (C89_*_violated)."
  },
  {
   "property": "C90",
   "status": "partial",
   "theorems": [
    "Trident.Http.C90_write_partial",
    "Trident.Http.C90_always_json",
    "Trident.Http.C90_empty_violated",
    "Trident.Http.C90_mixed_violated"
   ],
   "note": "C90_write_partial: documents without empty arrays and without arrays that mix texts with objects; for those it is false (C90_empty_violated, C90_mixed_violated). C90_always_json: whatever was called, what is written is JSON."
  },
  {
   "property": "C91",
   "status": "partial",
   "theorems": [
    "Trident.Http.C91_read_partial",
    "Trident.Http.C91_zero_violated",
    "Trident.Http.C91_nested_violated",
    "Trident.Http.C91_mixed_violated",
    "Trident.Http.C91_integer_violated"
   ],
   "note": "C91_read_partial: documents without zero bytes, empty arrays, arrays in arrays and mixed arrays; for those it is false (C91_*_violated, C90_empty_violated)."
  },
  {
   "property": "C92",
   "status": "partial",
   "theorems": [
    "Trident.Sparql.Parse.C92_select_partial",
    "Trident.Sparql.Parse.C92_distinct_partial",
    "Trident.Sparql.Parse.C92_load_select_partial",
    "Trident.Sparql.Parse.C92_empty_violated",
    "Trident.Sparql.Parse.C92_blank_violated",
    "Trident.Sparql.Parse.C92_iri_violated",
    "Trident.Sparql.Parse.C92_unbound_violated"
   ],
   "note": "C92_select_partial (without LIMIT, at least one answer after OFFSET), C92_distinct_partial (with LIMIT, without OFFSET) and C92_load_select_partial (over a loaded store), without blank nodes and the empty IRI. What is missing beyond C86 is false (C92_*_violated, C73_json_limit_violated)."
  },
  {
   "property": "C93",
   "status": "proved",
   "theorems": [
    "Trident.Http.C93_escape",
    "Trident.Http.C93_unescape",
    "Trident.Http.C93_injective"
   ],
   "note": "C93_escape, C93_unescape and C93_injective."
  },
  {
   "property": "C94",
   "status": "partial",
   "theorems": [
    "Trident.Http.C94_query_partial",
    "Trident.Http.C94_print_partial",
    "Trident.Http.C94_post_partial",
    "Trident.Http.C94_plus_violated",
    "Trident.Http.C94_lines_violated",
    "Trident.Http.C94_name_violated"
   ],
   "note": "C94_query_partial (any client), C94_print_partial and C94_post_partial (the client of this code base) for queries without '+' and without CR LF. The rest is false (C94_*_violated)."
  },
  {
   "property": "C95",
   "status": "partial",
   "theorems": [
    "Trident.Http.C95_one_partial",
    "Trident.Http.C95_long_partial",
    "Trident.Http.C95_parts_violated",
    "Trident.Http.C95_case_violated",
    "Trident.Http.C95_space_violated",
    "Trident.Http.C95_post_partial"
   ],
   "note": "C95_one_partial (at most 1024 bytes, read at once), C95_post_partial (the requests of the client), C95_long_partial (longer requests, at most four bytes are missing). The rest is false (C95_*_violated)."
  },
  {
   "property": "C96",
   "status": "partial",
   "theorems": [
    "Trident.Http.C96_send_partial",
    "Trident.Http.C96_end_partial",
    "Trident.Http.C96_error_violated"
   ],
   "note": "C96_send_partial and C96_end_partial if no send fails; false otherwise (C96_error_violated)."
  },
  {
   "property": "C97",
   "status": "partial",
   "theorems": [
    "Trident.Http.C97_length_partial",
    "Trident.Http.C97_chunks_partial",
    "Trident.Http.C97_pieces_partial",
    "Trident.Http.C97_headers_violated",
    "Trident.Http.C97_chunks_violated"
   ],
   "note": "C97_length_partial: a body of known length, however it comes. C97_chunks_partial and C97_pieces_partial: a body in chunks, if no buffer ends in or just before the line with the length of a chunk. False of other buffers (C97_chunks_violated) and of headers that do not come at once (C97_headers_violated)."
  },
  {
   "property": "C98",
   "status": "partial",
   "theorems": [
    "Trident.Http.C98_exchange_partial",
    "Trident.Http.C98_possible_partial",
    "Trident.Http.C98_line_violated",
    "Trident.Sparql.Parse.C98_query_partial"
   ],
   "note": "C98_exchange_partial, C98_possible_partial and C98_query_partial: requests of at most 1024 bytes that are read at once, no failing send, the headers of the response in the first buffer. Other schedules are false (C95 to C97)."
  },
  {
   "property": "C99",
   "status": "partial",
   "theorems": [
    "Trident.Python.C99_s",
    "Trident.Python.C99_o",
    "Trident.Python.C99_po",
    "Trident.Python.C99_ps",
    "Trident.Python.C99_os",
    "Trident.Python.C99_all",
    "Trident.Python.C99_s_itr",
    "Trident.Python.C99_s_from_o_partial",
    "Trident.Python.C99_o_from_s_partial",
    "Trident.Python.C99_o_from_p_partial",
    "Trident.Python.C99_terms"
   ],
   "note": "C99_s, C99_o, C99_po, C99_ps, C99_os, C99_all, C99_s_itr for stored graphs and after updates; C99_terms over what getTermList returns; the aggregated lookups on stored graphs without updates (C99_*_partial)."
  },
  {
   "property": "C100",
   "status": "partial",
   "theorems": [
    "Trident.Python.C100_counts",
    "Trident.Python.C100_pairs_partial"
   ],
   "note": "C100_counts after any history of updates; C100_pairs_partial for two terms on stored graphs without updates."
  },
  {
   "property": "C101",
   "status": "partial",
   "theorems": [
    "Trident.Python.C101_join_partial",
    "Trident.Python.C101_exists_query",
    "Trident.Python.C101_join_unbound_violated"
   ],
   "note": "C101_exists_query, and C101_join_partial if both first values are fixed; false otherwise (C101_join_unbound_violated)."
  },
  {
   "property": "C102",
   "status": "partial",
   "theorems": [
    "Trident.Python.C102_degrees_partial",
    "Trident.Python.C102_ntriples_partial",
    "Trident.Python.C102_updates_violated",
    "Trident.Python.C102_one_index_violated"
   ],
   "note": "C102_degrees_partial (six indices, no updates), C102_ntriples_partial (no updates). The rest is false (C102_*_violated)."
  },
  {
   "property": "C103",
   "status": "partial",
   "theorems": [
    "Trident.Python.C103_open_partial",
    "Trident.Python.C103_load_partial",
    "Trident.Python.C103_sparql_violated"
   ],
   "note": "C103_open_partial and C103_load_partial (lookups). False of sparql after load (C103_sparql_violated)."
  },
  {
   "property": "C104",
   "status": "partial",
   "theorems": [
    "Trident.Sparql.PlanGen.C104_load_union_partial",
    "Trident.Sparql.PlanGen.C104_shown",
    "Trident.Sparql.PlanGen.C104_union_partial",
    "Trident.Sparql.PlanGen.C104_unbound_violated",
    "Trident.Sparql.PlanGen.C104_empty_violated",
    "Trident.Sparql.PlanGen.C104_unknown_violated"
   ],
   "note": "C104_union_partial and C104_shown: the answers, if every variable of the filters of the group is in all alternatives or none. C104_load_union_partial: the same with the scans of a loaded store. Missing: queries in which UNION is joined with other patterns. False for unbound variables, empty alternatives and unknown constants (C104_*_violated)."
  },
  {
   "property": "C105",
   "status": "partial",
   "theorems": [
    "Trident.Sparql.PlanGen.C105_minus_partial",
    "Trident.Sparql.PlanGen.C105_unused_violated",
    "Trident.Sparql.PlanGen.C105_inner_violated",
    "Trident.Sparql.PlanGen.C105_two_violated",
    "Trident.Sparql.PlanGen.C105_empty_violated",
    "Trident.Sparql.PlanGen.C105_disjoint_violated",
    "Trident.Sparql.PlanGen.C105_load_minus_partial"
   ],
   "note": "C105_minus_partial: the answers, if the shared variables have registers, for an unused entry of the pool of plans. C105_load_minus_partial: the same with the scans of a loaded store. Missing: MINUS beside other parts of groups. False for variables that are used only after MINUS, for empty MINUS groups and without common variables (C105_*_violated)."
  },
  {
   "property": "C106",
   "status": "partial",
   "theorems": [
    "Trident.Http.C106_lookup_partial",
    "Trident.Http.C106_stop_partial",
    "Trident.Http.C106_large_violated",
    "Trident.Http.C106_unknown_violated",
    "Trident.Http.C106_negative_violated"
   ],
   "note": "C106_lookup_partial: ids below 2^31 that are in the store. C106_stop_partial: after requests that are answered. False for other ids (C106_*_violated)."
  },
  {
   "property": "C107",
   "status": "partial",
   "theorems": [
    "Trident.Http.C107_page_partial",
    "Trident.Http.C107_inside_partial",
    "Trident.Http.C107_outside_violated",
    "Trident.Http.C107_stale_violated",
    "Trident.Http.C107_port_violated",
    "Trident.Http.C107_empty_violated",
    "Trident.Http.C107_name_violated",
    "Trident.Http.C107_missing_violated"
   ],
   "note": "C107_page_partial: files that do not change, with WEB_PORT at most once. C107_inside_partial: paths without `..`. False otherwise (C107_*_violated), in particular every file of the machine can be read."
  },
  {
   "property": "C108",
   "status": "partial",
   "theorems": [
    "Trident.Batch.C108_epoch_partial",
    "Trident.Batch.C108_filter_partial",
    "Trident.Batch.C108_number_partial",
    "Trident.Batch.C108_rank",
    "Trident.Batch.C108_page_violated",
    "Trident.Batch.C108_stale_violated",
    "Trident.Batch.C108_one_violated",
    "Trident.Batch.C108_array_violated",
    "Trident.Batch.C108_number_violated"
   ],
   "note": "C108_epoch_partial, C108_filter_partial, C108_number_partial: files that leave three bytes of the last page free and are made by this start. False otherwise (C108_*_violated)."
  },
  {
   "property": "C109",
   "status": "partial",
   "theorems": [
    "Trident.Batch.C109_split_partial",
    "Trident.Batch.C109_page_violated",
    "Trident.Batch.C109_empty_violated"
   ],
   "note": "C109_split_partial: the files are a partition, and those that leave three bytes of their last page free are read back. False otherwise (C109_*_violated)."
  },
  {
   "property": "C110",
   "status": "partial",
   "theorems": [
    "Trident.Batch.C110_query_partial",
    "Trident.Batch.C110_absent_violated",
    "Trident.Batch.C110_predicate_violated",
    "Trident.Batch.C110_page_violated"
   ],
   "note": "C110_query_partial: queries with at most two constants or for a triple of the graph, predicates without ids of their own, files with room for one record after the last. False otherwise (C110_*_violated)."
  },
  {
   "property": "C111",
   "status": "partial",
   "theorems": [
    "Trident.NotIn.C111_notin",
    "Trident.NotIn.C111_first_partial",
    "Trident.NotIn.C111_first_violated",
    "Trident.NotIn.C111_other"
   ],
   "note": "C111_notin, C111_other: in full. C111_first_partial: no other value is written with stopAfterFirst. False: that it is written once (C111_first_violated)."
  },
  {
   "property": "C112",
   "status": "partial",
   "theorems": [
    "Trident.Diff1.C112_iterator_partial",
    "Trident.Diff1.C112_create",
    "Trident.Diff1.C112_pairs_partial",
    "Trident.Diff1.C112_ignore_violated",
    "Trident.Diff1.C112_large_violated",
    "Trident.Diff1.C112_empty_violated"
   ],
   "note": "C112_create: in full. C112_iterator_partial, C112_pairs_partial: values below 2^31, or one at least 2^32; for pairs a field that was never set has the value 1. False otherwise (C112_*_violated)."
  },
  {
   "property": "C113",
   "status": "partial",
   "theorems": [
    "Trident.Diff1.C113_card_partial",
    "Trident.Diff1.C113_unique_partial",
    "Trident.Diff1.C113_tables",
    "Trident.Diff1.C113_terms_partial",
    "Trident.Diff1.C113_keys_partial",
    "Trident.Diff1.C113_keys_violated",
    "Trident.Diff1.C113_count_violated",
    "Trident.Diff1.C113_array_violated",
    "Trident.Diff1.C113_pso_violated"
   ],
   "note": "C113_card_partial, C113_unique_partial, C113_terms_partial, C113_keys_partial (SPO): updates as in C112. C113_tables: in full for these updates. False for the keys of the other indexes and for the new terms of PSO (C113_*_violated)."
  },
  {
   "property": "C114",
   "status": "partial",
   "theorems": [
    "Trident.Edges.C114_edges_partial",
    "Trident.Edges.C114_subject_violated",
    "Trident.Edges.C114_position_violated",
    "Trident.Edges.C114_object_violated",
    "Trident.Edges.C114_used_violated",
    "Trident.Edges.C114_three_violated",
    "Trident.Edges.C114_count_violated"
   ],
   "note": "C114_edges_partial: all queries in which no variable occurs twice. False otherwise (C114_*_violated)."
  },
  {
   "property": "C115",
   "status": "partial",
   "theorems": [
    "Trident.Edges.C115_one_partial",
    "Trident.Edges.C115_two_partial",
    "Trident.Edges.C115_again",
    "Trident.Edges.C115_bound_violated",
    "Trident.Edges.C115_swapped_violated",
    "Trident.Edges.C115_const_violated"
   ],
   "note": "C115_one_partial: queries without terms. C115_two_partial: the second and third position of the name are variables. False otherwise (C115_*_violated)."
  },
  {
   "property": "C116",
   "status": "partial",
   "theorems": [
    "Trident.Edges.C116_position_partial",
    "Trident.Edges.C116_stored_partial",
    "Trident.Edges.C116_last_violated",
    "Trident.Edges.C116_scan_violated"
   ],
   "note": "C116_position_partial, C116_stored_partial: positions from 1 to the number of triples minus 1, queries with a term. False for the last triple (C116_last_violated) and in scans (C116_scan_violated)."
  },
  {
   "property": "C117",
   "status": "partial",
   "theorems": [
    "Trident.Edges.C117_two_partial",
    "Trident.Edges.C117_third_violated",
    "Trident.Edges.C117_none_violated",
    "Trident.Edges.C117_one_partial"
   ],
   "note": "C117_two_partial: the third position is a variable. C117_one_partial: queries with a term, variables given as -1. False otherwise (C117_*_violated)."
  },
  {
   "property": "C118",
   "status": "partial",
   "theorems": [
    "Trident.FIdx.C118_roundtrip_partial",
    "Trident.FIdx.C118_lookup_partial",
    "Trident.FIdx.C118_empty_violated",
    "Trident.FIdx.C118_additional",
    "Trident.FIdx.C118_add_partial",
    "Trident.FIdx.C118_reload_violated"
   ],
   "note": "C118_roundtrip_partial: keys and positions that do not decrease within a file. C118_lookup_partial: at least one entry. C118_add_partial: new indexes. C118_additional: in full. False: adding after reading, lookups without entries (C118_*_violated)."
  },
  {
   "property": "C119",
   "status": "partial",
   "theorems": [
    "Trident.Aggr.C119_pairs_partial",
    "Trident.Aggr.C119_first",
    "Trident.Aggr.C119_coordinates_partial",
    "Trident.Aggr.C119_coordinates_violated",
    "Trident.Aggr.C119_lookup_partial",
    "Trident.Aggr.C119_lookup_violated",
    "Trident.Aggr.C119_seek_partial",
    "Trident.Aggr.C119_seek_violated",
    "Trident.Aggr.C119_first_seek",
    "Trident.Aggr.C119_back",
    "Trident.Aggr.C119_mark_partial",
    "Trident.Aggr.C119_mark_violated"
   ],
   "note": "C119_pairs_partial: no empty second table in scans. C119_lookup_partial: with a first value. C119_seek_partial: targets whose first value has a second value from the target on, or no first value left. C119_mark_partial: marks before the first read. C119_coordinates_partial: files below 2^15, positions below 2^31. C119_first, C119_first_seek, C119_back: in full. False otherwise (C119_*_violated)."
  },
  {
   "property": "C120",
   "status": "partial",
   "theorems": [
    "Trident.Snap.C120_common_partial",
    "Trident.Snap.C120_upper",
    "Trident.Snap.C120_sign_violated",
    "Trident.Snap.C120_defined",
    "Trident.Snap.C120_label_violated"
   ],
   "note": "C120_common_partial: nodes whose bytes are below 128, labels of one byte. C120_upper: for all nodes never too many. C120_defined: in full. False otherwise (C120_*_violated)."
  },
  {
   "property": "C121",
   "status": "partial",
   "theorems": [
    "Trident.Snap.C121_path_partial",
    "Trident.Snap.C121_self_violated",
    "Trident.Snap.C121_pairs_partial"
   ],
   "note": "C121_path_partial, C121_pairs_partial: two different nodes. False for a node and itself (C121_self_violated)."
  },
  {
   "property": "C122",
   "status": "partial",
   "theorems": [
    "Trident.Subgraphs.C122_groups",
    "Trident.Subgraphs.C122_once",
    "Trident.Subgraphs.C122_average",
    "Trident.Subgraphs.C122_variance",
    "Trident.Subgraphs.C122_rows_partial",
    "Trident.Subgraphs.C122_rows_violated"
   ],
   "note": "C122_groups, C122_once: in full, in a new object. C122_average, C122_variance: with the embeddings that are read for the nodes. C122_rows_partial: these are the embeddings of the nodes for nodes below 2^32. False otherwise (C122_rows_violated)."
  },
  {
   "property": "C123",
   "status": "partial",
   "theorems": [
    "Trident.Subgraphs.C123_avg_partial",
    "Trident.Subgraphs.C123_var_partial",
    "Trident.Subgraphs.C123_var_violated",
    "Trident.Subgraphs.C123_again_violated"
   ],
   "note": "C123_avg_partial: in a new object. C123_var_partial: less than 2^32 numbers, in a new object. False otherwise (C123_var_violated, C123_again_violated)."
  }
 ]
}