{
 "claims": [
  {
   "property": "C01",
   "status": "proved",
   "theorems": [
    "Btrfscue.C01_index_key_roundtrip",
    "Btrfscue.C01_index_key_injective",
    "Btrfscue.C01_index_key_length"
   ],
   "note": ""
  },
  {
   "property": "C02",
   "status": "proved",
   "theorems": [
    "Btrfscue.C02_index_key_order",
    "Btrfscue.C02_index_key_prefix_order"
   ],
   "note": ""
  },
  {
   "property": "C03",
   "status": "proved",
   "theorems": [
    "Btrfscue.C03_key_compare_sign",
    "Btrfscue.C03_key_compare_antisymm",
    "Btrfscue.C03_key_compare_trans",
    "Btrfscue.C03_key_compare_agrees_with_index",
    "Btrfscue.C03_key_compare_not_unit"
   ],
   "note": "The sign, totality and agreement with the index are proved; the doc comment's -1/0/+1 is refuted (C03_key_compare_not_unit: type differences are returned unscaled)."
  },
  {
   "property": "C04",
   "status": "proved",
   "theorems": [
    "Btrfscue.C04_upgrade_v1",
    "Btrfscue.C04_upgrade_v1_fields",
    "Btrfscue.C04_upgrade_v1_order"
   ],
   "note": ""
  },
  {
   "property": "C05",
   "status": "proved",
   "theorems": [
    "Btrfscue.C05_uuid_text_canonical",
    "Btrfscue.C05_uuid_text_length",
    "Btrfscue.C05_uuid_roundtrip",
    "Btrfscue.C05_uuid_text_injective"
   ],
   "note": ""
  },
  {
   "property": "C06",
   "status": "proved",
   "theorems": [
    "Btrfscue.C06_uuid_set_succeeds_iff",
    "Btrfscue.C06_uuid_set_value",
    "Btrfscue.C06_uuid_set_failure"
   ],
   "note": ""
  },
  {
   "property": "C07",
   "status": "proved",
   "theorems": [
    "Btrfscue.C07_ExtentItem_compat",
    "Btrfscue.C07_RootItem_isGenerationV2",
    "Btrfscue.C07_CSumItem_decodes",
    "Btrfscue.C07_FileExtentItem_isInline",
    "Btrfscue.C07_DevExtent_decodes",
    "Btrfscue.C07_DevItem_decodes",
    "Btrfscue.C07_Stripe_decodes",
    "Btrfscue.C07_Chunk_decodes",
    "Btrfscue.C07_InodeItem_decodes",
    "Btrfscue.C07_InodeRefItem_decodes",
    "Btrfscue.C07_DirItem_decodes",
    "Btrfscue.C07_BlockGroupItem_decodes",
    "Btrfscue.C07_FileExtentItem_decodes",
    "Btrfscue.C07_RootItem_decodes",
    "Btrfscue.C07_RootRef_decodes",
    "Btrfscue.C07_ExtentItem_decodes",
    "Btrfscue.C07_Header_decodes",
    "Btrfscue.C07_Item_decodes"
   ],
   "note": ""
  },
  {
   "property": "C08",
   "status": "proved",
   "theorems": [
    "Btrfscue.C08_accessor_exact",
    "Btrfscue.C08_accessor_local",
    "Btrfscue.C08_reads_into_spare_capacity",
    "Btrfscue.C08_DevExtent_bounds",
    "Btrfscue.C08_DevItem_bounds",
    "Btrfscue.C08_Stripe_bounds",
    "Btrfscue.C08_Chunk_bounds",
    "Btrfscue.C08_InodeItem_bounds",
    "Btrfscue.C08_InodeRefItem_bounds",
    "Btrfscue.C08_DirItem_bounds",
    "Btrfscue.C08_BlockGroupItem_bounds",
    "Btrfscue.C08_FileExtentItem_bounds",
    "Btrfscue.C08_RootItem_bounds",
    "Btrfscue.C08_RootRef_bounds",
    "Btrfscue.C08_ExtentItem_bounds",
    "Btrfscue.C08_Header_bounds",
    "Btrfscue.C08_Item_bounds"
   ],
   "note": ""
  },
  {
   "property": "C09",
   "status": "proved",
   "theorems": [
    "Btrfscue.C09_dir_item_name",
    "Btrfscue.C09_inode_ref_name",
    "Btrfscue.C09_root_ref_name",
    "Btrfscue.C09_names_bounded",
    "Btrfscue.C09_dir_item_name_crash_iff",
    "Btrfscue.C09_root_ref_name_crash_iff",
    "Btrfscue.C09_inode_ref_name_crash_iff",
    "Btrfscue.C09_truncated_item_crashes"
   ],
   "note": ""
  },
  {
   "property": "C10",
   "status": "partial",
   "theorems": [
    "Btrfscue.C10_data_exact",
    "Btrfscue.C10_crash_iff",
    "Btrfscue.C10_dir_item_data_partial",
    "Btrfscue.C10_wraps"
   ],
   "note": "Proved below 64 KiB in total; beyond, 16-bit wrap-around crashes complete items (C10_wraps). Exact: C10_data_exact gives the result for all lengths, C10_crash_iff says when it crashes."
  },
  {
   "property": "C11",
   "status": "partial",
   "theorems": [
    "Btrfscue.C11_stripe_exact",
    "Btrfscue.C11_stripe_partial",
    "Btrfscue.C11_wraps"
   ],
   "note": "Proved for stripe numbers up to 2046; C11_wraps shows the 16-bit wrap for 2047. Exact for every number: C11_stripe_exact."
  },
  {
   "property": "C12",
   "status": "proved",
   "theorems": [
    "Btrfscue.C12_inline_data",
    "Btrfscue.C12_inline_data_bounded",
    "Btrfscue.C12_negative_size_crashes"
   ],
   "note": "Exactness and the bound are proved; sizes >= 2^63 crash (C12_negative_size_crashes)."
  },
  {
   "property": "C13",
   "status": "proved",
   "theorems": [
    "Btrfscue.C13_leaf_decodes"
   ],
   "note": ""
  },
  {
   "property": "C14",
   "status": "partial",
   "theorems": [
    "Btrfscue.C14_item_count_bounded",
    "Btrfscue.C14_scan_crash_iff",
    "Btrfscue.C14_scan_partial",
    "Btrfscue.C14_scan_can_crash",
    "Btrfscue.C14_bad_offset_crashes"
   ],
   "note": "False of the code: C14_scan_crash_iff gives the exact crash condition, C14_scan_can_crash and C14_bad_offset_crashes the counterexamples, C14_scan_partial the safe blocks."
  },
  {
   "property": "C15",
   "status": "proved",
   "theorems": [
    "Btrfscue.C15_name_hash_is_crc32c",
    "Btrfscue.C15_lfsr_append",
    "Btrfscue.C15_no_collision_in_window",
    "Btrfscue.C15_no_collision_one_byte"
   ],
   "note": ""
  },
  {
   "property": "C16",
   "status": "proved",
   "theorems": [
    "Btrfscue.C16_timestamp_normalised",
    "Btrfscue.C16_isTime_unique"
   ],
   "note": ""
  },
  {
   "property": "C17",
   "status": "partial",
   "theorems": [
    "Btrfscue.C17_reads_sequentially",
    "Btrfscue.C17_rewind_restarts",
    "Btrfscue.C17_next_frame",
    "Btrfscue.C17_next_panics_partial",
    "Btrfscue.C17_next_reads_past_len"
   ],
   "note": "Proved except the documented panic, which fails for buffers with spare capacity (C17_next_reads_past_len)."
  },
  {
   "property": "C18",
   "status": "partial",
   "theorems": [
    "Btrfscue.C18_accepts_iff",
    "Btrfscue.C18_device_size_partial",
    "Btrfscue.C18_seek_error",
    "Btrfscue.C18_blocks_inside",
    "Btrfscue.C18_wraps"
   ],
   "note": "Proved for block sizes below 2^57; C18_wraps shows the wrap beyond. Exact: C18_accepts_iff."
  },
  {
   "property": "C19",
   "status": "partial",
   "theorems": [
    "Btrfscue.C19_full_block_or_error",
    "Btrfscue.C19_error_reported",
    "Btrfscue.C19_eof_on_full_read",
    "Btrfscue.C19_short_read_accepted"
   ],
   "note": "Full-block-or-error is proved for lawful readers; the second half (a full read never reports EOF) is false: C19_eof_on_full_read."
  },
  {
   "property": "C20",
   "status": "proved",
   "theorems": [
    "Btrfscue.C20_typed_lookups",
    "Btrfscue.C20_lookup_newest",
    "Btrfscue.C20_ordinary_owner",
    "Btrfscue.C20_ordinary_history"
   ],
   "note": "For every (owner,key) sorting before the metadata entry (every owner below 2^64-1) and histories not overwriting it."
  },
  {
   "property": "C21",
   "status": "partial",
   "theorems": [
    "Btrfscue.C21_documented_iff",
    "Btrfscue.C21_lookup_at_generation_partial",
    "Btrfscue.C21_documented_when_exact_or_newest",
    "Btrfscue.C21_documented_at_max",
    "Btrfscue.C21_documented_choice_fails"
   ],
   "note": "False of the code for index generations below the maximum (C21_documented_choice_fails); the actual choice is proved, and that it is the documented one at the maximal generation used by all read-only opens. C21_documented_iff says exactly when the two agree."
  },
  {
   "property": "C22",
   "status": "partial",
   "theorems": [
    "Btrfscue.C22_crash_iff",
    "Btrfscue.C22_lookup_safe_partial",
    "Btrfscue.C22_crash_after_sentinel"
   ],
   "note": "Proved for lookups not sorting after the metadata entry, with the exact crash condition C22_crash_iff; C22_crash_after_sentinel refutes the rest."
  },
  {
   "property": "C23",
   "status": "proved",
   "theorems": [
    "Btrfscue.C23_insert_order_irrelevant",
    "Btrfscue.C23_only_last_values_matter",
    "Btrfscue.C23_reinsert",
    "Btrfscue.C23_sessions_compose"
   ],
   "note": ""
  },
  {
   "property": "C24",
   "status": "partial",
   "theorems": [
    "Btrfscue.C24_metadata_exact",
    "Btrfscue.C24_metadata_kept_partial",
    "Btrfscue.C24_colliding_insert"
   ],
   "note": "False for one key: C24_colliding_insert; proved for all histories that do not use the metadata key. Exact for every history: C24_metadata_exact."
  },
  {
   "property": "C25",
   "status": "proved",
   "theorems": [
    "Btrfscue.C25_open_existing",
    "Btrfscue.C25_open_fresh",
    "Btrfscue.C25_failed_or_readonly_open_pure",
    "Btrfscue.C25_open_readonly_pure",
    "Btrfscue.C25_open_readonly_needs_index"
   ],
   "note": "Block sizes are compared modulo 2^32 and AllowOldVersion also skips the block size and FSID checks (part of Options.accepts)."
  },
  {
   "property": "C26",
   "status": "proved",
   "theorems": [
    "Btrfscue.C26_metadata_roundtrip"
   ],
   "note": ""
  },
  {
   "property": "C27",
   "status": "proved",
   "theorems": [
    "Btrfscue.C27_crash_loses_bounded_suffix",
    "Btrfscue.C27_reopen_after_crash"
   ],
   "note": ""
  },
  {
   "property": "C28",
   "status": "proved",
   "theorems": [
    "Btrfscue.C28_commit_and_close_durable",
    "Btrfscue.C28_close_readonly"
   ],
   "note": ""
  },
  {
   "property": "C29",
   "status": "partial",
   "theorems": [
    "Btrfscue.C29_lookup_exact",
    "Btrfscue.C29_lookup_after_commit_crashes",
    "Btrfscue.C29_lookup_after_auto_commit_crashes",
    "Btrfscue.C29_lookup_after_insert_partial"
   ],
   "note": "False of the code: C29_lookup_after_commit_crashes, C29_lookup_after_auto_commit_crashes. Proved: lookups see everything after an insert that does not trigger a commit. Exact after any history: C29_lookup_exact (crash iff the last operation left nothing pending)."
  },
  {
   "property": "C30",
   "status": "partial",
   "theorems": [
    "Btrfscue.C30_failure_is_durable",
    "Btrfscue.C30_rawtx_partial",
    "Btrfscue.C30_failed_rawtx_persists"
   ],
   "note": "False of the code: C30_failed_rawtx_persists. Proved: nothing of a failed function is durable at its return, a successful one is durable exactly. C30_failure_is_durable: after any history the failed function's effect is durable once the index is closed."
  },
  {
   "property": "C31",
   "status": "partial",
   "theorems": [
    "Btrfscue.C31_range_sound_partial",
    "Btrfscue.C31_named_ranges",
    "Btrfscue.C31_wrong_type_items"
   ],
   "note": "Sound on indexes satisfying RangeOK; C31_wrong_type_items shows an index where a range visits items of another type."
  },
  {
   "property": "C32",
   "status": "partial",
   "theorems": [
    "Btrfscue.C32_typed_ranges_partial",
    "Btrfscue.C32_complete_iff",
    "Btrfscue.C32_range_exact_partial",
    "Btrfscue.C32_range_complete_single_generation",
    "Btrfscue.C32_incomplete"
   ],
   "note": "C32_complete_iff gives the exact condition: on a well-behaved index the iteration is complete iff all keys of the range share one newest generation; C32_incomplete refutes the general claim."
  },
  {
   "property": "C33",
   "status": "partial",
   "theorems": [
    "Btrfscue.C33_ends_iff",
    "Btrfscue.C33_range_terminates_partial",
    "Btrfscue.C33_max_generation_hangs",
    "Btrfscue.C33_wraps_forever",
    "Btrfscue.C33_two_subvolumes_hang"
   ],
   "note": "Refuted in general (C33_max_generation_hangs, C33_wraps_forever, C33_two_subvolumes_hang). C33_ends_iff gives the exact condition for owners with intact items: the iteration never ends iff the next owner's first key occurs for this owner in the chosen generation, and every key from there and from the start on has that generation and lies inside the range."
  },
  {
   "property": "C34",
   "status": "partial",
   "theorems": [
    "Btrfscue.C34_empty_exact",
    "Btrfscue.C34_full_range_partial",
    "Btrfscue.C34_empty_index_crashes",
    "Btrfscue.C34_older_generation_crashes"
   ],
   "note": "All items visited once, in order, but also the metadata entry; crashes on an empty index and at generations below the maximum. Exact for the empty index: C34_empty_exact."
  },
  {
   "property": "C35",
   "status": "partial",
   "theorems": [
    "Btrfscue.C35_listed_exact",
    "Btrfscue.C35_subvolumes_partial",
    "Btrfscue.C35_needs_subvolume_256",
    "Btrfscue.C35_subvolume_258_not_listed"
   ],
   "note": "Complete if subvolume 256 exists and the root items share a generation; otherwise refuted (C35_needs_subvolume_256). Exact: C35_listed_exact."
  },
  {
   "property": "C36",
   "status": "partial",
   "theorems": [
    "Btrfscue.C36_physical_partial",
    "Btrfscue.C36_mixed_generations_wrong",
    "Btrfscue.C36_physical_exact"
   ],
   "note": "Proved for indexes whose chunks are intact, disjoint and of one newest generation; C36_mixed_generations_wrong refutes the rest. C36_physical_exact says exactly what Physical answers for every index with intact seen chunks, whatever their generations and overlaps."
  },
  {
   "property": "C37",
   "status": "partial",
   "theorems": [
    "Btrfscue.C37_physical_returns_partial",
    "Btrfscue.C37_no_chunks_crashes",
    "Btrfscue.C37_truncated_chunk_crashes",
    "Btrfscue.C37_returns_iff"
   ],
   "note": "Returns when at least one intact chunk is stored; C37_no_chunks_crashes and C37_truncated_chunk_crashes refute the rest. C37_returns_iff: on an index whose items are stored as recon stores them Physical returns if and only if every chunk item that iteration reaches has its first stripe and one of them has stripes; otherwise it crashes."
  },
  {
   "property": "C38",
   "status": "partial",
   "theorems": [
    "Btrfscue.C38_path_sound_partial",
    "Btrfscue.C38_path_returns",
    "Btrfscue.C38_lookup_hangs",
    "Btrfscue.C38_truncated_entry_crashes",
    "Btrfscue.C38_hang_cause",
    "Btrfscue.C38_hang_iff"
   ],
   "note": "Sound and returning on indexes whose directories are well behaved; C38_lookup_hangs and C38_truncated_entry_crashes refute the rest. See C39_lookup_exact for what exactly is found. C38_hang_cause (every index): only a path that leads to or through a directory whose iteration is endless makes a lookup not end. C117_lookup_crash_iff: exactly which damaged entries make a lookup crash. C38_hang_iff (every index, tree and path): exactly which lookups do not end; every other has one answer that does not depend on how many iterations are allowed."
  },
  {
   "property": "C39",
   "status": "partial",
   "theorems": [
    "Btrfscue.C39_path_complete_partial",
    "Btrfscue.C39_hash_collision_not_found",
    "Btrfscue.C39_lookup_exact"
   ],
   "note": "Proved for entries that come first in their item; C39_hash_collision_not_found refutes it for the second of two entries with equal hash. Exact for any generations and collisions: C39_lookup_exact."
  },
  {
   "property": "C40",
   "status": "proved",
   "theorems": [
    "Btrfscue.C40_only_items_of_matching_leaves",
    "Btrfscue.C40_all_items_of_matching_leaves",
    "Btrfscue.C40_wellformed_leaf_items_stored"
   ],
   "note": "Completeness needs every matching leaf to be sound (otherwise recon crashes, C42); soundness holds always, also after a crash."
  },
  {
   "property": "C41",
   "status": "proved",
   "theorems": [
    "Btrfscue.C41_lookup_after_recon"
   ],
   "note": "For devices whose matching leaves are sound and do not claim the index's own metadata entry (tree 2^64-1)."
  },
  {
   "property": "C42",
   "status": "partial",
   "theorems": [
    "Btrfscue.C42_crash_iff",
    "Btrfscue.C42_finishes_partial",
    "Btrfscue.C42_bad_count_crashes",
    "Btrfscue.C42_crashing_device",
    "Btrfscue.C42_bad_offset_crashes",
    "Btrfscue.C42_zero_block_size",
    "Btrfscue.C42_crash_keeps_earlier_leaves",
    "Btrfscue.C42_read_error_loses_bounded_suffix"
   ],
   "note": "The full claim is false: C42_crash_iff gives the exact crash condition, C42_bad_count_crashes, C42_bad_offset_crashes, C42_zero_block_size and C42_crashing_device refute it; proved for well-formed leaves; also proved what survives a crash or read error."
  },
  {
   "property": "C43",
   "status": "proved",
   "theorems": [
    "Btrfscue.C43_recon_idempotent",
    "Btrfscue.C43_other_filesystem_refused"
   ],
   "note": "For sound devices that do not claim the metadata entry; other file systems are refused."
  },
  {
   "property": "C44",
   "status": "proved",
   "theorems": [
    "Btrfscue.C44_counts_exact",
    "Btrfscue.C44_order_irrelevant"
   ],
   "note": ""
  },
  {
   "property": "C45",
   "status": "proved",
   "theorems": [
    "Btrfscue.C45_sorted_complete_deterministic"
   ],
   "note": ""
  },
  {
   "property": "C46",
   "status": "partial",
   "theorems": [
    "Btrfscue.C46_guess_partial",
    "Btrfscue.C46_four_samples_too_small",
    "Btrfscue.C46_single_sample_guess"
   ],
   "note": "The first leaf's offset is not counted: exact condition proved; C46_four_samples_too_small and C46_single_sample_guess refute the full claim. The float64 division is a parameter bounded by AvgOK."
  },
  {
   "property": "C47",
   "status": "partial",
   "theorems": [
    "Btrfscue.C47_samples_partial",
    "Btrfscue.C47_samples_terminates",
    "Btrfscue.C47_sample_count",
    "Btrfscue.C47_few_samples_crash",
    "Btrfscue.C47_many_samples_hang",
    "Btrfscue.C47_superblocks_missed",
    "Btrfscue.C47_returns_exactly",
    "Btrfscue.C47_returns_on_blocks",
    "Btrfscue.C47_default_limits_return"
   ],
   "note": "Exactly n sorted distinct block-aligned offsets incl. the fixed ones, if it returns; refuted otherwise: C47_few_samples_crash, C47_many_samples_hang, C47_superblocks_missed. Exact: C47_returns_exactly, C47_returns_on_blocks; with the default limits it returns (C47_default_limits_return)."
  },
  {
   "property": "C48",
   "status": "partial",
   "theorems": [
    "Btrfscue.C48_samples_inside_partial",
    "Btrfscue.C48_sample_outside",
    "Btrfscue.C48_inside_iff",
    "Btrfscue.C48_identify_image_partial",
    "Btrfscue.C48_identify_fails"
   ],
   "note": "Samples lie inside the device for large enough devices; C48_sample_outside and C48_identify_fails refute it for the rest. Exact: C48_inside_iff."
  },
  {
   "property": "C49",
   "status": "proved",
   "theorems": [
    "Btrfscue.C49_exact_is_shannon",
    "Btrfscue.C49_entropy_is_shannon",
    "Btrfscue.C49_entropy_bounds",
    "Btrfscue.C49_entropy_perm",
    "Btrfscue.C49_entropy_zero_iff"
   ],
   "note": "Rounding, fused multiply-add and map iteration order are modelled; what is assumed of float64 rounding and math.Log2 is Spec/Float64, shown satisfiable by truncation to 53 bits (float64_trunc). The sign of zero is not modelled."
  },
  {
   "property": "C50",
   "status": "partial",
   "theorems": [
    "Btrfscue.C50_read_exact",
    "Btrfscue.C50_complete_iff",
    "Btrfscue.C50_read_prefix_partial",
    "Btrfscue.C50_read_in_extent",
    "Btrfscue.C50_read_last_extent",
    "Btrfscue.C50_crossing_read_short",
    "Btrfscue.C50_gap_returns_old_bytes",
    "Btrfscue.C50_truncated_device_returns_old_bytes"
   ],
   "note": "Refuted in general: reads crossing extents come back short (C50_crossing_read_short), gaps and truncated devices leave old buffer bytes in the result. Proved: bytes returned are right and complete up to the end of the first extent for intact gapless extents. Exact for gapless extents: C50_read_exact gives the number of bytes for any number of extents, C50_complete_iff says which reads are complete."
  },
  {
   "property": "C51",
   "status": "partial",
   "theorems": [
    "Btrfscue.C51_covers_iff",
    "Btrfscue.C51_fallback_size_partial",
    "Btrfscue.C51_overlapping_extents_too_small"
   ],
   "note": "Proved for extents in order without overlap; false for overlapping extents (C51_overlapping_extents_too_small). Exact: C51_covers_iff."
  },
  {
   "property": "C52",
   "status": "partial",
   "theorems": [
    "Btrfscue.C52_top_names",
    "Btrfscue.C52_directory_exact",
    "Btrfscue.C52_history_independent",
    "Btrfscue.C52_listed_iff_found_partial",
    "Btrfscue.C52_no_inode_refuted",
    "Btrfscue.C52_listing_complete"
   ],
   "note": "Refuted where the inode item of an entry is lost (C52_no_inode_refuted: the name is listed, but Lookup fails with ENOATTR); everything else holds: history independence for every index and sequence of operations, names not listed answer ENOENT, names listed are found with the type listed and fail exactly if the inode item is not found. C52_directory_exact: for directories with whole entries of any generations the listing and Lookup show exactly the entries that iterating over the directory gets to, and the attributes are there exactly if the inode item is."
  },
  {
   "property": "C53",
   "status": "proved",
   "theorems": [
    "Btrfscue.C53_aux",
    "Btrfscue.C53_attributes_exact",
    "Btrfscue.C53_get_matches_list"
   ],
   "note": "Get and list agree for every index on which the operations return. C53_attributes_exact: for whole attributes of any generations, exactly what is listed and which value is read."
  },
  {
   "property": "C54",
   "status": "partial",
   "theorems": [
    "Btrfscue.C54_holes_read_zero_partial",
    "Btrfscue.C54_nil_interface_reads_zero",
    "Btrfscue.C54_no_device_io_error"
   ],
   "note": "Refuted: mount passes a nil *os.File as non-nil interface, so data reads fail with EIO (C54_no_device_io_error). Holes do read as zeroes, and Read itself would return zeroes for a nil interface."
  },
  {
   "property": "C55",
   "status": "partial",
   "theorems": [
    "Btrfscue.C55_open_outcome",
    "Btrfscue.C55_no_extents_not_found",
    "Btrfscue.C55_open_inline_partial",
    "Btrfscue.C55_open_regular_partial",
    "Btrfscue.C55_compressed_inline_crashes"
   ],
   "note": "Refuted: files without extent items (all empty files) cannot be opened (C55_no_extents_not_found), compressed inline extents crash (C55_compressed_inline_crashes). Proved: files with intact inline or regular extents open. Exact for arbitrary payloads: C55_open_outcome."
  },
  {
   "property": "C56",
   "status": "partial",
   "theorems": [
    "Btrfscue.C56_existing_untouched_partial",
    "Btrfscue.C56_stat_error_truncates"
   ],
   "note": "Refuted when stat(2) fails for a reason other than a missing file (C56_stat_error_truncates: the existing file is truncated). Proved for every index, image, failure pattern and crash point when stat does not fail spuriously."
  },
  {
   "property": "C57",
   "status": "partial",
   "theorems": [
    "Btrfscue.C57_contained_partial",
    "Btrfscue.C57_contained_stored_partial",
    "Btrfscue.C57_link_escapes",
    "Btrfscue.C57_link_creates_outside",
    "Btrfscue.C57_empty_name_replaces_dest",
    "Btrfscue.C57_paths_inside_partial"
   ],
   "note": "Refuted for indexes holding symbolic links (C57_link_escapes, C57_link_creates_outside) and empty names (C57_empty_name_replaces_dest). Proved: the paths used lie lexically inside dest for every index; nothing outside changes when the index lists no symbolic links."
  },
  {
   "property": "C58",
   "status": "partial",
   "theorems": [
    "Btrfscue.C58_content_exact",
    "Btrfscue.C58_mixed_generations_lost",
    "Btrfscue.C58_pieces_exact",
    "Btrfscue.C58_content_partial",
    "Btrfscue.C58_recovered",
    "Btrfscue.C58_inline_partial",
    "Btrfscue.C58_prealloc_shows_old_data",
    "Btrfscue.C58_compressed_data_is_copied_raw",
    "Btrfscue.C58_truncate_error_dropped"
   ],
   "note": "Refuted for preallocated, compressed and encrypted extents, for extents of mixed generations and for a dropped Truncate error. Proved for plain extents in known chunks (any number, any length) and for inline extents. C58_content_exact says what the contents are for any intact extents and chunks \u2014 overlapping, encoded, of any generations, with an inode item or without: the raw device bytes under the extents the iteration gets to. C58_pieces_exact adds inline extents in any mix with the others."
  },
  {
   "property": "C59",
   "status": "partial",
   "theorems": [
    "Btrfscue.C59_error_exact",
    "Btrfscue.C59_no_byte_made_up",
    "Btrfscue.C59_pieces_error_exact",
    "Btrfscue.C59_truncated_image_partial",
    "Btrfscue.C59_read_error_is_silent"
   ],
   "note": "Refuted for read errors other than io.EOF (C59_read_error_is_silent). Proved for devices that end early; C59_error_exact: with a device that only ends early an error is reported exactly if an extent lies beyond its end. C59_no_byte_made_up: whatever the device and the system calls do, at every point, no byte is made up: each byte of the file is one of its extents or zero. C59_pieces_error_exact adds inline extents in any mix."
  },
  {
   "property": "C60",
   "status": "partial",
   "theorems": [
    "Btrfscue.C60_entered_once",
    "Btrfscue.C60_terminates_partial",
    "Btrfscue.C60_terminates_stored_partial",
    "Btrfscue.C60_endless_listing",
    "Btrfscue.C60_hang_cause",
    "Btrfscue.C60_endless_top"
   ],
   "note": "Each directory is entered once: proved for all runs. Termination refuted where an index iteration does not end (C60_endless_listing); proved where they end. C60_hang_cause: for every index, a run that does not end has entered a directory whose entries, or the extents of a file among them, cannot be iterated over (or the chunks or subvolumes cannot); C60_endless_top: such a top directory always keeps the run from ending."
  },
  {
   "property": "C61",
   "status": "partial",
   "theorems": [
    "Btrfscue.C61_backslash_never",
    "Btrfscue.C61_entries_partial",
    "Btrfscue.C61_reached_partial",
    "Btrfscue.C61_backslash_skipped"
   ],
   "note": "Proved for runs that end, without --clobber, for every listed file, link, directory and subvolume whose name has no backslash, with any failing system calls (a warning takes the place of the file); C61_backslash_skipped: names with a backslash are skipped silently. Exact: C61_backslash_never (whatever runs to an initially empty directory, with or without --clobber, no name below it ever has a backslash)."
  },
  {
   "property": "C62",
   "status": "proved",
   "theorems": [
    "Btrfscue.C62_link_target",
    "Btrfscue.C62_link_made",
    "Btrfscue.C62_link_extent_target",
    "Btrfscue.C62_link_extent_made"
   ],
   "note": "For inline extents, the only ones btrfs writes for links."
  },
  {
   "property": "C63",
   "status": "proved",
   "theorems": [
    "Btrfscue.C63_mode_string",
    "Btrfscue.C63_permissions_shown",
    "Btrfscue.C63_type_letter"
   ],
   "note": ""
  },
  {
   "property": "C64",
   "status": "partial",
   "theorems": [
    "Btrfscue.C64_line",
    "Btrfscue.C64_listing_partial",
    "Btrfscue.C64_listing_exact",
    "Btrfscue.C64_mixed_generations_incomplete"
   ],
   "note": "For directories whose entries are intact and of one generation (DirWhole) and intact inode items; mixed generations inherit C32. Refuted beyond that by C64_mixed_generations_incomplete. C64_listing_exact says what is listed for directories of any generations: the entries up to the first that lacks the generation of the first."
  },
  {
   "property": "C65",
   "status": "partial",
   "theorems": [
    "Btrfscue.C65_cycle_hangs",
    "Btrfscue.C65_acyclic_partial",
    "Btrfscue.C65_hang_cause",
    "Btrfscue.C65_endless_directory",
    "Btrfscue.C65_run_hang_cause",
    "Btrfscue.C65_ends_iff",
    "Btrfscue.C65_recursive_exact",
    "Btrfscue.C65_path_hang_iff",
    "Btrfscue.C65_top_hang_iff"
   ],
   "note": "Refuted by C65_cycle_hangs (a directory containing itself) and by C88_subvolume_hangs (a subvolume with id 256 in the top directory). C65_ends_iff gives the exact condition on an undamaged index: recursive listing ends iff one cannot go down for ever from the directory. C65_recursive_exact: the same, with the text printed, for an index of any generations and damage. C65_hang_cause (every index, well formed or not): a listing that never ends has, below the directory, a directory with endless iteration or an infinite descending chain of directories; C65_endless_directory is the converse for the former. C65_run_hang_cause: the same for the whole command with any path arguments. C65_path_hang_iff and C65_top_hang_iff (every index): exactly when ls of one path, or of none, without --recursive does not end."
  },
  {
   "property": "C66",
   "status": "proved",
   "theorems": [
    "Btrfscue.C66_object_ids_distinct",
    "Btrfscue.C66_key_types_distinct",
    "Btrfscue.C66_keys_distinct",
    "Btrfscue.C66_key_type_names",
    "Btrfscue.C66_object_id_names",
    "Btrfscue.C66_key_text"
   ],
   "note": ""
  },
  {
   "property": "C67",
   "status": "proved",
   "theorems": [
    "Btrfscue.C67_read_never_crashes",
    "Btrfscue.C67_negative_offset"
   ],
   "note": ""
  },
  {
   "property": "C68",
   "status": "proved",
   "theorems": [
    "Btrfscue.C68_attr_of_newest_inode",
    "Btrfscue.C68_no_inode",
    "Btrfscue.C68_file_attr"
   ],
   "note": ""
  },
  {
   "property": "C69",
   "status": "proved",
   "theorems": [
    "Btrfscue.C69_readlink",
    "Btrfscue.C69_no_target"
   ],
   "note": ""
  },
  {
   "property": "C70",
   "status": "partial",
   "theorems": [
    "Btrfscue.C70_walk_exact",
    "Btrfscue.C70_inode_item_as_entry",
    "Btrfscue.C70_lookup_leads_to_target_partial",
    "Btrfscue.C70_walk_partial"
   ],
   "note": "For indexes satisfying DirsOK; in other indexes Lookup may hang or be led by items of another type (see C31, C33, C38). C70_inode_item_as_entry: the range over a directory can run into inode items, which are then taken for entries. C70_walk_exact: where exactly every path leads, for whole entries of any generations. A Lookup whose target has no inode item fails (C52_no_inode_refuted), which C70_walk_exact takes into account."
  },
  {
   "property": "C71",
   "status": "partial",
   "theorems": [
    "Btrfscue.C71_open_exact",
    "Btrfscue.C71_mixed_generations_cut",
    "Btrfscue.C71_open_extents_partial",
    "Btrfscue.C71_mounted_read_partial"
   ],
   "note": "C71_open_exact says what an opened file is whatever the generations of its extents and of the chunks: exactly the extents the range iteration sees, each placed by the chunk its address is under. The theorem that this is the newest version of the file holds for extents and chunks of one generation each (FileOK, AddrOK); refuted beyond that by C71_mixed_generations_cut."
  },
  {
   "property": "C72",
   "status": "partial",
   "theorems": [
    "Btrfscue.C72_clobber_replaces_partial",
    "Btrfscue.C72_lost_extent_destroys"
   ],
   "note": "Refuted (C72_lost_extent_destroys); proved: then an error is reported."
  },
  {
   "property": "C73",
   "status": "partial",
   "theorems": [
    "Btrfscue.C73_dump_partial",
    "Btrfscue.C73_dump_determines",
    "Btrfscue.C73_empty_index_crashes"
   ],
   "note": "Proved for every non-empty index; the index metadata entry is shown as an item too; an empty index crashes (C73_empty_index_crashes)."
  },
  {
   "property": "C74",
   "status": "partial",
   "theorems": [
    "Btrfscue.C74_ls_directory_partial",
    "Btrfscue.C74_ls_root",
    "Btrfscue.C74_ls_file_partial",
    "Btrfscue.C74_ls_missing",
    "Btrfscue.C74_ls_several",
    "Btrfscue.C74_subvolume_wrong_tree",
    "Btrfscue.C74_ls_exact"
   ],
   "note": "Refuted for subvolumes: the listing always uses tree 5 (C74_subvolume_wrong_tree). Proved for paths leading into the file system tree. C74_ls_exact: what ls prints for every argument (the listing is always that of tree 5)."
  },
  {
   "property": "C75",
   "status": "partial",
   "theorems": [
    "Btrfscue.C75_sound_ends_partial",
    "Btrfscue.C75_crash_iff",
    "Btrfscue.C75_readable_ends_partial",
    "Btrfscue.C75_file_ends_partial",
    "Btrfscue.C75_huge_hole_crashes",
    "Btrfscue.C75_huge_inline_size_crashes",
    "Btrfscue.C75_short_item_crashes",
    "Btrfscue.C75_no_chunks_crashes"
   ],
   "note": "Refuted: huge holes, huge inline sizes, cut items and missing chunks crash. C75_sound_ends_partial: if every extent item seen is complete, no hole is longer than 2^48 bytes and there is a chunk for those with an address, it ends in EVERY environment. C75_crash_iff: on a quiet machine this is exact, it crashes if and only if an item seen is not so."
  },
  {
   "property": "C76",
   "status": "partial",
   "theorems": [
    "Btrfscue.C76_after_first_partial",
    "Btrfscue.C76_overlapping_crash",
    "Btrfscue.C76_overlapping_wrong"
   ],
   "note": "Refuted for overlapping first requests: the shared stripe map is filled without a lock, and two schedules are exhibited in which a request panics (C76_overlapping_crash) or is given a wrong place (C76_overlapping_wrong). Proved: once one translation has completed, every schedule of every number of further requests gives each the answer of a single request. Steps are atomic; Go's memory model promises less for racing writes, which only adds behaviours to the refuted part."
  },
  {
   "property": "C77",
   "status": "partial",
   "theorems": [
    "Btrfscue.C77_found_listed_partial",
    "Btrfscue.C77_after_first_partial",
    "Btrfscue.C77_overlapping_missing"
   ],
   "note": "Refuted for overlapping first lookups: the directory map is used while another lookup is still filling it, so an existing name is reported missing (C77_overlapping_missing). Proved for every schedule: what a lookup finds is listed in the directory under that name; and once the map is filled every overlapping lookup answers like a single one. Go may also crash on concurrent map writes, which the model does not show."
  },
  {
   "property": "C78",
   "status": "proved",
   "theorems": [
    "Btrfscue.C78_rerun",
    "Btrfscue.C78_killed_between_blocks",
    "Btrfscue.C78_stopped_by_read_error"
   ],
   "note": "Killed between any two inserts (Interrupted), between blocks, or stopped by a read error; repeated any number of times. A kill inside a database transaction is bbolt's atomicity, part of the trusted base."
  },
  {
   "property": "C79",
   "status": "proved",
   "theorems": [
    "Btrfscue.C79_either_order",
    "Btrfscue.C79_last_scan_wins"
   ],
   "note": ""
  },
  {
   "property": "C80",
   "status": "partial",
   "theorems": [
    "Btrfscue.C80_append_keeps_partial",
    "Btrfscue.C80_option_ignored",
    "Btrfscue.C80_stale_items_stay"
   ],
   "note": "The first half is proved; the second is false of the code: the option is never read (C80_option_ignored) and stale items stay (C80_stale_items_stay)."
  },
  {
   "property": "C81",
   "status": "partial",
   "theorems": [
    "Btrfscue.C81_everything_seen",
    "Btrfscue.C81_everything_partial",
    "Btrfscue.C81_read_error_is_silent"
   ],
   "note": "For files C58 covers (plain extents or one inline extent) and names without a backslash; any calls other than stat(2) may fail, device errors are its end only; without --clobber; names must be distinct (Ix.Distinct). Refuted for other device errors by C81_read_error_is_silent. C81_everything_seen: for an index of any generations, with the tree and the contents exactly as iterating gets to them (Bucket.SeenAt, Bucket.fileSeen), names with a backslash left out, files any that can be read."
  },
  {
   "property": "C82",
   "status": "partial",
   "theorems": [
    "Btrfscue.C82_only_seen",
    "Btrfscue.C82_contents_seen",
    "Btrfscue.C82_only_listed",
    "Btrfscue.C82_contents_partial",
    "Btrfscue.C82_prealloc_shows_old_data",
    "Btrfscue.C82_compressed_copied_raw",
    "Btrfscue.C82_only_listed_always"
   ],
   "note": "First half proved as stated (under Ix.Distinct, stat(2) not failing, device errors only its end); the second half for files C58 covers. Refuted for preallocated and compressed extents by C82_prealloc_shows_old_data, C82_compressed_copied_raw. C82_only_seen and C82_contents_seen: both halves for an index of any generations, in terms of what is stored only, the contents exactly the bytes iterating gets to."
  },
  {
   "property": "C83",
   "status": "partial",
   "theorems": [
    "Btrfscue.C83_recovers_all_partial",
    "Btrfscue.C83_nothing_else",
    "Btrfscue.C83_collision_lost",
    "Btrfscue.C83_recovers_seen",
    "Btrfscue.C83_mixed_generations_lost"
   ],
   "note": "Proved for indexes whose directories are each of one generation with one entry per item; refuted for packed entries of equal name hash (C83_collision_lost); see also C33/C60 for iterations that do not end, C61 for backslashes. C83_recovers_seen: for an index of any generations the destination is in the end exactly the tree seen \u2014 every directory, file contents and link target, and nothing else; C83_mixed_generations_lost refutes C83 for directories of mixed generations."
  },
  {
   "property": "C84",
   "status": "partial",
   "theorems": [
    "Btrfscue.C84_image_recovered_partial",
    "Btrfscue.C84_nothing_else",
    "Btrfscue.C84_image_seen",
    "Btrfscue.C84_mixed_generations_lost"
   ],
   "note": "C83 composed with what recon makes of an image; missing is what C83 does not cover (packed entries of equal name hash, directories whose items are of several generations). See also C82_prealloc_shows_old_data, C83_collision_lost. C84_image_seen: without assuming the image undamaged, exactly what iterating over the items of the image gets to is recovered; C84_mixed_generations_lost: an intact image whose directory has leaves of two generations loses a file silently."
  },
  {
   "property": "C85",
   "status": "partial",
   "theorems": [
    "Btrfscue.C85_paths_partial",
    "Btrfscue.C85_listing_partial",
    "Btrfscue.C85_attributes_partial",
    "Btrfscue.C85_links_partial",
    "Btrfscue.C85_image_partial",
    "Btrfscue.C85_mixed_generations_incomplete",
    "Btrfscue.C85_collision_missing"
   ],
   "note": "for what `Undamaged` covers (one generation per directory, one entry per item); entries packed together for equal name hashes are not shown (C39). Refuted beyond that by C85_mixed_generations_incomplete, C85_collision_missing."
  },
  {
   "property": "C86",
   "status": "partial",
   "theorems": [
    "Btrfscue.C86_agree_exact",
    "Btrfscue.C86_same_content_partial",
    "Btrfscue.C86_image_partial",
    "Btrfscue.C86_session_partial",
    "Btrfscue.C86_crossing_read_short"
   ],
   "note": "files without extents cannot be opened (C55), reads that cross extents are short and gaps keep the buffer's old bytes (C50), so the claim is limited to reads inside an extent. Refuted for crossing reads by C86_crossing_read_short. C86_agree_exact: for any intact extents that do not overlap, of any generations, encoded or not, every gapless read of the mounted file, crossing extents or not, returns what recover writes at those positions, even where both differ from the stored file. C86_session_partial: the same after any history of requests to the mount, for every open file."
  },
  {
   "property": "C87",
   "status": "partial",
   "theorems": [
    "Btrfscue.C87_dump_of_image_partial",
    "Btrfscue.C87_empty_image_crashes"
   ],
   "note": "Refuted for an image without items (C87_empty_image_crashes: dump-index crashes on the index recon made, depending on the file system id). Proved for images with at least one item, all of owner other than 2^64-1."
  },
  {
   "property": "C88",
   "status": "partial",
   "theorems": [
    "Btrfscue.C88_subvolume_hangs",
    "Btrfscue.C88_subvolume_hangs_image",
    "Btrfscue.C88_recursive_exact",
    "Btrfscue.C88_listing_partial",
    "Btrfscue.C88_listing_unique",
    "Btrfscue.C88_ls_partial",
    "Btrfscue.C88_ls_image_partial"
   ],
   "note": "Refuted where a subvolume is met (C88_subvolume_hangs: with subvolume 256 in the top directory ls --recursive never ends; C74: the wrong tree is listed). Proved for directories without entries for other trees, and files; C88_listing_unique: the specified listing is determined. C88_recursive_exact: exactly what ls --recursive of the root prints (or that it never ends) for an index of any generations."
  },
  {
   "property": "C89",
   "status": "proved",
   "theorems": [
    "Btrfscue.C89_lost_inode_content",
    "Btrfscue.C89_lost_inode_recovered",
    "Btrfscue.C89_lost_inode_inline"
   ],
   "note": "Extents as in C58: uncompressed and in known chunks, or one inline extent."
  },
  {
   "property": "C90",
   "status": "proved",
   "theorems": [
    "Btrfscue.C90_done_means_written",
    "Btrfscue.C90_failed_write_reported",
    "Btrfscue.C90_no_failure",
    "Btrfscue.C90_failed_write_leaves_interrupted",
    "Btrfscue.C90_first_write_fails",
    "Btrfscue.C90_rerun_after_failed_write"
   ],
   "note": "Creating the database file (bbolt.Open) and beginning a transaction do not fail in the model; a failed commit is atomic (bbolt)."
  },
  {
   "property": "C91",
   "status": "partial",
   "theorems": [
    "Btrfscue.C91_client_keeps_index_partial",
    "Btrfscue.C91_reads_index",
    "Btrfscue.C91_truncating_open_empties_index",
    "Btrfscue.C91_root"
   ],
   "note": "Refuted for O_TRUNC (C91_truncating_open_empties_index): Open passes the client's flags to os.OpenFile on the index file; a kernel that removes O_TRUNC before asking (no FUSE_ATOMIC_O_TRUNC) hides this."
  },
  {
   "property": "C92",
   "status": "partial",
   "theorems": [
    "Btrfscue.C92_aligned_partial",
    "Btrfscue.C92_nothing_lost",
    "Btrfscue.C92_line_feed_refuted"
   ],
   "note": "partial: names with line feeds, tabs, vertical tabs, form feeds or 0xff are excluded from the alignment theorem; C92_line_feed_refuted shows that a name with a line feed makes one file look like two"
  },
  {
   "property": "C93",
   "status": "partial",
   "theorems": [
    "Btrfscue.C93_table",
    "Btrfscue.C93_machine_partial",
    "Btrfscue.C93_two_tabs_refuted",
    "Btrfscue.C93_machine_recoverable",
    "Btrfscue.C93_image_partial",
    "Btrfscue.C93_stdout",
    "Btrfscue.C93_verbose_refuted"
   ],
   "note": "partial: the single-tab part is false (C93_two_tabs_refuted); C93_machine_partial gives the exact number of tabs, C93_machine_recoverable reads the entries back; for the whole program C93_stdout: with --verbose a line about the samples comes first, with --machine as well (C93_verbose_refuted)"
  },
  {
   "property": "C94",
   "status": "partial",
   "theorems": [
    "Btrfscue.C94_first",
    "Btrfscue.C94_last_partial",
    "Btrfscue.C94_special_objects_missed",
    "Btrfscue.C94_too_many"
   ],
   "note": "partial: without a given object id, KL stops at 2^64-256; C94_special_objects_missed shows the checksum items it misses (no caller in the repository leaves the id out for such items)"
  },
  {
   "property": "C95",
   "status": "partial",
   "theorems": [
    "Btrfscue.C95_linear_partial",
    "Btrfscue.C95_striped_exact"
   ],
   "note": "partial because the code violates it: C95_striped_exact shows that for RAID0/10/5/6 with at least two data columns on different devices the translation is right exactly in the first stripe length of a chunk"
  },
  {
   "property": "C96",
   "status": "partial",
   "theorems": [
    "Btrfscue.C96_one_device_partial",
    "Btrfscue.C96_other_device_silent",
    "Btrfscue.C96_striped_wrong"
   ],
   "note": "partial because the code violates it: C96_other_device_silent, C96_striped_wrong"
  },
  {
   "property": "C97",
   "status": "proved",
   "theorems": [
    "Btrfscue.C97_checksums_unread",
    "Btrfscue.C97_bad_checksum_indexed"
   ],
   "note": "hypothesis payloadsBehind excludes items whose 32-bit offset wraps into the checksum; C97_bad_checksum_indexed: leaves with wrong checksums are indexed without a warning"
  },
  {
   "property": "C98",
   "status": "partial",
   "theorems": [
    "Btrfscue.C98_reported_is_scanned_partial",
    "Btrfscue.C98_reported_block_size_crashes"
   ],
   "note": "partial because the code violates it: C98_reported_block_size_crashes shows that the block size identify prints (12 KiB for four 16 KiB leaves) makes recon crash. C98_reported_is_scanned_partial proves the rest for block sizes dividing 64 KiB."
  },
  {
   "property": "C99",
   "status": "partial",
   "theorems": [
    "Btrfscue.C99_recon_status",
    "Btrfscue.C99_ls_status_partial",
    "Btrfscue.C99_dump_status",
    "Btrfscue.C99_recover_status_partial",
    "Btrfscue.C99_recover_status_says_nothing",
    "Btrfscue.C99_ls_missing_is_success"
   ],
   "note": "recon: status 0 exactly if all matching leaves are sound and no write failed, 1 exactly if a write failed, and 0 means everything is stored. ls, dump-index, recover: status 1 exactly if the metadata file (for recover also image or destination) cannot be used. False for recover and ls beyond that: failures are only warned about, status stays 0 (C99_recover_status_says_nothing, C99_ls_missing_is_success)."
  },
  {
   "property": "C100",
   "status": "proved",
   "theorems": [
    "Btrfscue.C100_second_run_changes_nothing"
   ],
   "note": "Proved without restriction on the index; the second run needs stat(2) and lstat(2) not to fail (with failing stat see C56_stat_error_truncates)."
  },
  {
   "property": "C101",
   "status": "partial",
   "theorems": [
    "Btrfscue.C101_all_but_one_seen",
    "Btrfscue.C101_all_but_one_partial"
   ],
   "note": "Files that can be recovered in the sense of C81/C82 (C82_prealloc_shows_old_data and C82_compressed_copied_raw show why others are excluded). `C101_all_but_one_seen` is the same for an index of any generations, in terms of what iterating gets to."
  },
  {
   "property": "C102",
   "status": "partial",
   "theorems": [
    "Btrfscue.C102_finished_seen",
    "Btrfscue.C102_finished_partial",
    "Btrfscue.C102_truncated_stays"
   ],
   "note": "False for the file that was being written when the first run was killed: C102_truncated_stays (the second run skips it without a warning; --clobber would repair it). C102_finished_partial: everything else is complete, and that file is left as it was. `C102_finished_seen` is the same for an index of any generations."
  },
  {
   "property": "C103",
   "status": "partial",
   "theorems": [
    "Btrfscue.C103_clobber_repairs_partial",
    "Btrfscue.C103_clobber_repairs_seen"
   ],
   "note": "Also C82_only_listed_always: at every point of every run of such a sequence only listed things are below the destination. Partial for the same reasons as C81 (names with a backslash, files C58 does not cover). `C103_clobber_repairs_seen` is the same for an index of any generations."
  },
  {
   "property": "C104",
   "status": "proved",
   "theorems": [
    "Btrfscue.C104_refused",
    "Btrfscue.C104_listing_status",
    "Btrfscue.C104_recover_status",
    "Btrfscue.C104_mount_status"
   ],
   "note": "Proved for block sizes below 2^57 (C18_wraps) and metadata records that can be read (a record too short to hold a version crashes, C25). Flag parsing by cobra is not modelled."
  },
  {
   "property": "C105",
   "status": "proved",
   "theorems": [
    "Btrfscue.C105_only_recon_changes_metadata",
    "Btrfscue.C105_only_recover_changes_files",
    "Btrfscue.C105_recover",
    "Btrfscue.C105_ls",
    "Btrfscue.C105_dump",
    "Btrfscue.C105_recon"
   ],
   "note": "The mounted file system is read-only apart from C91; what happens while mounted is in the models of the nodes, not in `program`."
  },
  {
   "property": "C106",
   "status": "partial",
   "theorems": [
    "Btrfscue.C106_recover_partial",
    "Btrfscue.C106_stripes_refuted"
   ],
   "note": "False of the code: mapping the first address prints a debug line for each chunk (C106_stripes_refuted). Proved: nothing else is printed, at most once, and nothing if no address is mapped. The messages with --verbose are the subject of C110 and C111."
  },
  {
   "property": "C107",
   "status": "partial",
   "theorems": [
    "Btrfscue.C107_node_requests",
    "Btrfscue.C107_open_files_partial",
    "Btrfscue.C107_nodes_stay",
    "Btrfscue.C107_old_bytes_refuted"
   ],
   "note": "False of the code for reads (C107_old_bytes_refuted): where the device ends early or the file has a gap, the answer contains what an earlier request left in the buffer. Proved for all requests to nodes as stated (C107_node_requests), and for open files given the buffer (C107_open_files_partial). Overlapping requests: C76, C77."
  },
  {
   "property": "C108",
   "status": "proved",
   "theorems": [
    "Btrfscue.C108_nothing_made_up"
   ],
   "note": "For files whose extent items can be read (`FileReadable`: any generations, inline or not) and links with an inline target. Bytes of compressed extents are the raw ones (C58). stat(2) failing is excluded: then existing files are truncated (C56)."
  },
  {
   "property": "C109",
   "status": "partial",
   "theorems": [
    "Btrfscue.C109_bytes_partial",
    "Btrfscue.C109_inline_and_more_refuted",
    "Btrfscue.C109_recovered_is_shown_partial",
    "Btrfscue.C109_recovered_contents_partial",
    "Btrfscue.C109_shown_is_recovered",
    "Btrfscue.C109_no_inode_refuted",
    "Btrfscue.C109_image_partial"
   ],
   "note": "Refuted where inode items are lost (C109_no_inode_refuted: recover recovers what the mount lists but cannot look up); proved when everything that has an entry has an inode item. Directories that have several places (a subvolume is also at subvol_N) are recovered at one of them only; names with a backslash, `.`/`..` or a slash are not recovered (C57, C61). Indexes as in `SameOK`: whole entries, one object per name; see C83 and C39 for what happens otherwise. C109_bytes_partial: the bytes of a recovered file are those reads of the mounted file give (reads not crossing a gap; extents only, or one inline piece only). Refuted for files with inline data and more extents. C109_image_partial: the whole way from an image, through recon, both directions."
  },
  {
   "property": "C110",
   "status": "proved",
   "theorems": [
    "Btrfscue.C110_verbose"
   ],
   "note": "C110_verbose, for every command and outcome. The messages of recover are modelled in Model/RecoverSay; Proof/RecoverSay shows that the functions with messages do what those of Model/Recover do."
  },
  {
   "property": "C111",
   "status": "partial",
   "theorems": [
    "Btrfscue.C111_messages_partial",
    "Btrfscue.C111_everything_seen_partial",
    "Btrfscue.C111_backslash_refuted"
   ],
   "note": "Partial because the code passes over names with a backslash, and `.`/`..`, without a word (`C111_backslash_refuted`); for all other names it is proved. Only an inline link target is compared with the one printed. The messages of the debug print in Physical (C106) are not judged."
  },
  {
   "property": "C112",
   "status": "partial",
   "theorems": [
    "Btrfscue.C112_separate_files",
    "Btrfscue.C112_equal_contents_partial",
    "Btrfscue.C112_hard_link_refuted"
   ],
   "note": "Equal contents are proved. One file is false of the code: it makes copies (`C112_hard_link_refuted`), and always does (`C112_separate_files`, which also shows that old files get no further names). Not said: that the copies need the space of the file once more."
  },
  {
   "property": "C113",
   "status": "partial",
   "theorems": [
    "Btrfscue.C113_more_is_more_partial",
    "Btrfscue.C113_newer_version_loses_files",
    "Btrfscue.C113_image_partial",
    "Btrfscue.C113_mount_partial",
    "Btrfscue.C113_path_partial",
    "Btrfscue.C113_mount_refuted"
   ],
   "note": "False of the code: a newer version of a single entry of a directory makes recover pass over the other entries, without a warning (C113_newer_version_loses_files). Proved if all that is added is of objects of which there was nothing before, and no root items. C113_mount_partial and C113_path_partial: the same for the mounted file system and for ls PATH; C113_mount_refuted. C113_image_partial: the whole way from two images, through recon, to the recovered files."
  },
  {
   "property": "C114",
   "status": "partial",
   "theorems": [
    "Btrfscue.C114_recovered_is_listed_partial",
    "Btrfscue.C114_listed_is_recovered_partial",
    "Btrfscue.C114_backslash_refuted",
    "Btrfscue.C114_path_refuted",
    "Btrfscue.C114_subvolume_refuted",
    "Btrfscue.C114_image_partial"
   ],
   "note": "Proved both ways for the main tree without subvolume entries and without directories that contain themselves; the size column is the length of the recovered file. Refuted: names with backslash (listed, not recovered, no warning), subvolumes (ls -R never ends), ls PATH (shows an entry of a later generation that is not recovered). C114_image_partial states both directions the whole way, from an image over recon to ls and recover."
  },
  {
   "property": "C115",
   "status": "partial",
   "theorems": [
    "Btrfscue.C115_same_path_partial",
    "Btrfscue.C115_refuted",
    "Btrfscue.C115_subvolume_refuted"
   ],
   "note": "Proved where what is stored under the hash of a name is also what iterating gets to, names are not repeated and inode items are there; the object is the same, but ls always takes its inode from tree 5. Refuted: directories of several generations (C115_refuted), files in subvolumes (C115_subvolume_refuted: ls prints the size of another file)."
  },
  {
   "property": "C116",
   "status": "partial",
   "theorems": [
    "Btrfscue.C116_crash_iff",
    "Btrfscue.C116_whole_items_partial",
    "Btrfscue.C116_file_attr",
    "Btrfscue.C116_one_torn_entry_refuted"
   ],
   "note": "False of the code (C116_one_torn_entry_refuted: one entry cut off ends the process at the next lookup or listing). C116_crash_iff gives the exact condition for each request about a node, C116_file_attr for open files (reads never crash: C67_read_never_crashes). Missing: ranges that cannot be iterated over (C32/C33)."
  },
  {
   "property": "C117",
   "status": "partial",
   "theorems": [
    "Btrfscue.C117_directory_crash_iff",
    "Btrfscue.C117_recursive_crash_iff",
    "Btrfscue.C117_recursive_crash_cause",
    "Btrfscue.C117_ls_crash_iff",
    "Btrfscue.C117_whole_items_partial",
    "Btrfscue.C117_one_torn_entry_refuted",
    "Btrfscue.C117_lookup_crash_iff",
    "Btrfscue.C117_ls_paths_crash_iff",
    "Btrfscue.C117_ls_recursive_paths_crash_iff",
    "Btrfscue.C117_lookup_order",
    "Btrfscue.C117_ls_order"
   ],
   "note": "False of the code (C117_one_torn_entry_refuted). Exact: C117_directory_crash_iff, C117_recursive_crash_iff (where one cannot go down for ever), C117_ls_crash_iff for the command without arguments, C117_ls_paths_crash_iff for any arguments, C117_ls_recursive_paths_crash_iff with --recursive, C117_lookup_crash_iff for looking up a path (C117_lookup_order, C117_ls_order: whether one torn entry matters depends on the order of the entries); C117_recursive_crash_cause without that condition. Missing: ranges that cannot be iterated over (C32/C33), items whose size field is wrong."
  },
  {
   "property": "C118",
   "status": "partial",
   "theorems": [
    "Btrfscue.C118_crash_cause",
    "Btrfscue.C118_whole_items_partial",
    "Btrfscue.C118_returned_readable",
    "Btrfscue.C118_torn_entry_ends",
    "Btrfscue.C118_torn_entry_crashes",
    "Btrfscue.C118_one_torn_entry_refuted"
   ],
   "note": "False of the code (C118_one_torn_entry_refuted; C118_torn_entry_crashes for every store with a torn entry in the top directory and a destination that exists; C118_torn_entry_ends in every environment). C118_crash_cause: what any crash is due to. C118_returned_readable: a run that returns has read all entries of all directories it did not warn about."
  },
  {
   "property": "C119",
   "status": "partial",
   "theorems": [
    "Btrfscue.C119_one_device_partial",
    "Btrfscue.C119_other_device_refuted",
    "Btrfscue.C119_striped_refuted"
   ],
   "note": "partial because the code violates it: C119_other_device_refuted, C119_striped_refuted"
  },
  {
   "property": "C120",
   "status": "partial",
   "theorems": [
    "Btrfscue.C120_hang_cause",
    "Btrfscue.C120_session_cause",
    "Btrfscue.C120_answered_partial",
    "Btrfscue.C120_never_answered",
    "Btrfscue.C120_opendir_hangs"
   ],
   "note": "C120_opendir_hangs: refuted, opening the directory `rescue` on an index of three items is never answered. C120_hang_cause: for every index there is a bound beyond which only requests that start an iteration that does not end are not answered, in every state; C120_session_cause: the same for sessions. C120_never_answered: the converse for lookup, opendir, listxattr. C120_answered_partial: on an index whose ranges are well behaved every session's requests are answered (or one ends the process, C116). Missing: indexes with an endless iteration."
  },
  {
   "property": "C121",
   "status": "proved",
   "theorems": [
    "Btrfscue.C121_images_seen"
   ],
   "note": "reconEach is the command run on one image after the other with the same metadata file; the index of the images is characterized by the items in them only (Spec/Images), so the order does not matter (Bucket.IndexOfAll.same). As in C84_image_seen, what is brought back is what iterating over the items gets to (see C84_mixed_generations_lost), outside what C83 does not cover; images that disagree about an item: C79_last_scan_wins."
  }
 ]
}
