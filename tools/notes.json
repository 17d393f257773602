{
 "C03": {
  "note": "The sign, totality and agreement with the index are proved; the doc comment's -1/0/+1 is refuted (C03_key_compare_not_unit: type differences are returned unscaled)."
 },
 "C10": {
  "note": "Proved below 64 KiB in total; beyond, 16-bit wrap-around crashes complete items (C10_wraps). Exact: C10_data_exact gives the result for all lengths, C10_crash_iff says when it crashes."
 },
 "C11": {
  "note": "Proved for stripe numbers up to 2046; C11_wraps shows the 16-bit wrap for 2047. Exact for every number: C11_stripe_exact."
 },
 "C12": {
  "note": "Exactness and the bound are proved; sizes >= 2^63 crash (C12_negative_size_crashes)."
 },
 "C14": {
  "status": "partial",
  "note": "False of the code: C14_scan_crash_iff gives the exact crash condition, C14_scan_can_crash and C14_bad_offset_crashes the counterexamples, C14_scan_partial the safe blocks."
 },
 "C17": {
  "note": "Proved except the documented panic, which fails for buffers with spare capacity (C17_next_reads_past_len)."
 },
 "C18": {
  "note": "Proved for block sizes below 2^57; C18_wraps shows the wrap beyond. Exact: C18_accepts_iff."
 },
 "C19": {
  "status": "partial",
  "note": "Full-block-or-error is proved for lawful readers; the second half (a full read never reports EOF) is false: C19_eof_on_full_read."
 },
 "C20": {
  "note": "For every (owner,key) sorting before the metadata entry (every owner below 2^64-1) and histories not overwriting it."
 },
 "C21": {
  "note": "False of the code for index generations below the maximum (C21_documented_choice_fails); the actual choice is proved, and that it is the documented one at the maximal generation used by all read-only opens. C21_documented_iff says exactly when the two agree."
 },
 "C22": {
  "note": "Proved for lookups not sorting after the metadata entry, with the exact crash condition C22_crash_iff; C22_crash_after_sentinel refutes the rest."
 },
 "C24": {
  "note": "False for one key: C24_colliding_insert; proved for all histories that do not use the metadata key. Exact for every history: C24_metadata_exact."
 },
 "C25": {
  "note": "Block sizes are compared modulo 2^32 and AllowOldVersion also skips the block size and FSID checks (part of Options.accepts)."
 },
 "C29": {
  "note": "False of the code: C29_lookup_after_commit_crashes, C29_lookup_after_auto_commit_crashes. Proved: lookups see everything after an insert that does not trigger a commit. Exact after any history: C29_lookup_exact (crash iff the last operation left nothing pending)."
 },
 "C30": {
  "note": "False of the code: C30_failed_rawtx_persists. Proved: nothing of a failed function is durable at its return, a successful one is durable exactly. C30_failure_is_durable: after any history the failed function's effect is durable once the index is closed."
 },
 "C31": {
  "note": "Sound on indexes satisfying RangeOK; C31_wrong_type_items shows an index where a range visits items of another type."
 },
 "C32": {
  "note": "C32_complete_iff gives the exact condition: on a well-behaved index the iteration is complete iff all keys of the range share one newest generation; C32_incomplete refutes the general claim."
 },
 "C33": {
  "note": "Refuted in general (C33_max_generation_hangs, C33_wraps_forever, C33_two_subvolumes_hang). C33_ends_iff gives the exact condition for owners with intact items: the iteration never ends iff the next owner's first key occurs for this owner in the chosen generation, and every key from there and from the start on has that generation and lies inside the range."
 },
 "C34": {
  "note": "All items visited once, in order, but also the metadata entry; crashes on an empty index and at generations below the maximum. Exact for the empty index: C34_empty_exact."
 },
 "C35": {
  "note": "Complete if subvolume 256 exists and the root items share a generation; otherwise refuted (C35_needs_subvolume_256). Exact: C35_listed_exact."
 },
 "C36": {
  "note": "Proved for indexes whose chunks are intact, disjoint and of one newest generation; C36_mixed_generations_wrong refutes the rest. C36_physical_exact says exactly what Physical answers for every index with intact seen chunks, whatever their generations and overlaps."
 },
 "C37": {
  "note": "Returns when at least one intact chunk is stored; C37_no_chunks_crashes and C37_truncated_chunk_crashes refute the rest. C37_returns_iff: on an index whose items are stored as recon stores them Physical returns if and only if every chunk item that iteration reaches has its first stripe and one of them has stripes; otherwise it crashes."
 },
 "C38": {
  "note": "Sound and returning on indexes whose directories are well behaved; C38_lookup_hangs and C38_truncated_entry_crashes refute the rest. See C39_lookup_exact for what exactly is found. C38_hang_cause (every index): only a path that leads to or through a directory whose iteration is endless makes a lookup not end. C117_lookup_crash_iff: exactly which damaged entries make a lookup crash. C38_hang_iff (every index, tree and path): exactly which lookups do not end; every other has one answer that does not depend on how many iterations are allowed."
 },
 "C39": {
  "note": "Proved for entries that come first in their item; C39_hash_collision_not_found refutes it for the second of two entries with equal hash. Exact for any generations and collisions: C39_lookup_exact."
 },
 "C40": {
  "note": "Completeness needs every matching leaf to be sound (otherwise recon crashes, C42); soundness holds always, also after a crash."
 },
 "C41": {
  "note": "For devices whose matching leaves are sound and do not claim the index's own metadata entry (tree 2^64-1)."
 },
 "C42": {
  "note": "The full claim is false: C42_crash_iff gives the exact crash condition, C42_bad_count_crashes, C42_bad_offset_crashes, C42_zero_block_size and C42_crashing_device refute it; proved for well-formed leaves; also proved what survives a crash or read error."
 },
 "C43": {
  "note": "For sound devices that do not claim the metadata entry; other file systems are refused."
 },
 "C46": {
  "note": "The first leaf's offset is not counted: exact condition proved; C46_four_samples_too_small and C46_single_sample_guess refute the full claim. The float64 division is a parameter bounded by AvgOK."
 },
 "C47": {
  "note": "Exactly n sorted distinct block-aligned offsets incl. the fixed ones, if it returns; refuted otherwise: C47_few_samples_crash, C47_many_samples_hang, C47_superblocks_missed. Exact: C47_returns_exactly, C47_returns_on_blocks; with the default limits it returns (C47_default_limits_return)."
 },
 "C48": {
  "note": "Samples lie inside the device for large enough devices; C48_sample_outside and C48_identify_fails refute it for the rest. Exact: C48_inside_iff."
 },
 "C49": {
  "note": "Rounding, fused multiply-add and map iteration order are modelled; what is assumed of float64 rounding and math.Log2 is Spec/Float64, shown satisfiable by truncation to 53 bits (float64_trunc). The sign of zero is not modelled."
 },
 "C50": {
  "note": "Refuted in general: reads crossing extents come back short (C50_crossing_read_short), gaps and truncated devices leave old buffer bytes in the result. Proved: bytes returned are right and complete up to the end of the first extent for intact gapless extents. Exact for gapless extents: C50_read_exact gives the number of bytes for any number of extents, C50_complete_iff says which reads are complete."
 },
 "C51": {
  "note": "Proved for extents in order without overlap; false for overlapping extents (C51_overlapping_extents_too_small). Exact: C51_covers_iff."
 },
 "C54": {
  "note": "Refuted: mount passes a nil *os.File as non-nil interface, so data reads fail with EIO (C54_no_device_io_error). Holes do read as zeroes, and Read itself would return zeroes for a nil interface."
 },
 "C52": {
  "note": "Refuted where the inode item of an entry is lost (C52_no_inode_refuted: the name is listed, but Lookup fails with ENOATTR); everything else holds: history independence for every index and sequence of operations, names not listed answer ENOENT, names listed are found with the type listed and fail exactly if the inode item is not found. C52_directory_exact: for directories with whole entries of any generations the listing and Lookup show exactly the entries that iterating over the directory gets to, and the attributes are there exactly if the inode item is."
 },
 "C53": {
  "note": "Get and list agree for every index on which the operations return. C53_attributes_exact: for whole attributes of any generations, exactly what is listed and which value is read."
 },
 "C55": {
  "note": "Refuted: files without extent items (all empty files) cannot be opened (C55_no_extents_not_found), compressed inline extents crash (C55_compressed_inline_crashes). Proved: files with intact inline or regular extents open. Exact for arbitrary payloads: C55_open_outcome."
 },
 "C70": {
  "note": "For indexes satisfying DirsOK; in other indexes Lookup may hang or be led by items of another type (see C31, C33, C38). C70_inode_item_as_entry: the range over a directory can run into inode items, which are then taken for entries. C70_walk_exact: where exactly every path leads, for whole entries of any generations. A Lookup whose target has no inode item fails (C52_no_inode_refuted), which C70_walk_exact takes into account."
 },
 "C71": {
  "note": "C71_open_exact says what an opened file is whatever the generations of its extents and of the chunks: exactly the extents the range iteration sees, each placed by the chunk its address is under. The theorem that this is the newest version of the file holds for extents and chunks of one generation each (FileOK, AddrOK); refuted beyond that by C71_mixed_generations_cut."
 },
 "C64": {
  "note": "For directories whose entries are intact and of one generation (DirWhole) and intact inode items; mixed generations inherit C32. Refuted beyond that by C64_mixed_generations_incomplete. C64_listing_exact says what is listed for directories of any generations: the entries up to the first that lacks the generation of the first."
 },
 "C65": {
  "note": "Refuted by C65_cycle_hangs (a directory containing itself) and by C88_subvolume_hangs (a subvolume with id 256 in the top directory). C65_ends_iff gives the exact condition on an undamaged index: recursive listing ends iff one cannot go down for ever from the directory. C65_recursive_exact: the same, with the text printed, for an index of any generations and damage. C65_hang_cause (every index, well formed or not): a listing that never ends has, below the directory, a directory with endless iteration or an infinite descending chain of directories; C65_endless_directory is the converse for the former. C65_run_hang_cause: the same for the whole command with any path arguments. C65_path_hang_iff and C65_top_hang_iff (every index): exactly when ls of one path, or of none, without --recursive does not end."
 },
 "C73": {
  "note": "Proved for every non-empty index; the index metadata entry is shown as an item too; an empty index crashes (C73_empty_index_crashes)."
 },
 "C74": {
  "note": "Refuted for subvolumes: the listing always uses tree 5 (C74_subvolume_wrong_tree). Proved for paths leading into the file system tree. C74_ls_exact: what ls prints for every argument (the listing is always that of tree 5)."
 },
 "C56": {
  "note": "Refuted when stat(2) fails for a reason other than a missing file (C56_stat_error_truncates: the existing file is truncated). Proved for every index, image, failure pattern and crash point when stat does not fail spuriously."
 },
 "C57": {
  "note": "Refuted for indexes holding symbolic links (C57_link_escapes, C57_link_creates_outside) and empty names (C57_empty_name_replaces_dest). Proved: the paths used lie lexically inside dest for every index; nothing outside changes when the index lists no symbolic links."
 },
 "C58": {
  "note": "Refuted for preallocated, compressed and encrypted extents, for extents of mixed generations and for a dropped Truncate error. Proved for plain extents in known chunks (any number, any length) and for inline extents. C58_content_exact says what the contents are for any intact extents and chunks — overlapping, encoded, of any generations, with an inode item or without: the raw device bytes under the extents the iteration gets to. C58_pieces_exact adds inline extents in any mix with the others."
 },
 "C59": {
  "note": "Refuted for read errors other than io.EOF (C59_read_error_is_silent). Proved for devices that end early; C59_error_exact: with a device that only ends early an error is reported exactly if an extent lies beyond its end. C59_no_byte_made_up: whatever the device and the system calls do, at every point, no byte is made up: each byte of the file is one of its extents or zero. C59_pieces_error_exact adds inline extents in any mix."
 },
 "C60": {
  "note": "Each directory is entered once: proved for all runs. Termination refuted where an index iteration does not end (C60_endless_listing); proved where they end. C60_hang_cause: for every index, a run that does not end has entered a directory whose entries, or the extents of a file among them, cannot be iterated over (or the chunks or subvolumes cannot); C60_endless_top: such a top directory always keeps the run from ending."
 },
 "C62": {
  "note": "For inline extents, the only ones btrfs writes for links."
 },
 "C72": {
  "note": "Refuted (C72_lost_extent_destroys); proved: then an error is reported."
 },
 "C75": {
  "note": "Refuted: huge holes, huge inline sizes, cut items and missing chunks crash. C75_sound_ends_partial: if every extent item seen is complete, no hole is longer than 2^48 bytes and there is a chunk for those with an address, it ends in EVERY environment. C75_crash_iff: on a quiet machine this is exact, it crashes if and only if an item seen is not so."
 },
 "C61": {
  "note": "Proved for runs that end, without --clobber, for every listed file, link, directory and subvolume whose name has no backslash, with any failing system calls (a warning takes the place of the file); C61_backslash_skipped: names with a backslash are skipped silently. Exact: C61_backslash_never (whatever runs to an initially empty directory, with or without --clobber, no name below it ever has a backslash)."
 },
 "C76": {
  "note": "Refuted for overlapping first requests: the shared stripe map is filled without a lock, and two schedules are exhibited in which a request panics (C76_overlapping_crash) or is given a wrong place (C76_overlapping_wrong). Proved: once one translation has completed, every schedule of every number of further requests gives each the answer of a single request. Steps are atomic; Go's memory model promises less for racing writes, which only adds behaviours to the refuted part."
 },
 "C77": {
  "note": "Refuted for overlapping first lookups: the directory map is used while another lookup is still filling it, so an existing name is reported missing (C77_overlapping_missing). Proved for every schedule: what a lookup finds is listed in the directory under that name; and once the map is filled every overlapping lookup answers like a single one. Go may also crash on concurrent map writes, which the model does not show."
 },
 "C78": {
  "note": "Killed between any two inserts (Interrupted), between blocks, or stopped by a read error; repeated any number of times. A kill inside a database transaction is bbolt's atomicity, part of the trusted base."
 },
 "C80": {
  "note": "The first half is proved; the second is false of the code: the option is never read (C80_option_ignored) and stale items stay (C80_stale_items_stay)."
 },
 "C81": {
  "note": "For files C58 covers (plain extents or one inline extent) and names without a backslash; any calls other than stat(2) may fail, device errors are its end only; without --clobber; names must be distinct (Ix.Distinct). Refuted for other device errors by C81_read_error_is_silent. C81_everything_seen: for an index of any generations, with the tree and the contents exactly as iterating gets to them (Bucket.SeenAt, Bucket.fileSeen), names with a backslash left out, files any that can be read."
 },
 "C82": {
  "note": "First half proved as stated (under Ix.Distinct, stat(2) not failing, device errors only its end); the second half for files C58 covers. Refuted for preallocated and compressed extents by C82_prealloc_shows_old_data, C82_compressed_copied_raw. C82_only_seen and C82_contents_seen: both halves for an index of any generations, in terms of what is stored only, the contents exactly the bytes iterating gets to."
 },
 "C83": {
  "note": "Proved for indexes whose directories are each of one generation with one entry per item; refuted for packed entries of equal name hash (C83_collision_lost); see also C33/C60 for iterations that do not end, C61 for backslashes. C83_recovers_seen: for an index of any generations the destination is in the end exactly the tree seen — every directory, file contents and link target, and nothing else; C83_mixed_generations_lost refutes C83 for directories of mixed generations."
 },
 "C84": {
  "note": "C83 composed with what recon makes of an image; missing is what C83 does not cover (packed entries of equal name hash, directories whose items are of several generations). See also C82_prealloc_shows_old_data, C83_collision_lost. C84_image_seen: without assuming the image undamaged, exactly what iterating over the items of the image gets to is recovered; C84_mixed_generations_lost: an intact image whose directory has leaves of two generations loses a file silently."
 },
 "C85": {
  "note": "for what `Undamaged` covers (one generation per directory, one entry per item); entries packed together for equal name hashes are not shown (C39). Refuted beyond that by C85_mixed_generations_incomplete, C85_collision_missing."
 },
 "C86": {
  "note": "files without extents cannot be opened (C55), reads that cross extents are short and gaps keep the buffer's old bytes (C50), so the claim is limited to reads inside an extent. Refuted for crossing reads by C86_crossing_read_short. C86_agree_exact: for any intact extents that do not overlap, of any generations, encoded or not, every gapless read of the mounted file, crossing extents or not, returns what recover writes at those positions, even where both differ from the stored file. C86_session_partial: the same after any history of requests to the mount, for every open file."
 },
 "C87": {
  "note": "Refuted for an image without items (C87_empty_image_crashes: dump-index crashes on the index recon made, depending on the file system id). Proved for images with at least one item, all of owner other than 2^64-1."
 },
 "C88": {
  "note": "Refuted where a subvolume is met (C88_subvolume_hangs: with subvolume 256 in the top directory ls --recursive never ends; C74: the wrong tree is listed). Proved for directories without entries for other trees, and files; C88_listing_unique: the specified listing is determined. C88_recursive_exact: exactly what ls --recursive of the root prints (or that it never ends) for an index of any generations."
 },
 "C89": {
  "note": "Extents as in C58: uncompressed and in known chunks, or one inline extent."
 },
 "C90": {
  "note": "Creating the database file (bbolt.Open) and beginning a transaction do not fail in the model; a failed commit is atomic (bbolt)."
 },
 "C91": {
  "note": "Refuted for O_TRUNC (C91_truncating_open_empties_index): Open passes the client's flags to os.OpenFile on the index file; a kernel that removes O_TRUNC before asking (no FUSE_ATOMIC_O_TRUNC) hides this."
 },
 "C92": {
  "note": "partial: names with line feeds, tabs, vertical tabs, form feeds or 0xff are excluded from the alignment theorem; C92_line_feed_refuted shows that a name with a line feed makes one file look like two"
 },
 "C93": {
  "note": "partial: the single-tab part is false (C93_two_tabs_refuted); C93_machine_partial gives the exact number of tabs, C93_machine_recoverable reads the entries back; for the whole program C93_stdout: with --verbose a line about the samples comes first, with --machine as well (C93_verbose_refuted)"
 },
 "C94": {
  "note": "partial: without a given object id, KL stops at 2^64-256; C94_special_objects_missed shows the checksum items it misses (no caller in the repository leaves the id out for such items)"
 },
 "C95": {
  "note": "partial because the code violates it: C95_striped_exact shows that for RAID0/10/5/6 with at least two data columns on different devices the translation is right exactly in the first stripe length of a chunk"
 },
 "C96": {
  "note": "partial because the code violates it: C96_other_device_silent, C96_striped_wrong"
 },
 "C97": {
  "note": "hypothesis payloadsBehind excludes items whose 32-bit offset wraps into the checksum; C97_bad_checksum_indexed: leaves with wrong checksums are indexed without a warning"
 },
 "C98": {
  "note": "partial because the code violates it: C98_reported_block_size_crashes shows that the block size identify prints (12 KiB for four 16 KiB leaves) makes recon crash. C98_reported_is_scanned_partial proves the rest for block sizes dividing 64 KiB."
 },
 "C99": {
  "note": "recon: status 0 exactly if all matching leaves are sound and no write failed, 1 exactly if a write failed, and 0 means everything is stored. ls, dump-index, recover: status 1 exactly if the metadata file (for recover also image or destination) cannot be used. False for recover and ls beyond that: failures are only warned about, status stays 0 (C99_recover_status_says_nothing, C99_ls_missing_is_success)."
 },
 "C100": {
  "note": "Proved without restriction on the index; the second run needs stat(2) and lstat(2) not to fail (with failing stat see C56_stat_error_truncates)."
 },
 "C101": {
  "note": "Files that can be recovered in the sense of C81/C82 (C82_prealloc_shows_old_data and C82_compressed_copied_raw show why others are excluded). `C101_all_but_one_seen` is the same for an index of any generations, in terms of what iterating gets to."
 },
 "C102": {
  "note": "False for the file that was being written when the first run was killed: C102_truncated_stays (the second run skips it without a warning; --clobber would repair it). C102_finished_partial: everything else is complete, and that file is left as it was. `C102_finished_seen` is the same for an index of any generations."
 },
 "C103": {
  "note": "Also C82_only_listed_always: at every point of every run of such a sequence only listed things are below the destination. Partial for the same reasons as C81 (names with a backslash, files C58 does not cover). `C103_clobber_repairs_seen` is the same for an index of any generations."
 },
 "C104": {
  "note": "Proved for block sizes below 2^57 (C18_wraps) and metadata records that can be read (a record too short to hold a version crashes, C25). Flag parsing by cobra is not modelled."
 },
 "C105": {
  "note": "The mounted file system is read-only apart from C91; what happens while mounted is in the models of the nodes, not in `program`."
 },
 "C106": {
  "note": "False of the code: mapping the first address prints a debug line for each chunk (C106_stripes_refuted). Proved: nothing else is printed, at most once, and nothing if no address is mapped. The messages with --verbose are the subject of C110 and C111."
 },
 "C107": {
  "note": "False of the code for reads (C107_old_bytes_refuted): where the device ends early or the file has a gap, the answer contains what an earlier request left in the buffer. Proved for all requests to nodes as stated (C107_node_requests), and for open files given the buffer (C107_open_files_partial). Overlapping requests: C76, C77."
 },
 "C108": {
  "note": "For files whose extent items can be read (`FileReadable`: any generations, inline or not) and links with an inline target. Bytes of compressed extents are the raw ones (C58). stat(2) failing is excluded: then existing files are truncated (C56)."
 },
 "C109": {
  "note": "Refuted where inode items are lost (C109_no_inode_refuted: recover recovers what the mount lists but cannot look up); proved when everything that has an entry has an inode item. Directories that have several places (a subvolume is also at subvol_N) are recovered at one of them only; names with a backslash, `.`/`..` or a slash are not recovered (C57, C61). Indexes as in `SameOK`: whole entries, one object per name; see C83 and C39 for what happens otherwise. C109_bytes_partial: the bytes of a recovered file are those reads of the mounted file give (reads not crossing a gap; extents only, or one inline piece only). Refuted for files with inline data and more extents. C109_image_partial: the whole way from an image, through recon, both directions."
 },
 "C110": {
  "note": "C110_verbose, for every command and outcome. The messages of recover are modelled in Model/RecoverSay; Proof/RecoverSay shows that the functions with messages do what those of Model/Recover do."
 },
 "C111": {
  "note": "Partial because the code passes over names with a backslash, and `.`/`..`, without a word (`C111_backslash_refuted`); for all other names it is proved. Only an inline link target is compared with the one printed. The messages of the debug print in Physical (C106) are not judged."
 },
 "C112": {
  "note": "Equal contents are proved. One file is false of the code: it makes copies (`C112_hard_link_refuted`), and always does (`C112_separate_files`, which also shows that old files get no further names). Not said: that the copies need the space of the file once more."
 },
 "C113": {
  "note": "False of the code: a newer version of a single entry of a directory makes recover pass over the other entries, without a warning (C113_newer_version_loses_files). Proved if all that is added is of objects of which there was nothing before, and no root items. C113_mount_partial and C113_path_partial: the same for the mounted file system and for ls PATH; C113_mount_refuted. C113_image_partial: the whole way from two images, through recon, to the recovered files."
 },
 "C114": {
  "note": "Proved both ways for the main tree without subvolume entries and without directories that contain themselves; the size column is the length of the recovered file. Refuted: names with backslash (listed, not recovered, no warning), subvolumes (ls -R never ends), ls PATH (shows an entry of a later generation that is not recovered). C114_image_partial states both directions the whole way, from an image over recon to ls and recover."
 },
 "C115": {
  "note": "Proved where what is stored under the hash of a name is also what iterating gets to, names are not repeated and inode items are there; the object is the same, but ls always takes its inode from tree 5. Refuted: directories of several generations (C115_refuted), files in subvolumes (C115_subvolume_refuted: ls prints the size of another file)."
 },
 "C116": {
  "note": "False of the code (C116_one_torn_entry_refuted: one entry cut off ends the process at the next lookup or listing). C116_crash_iff gives the exact condition for each request about a node, C116_file_attr for open files (reads never crash: C67_read_never_crashes). Missing: ranges that cannot be iterated over (C32/C33)."
 },
 "C117": {
  "note": "False of the code (C117_one_torn_entry_refuted). Exact: C117_directory_crash_iff, C117_recursive_crash_iff (where one cannot go down for ever), C117_ls_crash_iff for the command without arguments, C117_ls_paths_crash_iff for any arguments, C117_ls_recursive_paths_crash_iff with --recursive, C117_lookup_crash_iff for looking up a path (C117_lookup_order, C117_ls_order: whether one torn entry matters depends on the order of the entries); C117_recursive_crash_cause without that condition. Missing: ranges that cannot be iterated over (C32/C33), items whose size field is wrong."
 },
 "C118": {
  "note": "False of the code (C118_one_torn_entry_refuted; C118_torn_entry_crashes for every store with a torn entry in the top directory and a destination that exists; C118_torn_entry_ends in every environment). C118_crash_cause: what any crash is due to. C118_returned_readable: a run that returns has read all entries of all directories it did not warn about."
 },
 "C119": {
  "note": "partial because the code violates it: C119_other_device_refuted, C119_striped_refuted"
 },
 "C120": {
  "note": "C120_opendir_hangs: refuted, opening the directory `rescue` on an index of three items is never answered. C120_hang_cause: for every index there is a bound beyond which only requests that start an iteration that does not end are not answered, in every state; C120_session_cause: the same for sessions. C120_never_answered: the converse for lookup, opendir, listxattr. C120_answered_partial: on an index whose ranges are well behaved every session's requests are answered (or one ends the process, C116). Missing: indexes with an endless iteration."
 },
 "C121": {
  "note": "reconEach is the command run on one image after the other with the same metadata file; the index of the images is characterized by the items in them only (Spec/Images), so the order does not matter (Bucket.IndexOfAll.same). As in C84_image_seen, what is brought back is what iterating over the items gets to (see C84_mixed_generations_lost), outside what C83 does not cover; images that disagree about an item: C79_last_scan_wins."
 }
}