{
 "claims": [
  {
   "property": "C01",
   "status": "proved",
   "theorems": [
    "Verif.Enc.C01_utf8_roundtrip",
    "Verif.Enc.C01_utf8_standard",
    "Verif.Enc.C01_utf8_text_roundtrip"
   ],
   "note": "All code points; bytes agree with the core library's UTF-8 definition."
  },
  {
   "property": "C02",
   "status": "proved",
   "theorems": [
    "Verif.Enc.C02_progress",
    "Verif.Enc.C02_loop_terminates",
    "Verif.Enc.C02_valid_iff",
    "Verif.Enc.C02_invalid_iff",
    "Verif.Enc.C02_stable",
    "Verif.Enc.C02_resume",
    "Verif.Enc.C02_stray_reports_truncated",
    "Verif.Enc.C02_truncated_only_at_end"
   ],
   "note": "All byte strings. Also records that stray continuation bytes are reported Truncated (see DESIGN.md)."
  },
  {
   "property": "C03",
   "status": "proved",
   "theorems": [
    "Verif.Enc.C03_utf16_roundtrip",
    "Verif.Enc.C03_utf16_standard",
    "Verif.Enc.C03_utf16_progress",
    "Verif.Enc.C03_utf16_decode_exact"
   ],
   "note": "All scalar values, both byte orders."
  },
  {
   "property": "C04",
   "status": "partial",
   "theorems": [
    "Verif.TConv.C04_whole",
    "Verif.TConv.C04_prefix_partial",
    "Verif.TConv.C04_complete_partial",
    "Verif.TConv.C04_pipe_partial",
    "Verif.TConv.C04_pipe_loses",
    "Verif.TConv.C04_stray_assert",
    "Verif.TConv.C04_read_partial",
    "Verif.TConv.C04_read_sound",
    "Verif.TConv.C04_read_utf16",
    "Verif.TConv.C04_read_odd",
    "Verif.TConv.C04_unicode_roundtrip"
   ],
   "note": "All four encodings in both directions, all cuts and all output buffer sizes, for texts without stray bytes; whole-string conversion and the Unicode round trip for all texts; reading UTF-16 for every even number of bytes (C04_read_utf16), and whatever is read is right (C04_read_sound). False elsewhere, proved: a stray byte with three bytes behind it fails an assertion without flush, an output pipe fed pieces shorter than three bytes loses bytes, an odd UTF-16 source fails an assertion or loses its last byte when read."
  },
  {
   "property": "C05",
   "status": "proved",
   "theorems": [
    "Verif.Stream.C05_any_calls",
    "Verif.Stream.C05_complete",
    "Verif.Stream.C05_write",
    "Verif.Stream.C05_read"
   ],
   "note": "Any chunking on both sides, any destination sizes, including failures of the pipe behind."
  },
  {
   "property": "C06",
   "status": "proved",
   "theorems": [
    "Verif.Label.C06_varint_roundtrip",
    "Verif.Label.C06_varint_length",
    "Verif.Label.C06_varint_prefix_free",
    "Verif.Label.C06_varint_denotes"
   ],
   "note": "All 32-bit values and all suffixes."
  },
  {
   "property": "C07",
   "status": "proved",
   "theorems": [
    "Verif.Label.C07_labels_stay_valid",
    "Verif.Label.C07_labels_equal_iff",
    "Verif.Label.C07_find_exact"
   ],
   "note": "All histories. The hash table is abstracted to the set of ids it holds (table itself: C20). Exhausting the 1 GiB pool is a separate outcome."
  },
  {
   "property": "C08",
   "status": "partial",
   "theorems": [
    "Verif.Num.C08_print_canonical",
    "Verif.Num.C08_roundtrip",
    "Verif.Num.C08_signed_roundtrip_partial",
    "Verif.Num.C08_print_signed_min_is_ub"
   ],
   "note": "Unsigned: all values, radices and suffixes. Signed: all values but -2^63, for which the code negates INT64_MIN (undefined behaviour)."
  },
  {
   "property": "C09",
   "status": "partial",
   "theorems": [
    "Verif.Num.C09_parse_unsigned_exact",
    "Verif.Num.C09_parse_narrow_unsigned_exact",
    "Verif.Num.C09_parse_signed_exact_partial",
    "Verif.Num.C09_parse_signed_min_is_ub",
    "Verif.Num.C09_parse_narrow_signed_exact_partial"
   ],
   "note": "Complete for unsigned types; signed types exclude only the text of -2^63 (undefined behaviour in the code)."
  },
  {
   "property": "C10",
   "status": "partial",
   "theorems": [
    "Verif.Esc.C10_roundtrip_partial",
    "Verif.Esc.C10_control_characters",
    "Verif.Esc.C10_multiline",
    "Verif.Esc.C10_empty_string"
   ],
   "note": "Round trip for all strings the printer leaves free of control characters and overlong forms; the printed control-character escapes are not accepted by the reader (witness theorem)."
  },
  {
   "property": "C11",
   "status": "partial",
   "theorems": [
    "Verif.Esc.C11_no_markup",
    "Verif.Esc.C11_resolve_unique",
    "Verif.Esc.C11_roundtrip_partial",
    "Verif.Esc.C11_overlong_not_restored"
   ],
   "note": "No markup bytes for all strings; round trip except for overlong encodings of special characters (witness theorem)."
  },
  {
   "property": "C12",
   "status": "proved",
   "theorems": [
    "Verif.Esc.C12_roundtrip",
    "Verif.Esc.C12_injective"
   ],
   "note": "All byte strings."
  },
  {
   "property": "C13",
   "status": "partial",
   "theorems": [
    "Verif.Esc.C13_chunked_roundtrip",
    "Verif.Esc.C13_empty_write_asserts",
    "Verif.Esc.C13_terminator_in_plain_mode"
   ],
   "note": "Chunked mode: all sequences of non-empty writes. A zero-length write asserts and non-chunked mode appends the chunk terminator (witness theorems)."
  },
  {
   "property": "C14",
   "status": "partial",
   "theorems": [
    "Verif.Esc.C14_roundtrip_partial",
    "Verif.Esc.C14_trailing_backslash_lost",
    "Verif.Esc.C14_empty_argument_vanishes"
   ],
   "note": "All arguments and followers except the empty argument and quoted arguments ending in a backslash, for which witnesses show the claim false."
  },
  {
   "property": "C15",
   "status": "partial",
   "theorems": [
    "Verif.Str.C15_compare_sign_partial",
    "Verif.Str.C15_equal_exact",
    "Verif.Str.C15_total_order_partial",
    "Verif.Str.C15_huge_strings_misordered",
    "Verif.Str.C15_result_not_unit"
   ],
   "note": "Equality exact; order exact below a 2^31 length difference; beyond it the comparison is wrong (witness theorem)."
  },
  {
   "property": "C16",
   "status": "proved",
   "theorems": [
    "Verif.Str.C16_split_exact",
    "Verif.Str.C16_join_exact",
    "Verif.Str.C16_split_join",
    "Verif.Str.C16_trim_exact",
    "Verif.Str.C16_white_exact",
    "Verif.Str.C16_trim_one_side",
    "Verif.Str.C16_trim_idempotent"
   ],
   "note": "All strings, separators and lists."
  },
  {
   "property": "C17",
   "status": "proved",
   "theorems": [
    "Verif.Sort.C17_sorts",
    "Verif.Sort.C17_any_comparison",
    "Verif.Sort.C17_unique",
    "Verif.Sort.C17_canonical",
    "Verif.Sort.C17_reflexive_comparison_diverges"
   ],
   "note": "All strict weak orders and all views of at most 2^31 items: terminates, sorted, permutation; for any other comparison still a permutation if it terminates. A reflexive comparison never returns (witness theorem)."
  },
  {
   "property": "C18",
   "status": "partial",
   "theorems": [
    "Verif.Arr.C18_step_partial",
    "Verif.Arr.C18_history_partial",
    "Verif.Arr.C18_quick_multiset",
    "Verif.Arr.C18_quick_overlap_corrupts",
    "Verif.Arr.C18_copy",
    "Verif.Arr.C18_self_assignment_faults"
   ],
   "note": "All histories of legal requests from the empty array over every element type. Excluded: quick erasure of a range partly overlapping the last count items (proved to corrupt the array) and self-assignment (proved to read unconstructed memory)."
  },
  {
   "property": "C19",
   "status": "proved",
   "theorems": [
    "Verif.Pool.C19_step",
    "Verif.Pool.C19_history",
    "Verif.Pool.C19_reuse",
    "Verif.Pool.C19_growth_limit"
   ],
   "note": "All histories of allocate, free, read, iterate and clear up to the limit set by 32-bit byte offsets (limit theorem included)."
  },
  {
   "property": "C20",
   "status": "partial",
   "theorems": [
    "Verif.HMap.C20_small_map_partial",
    "Verif.HMap.C20_sizes",
    "Verif.HMap.C20_no_erase_partial",
    "Verif.HMap.C20_may_hang",
    "Verif.HMap.C20_erase_loses"
   ],
   "note": "Every hash function. Total for programs never putting into a map of more than 128 entries (C20_small_map_partial); answers right for any size when nothing is erased and the calls return (C20_no_erase_partial). Beyond that the claim is false: C20_may_hang (a put which never returns), C20_erase_loses (an erase after which another key fails an assertion). Iteration, count, get, put, erase are covered; insertMulti, findNext and eraseAndAdvance are not modelled."
  },
  {
   "property": "C21",
   "status": "proved",
   "theorems": [
    "Verif.BTree.C21_sorted_multiset",
    "Verif.BTree.C21_balanced",
    "Verif.BTree.C21_insert",
    "Verif.BTree.C21_queue_partial",
    "Verif.BTree.C21_not_a_queue",
    "Verif.BTree.C21_capacity_one"
   ],
   "note": "Nodes are values with a chain of parents, not heap cells; see Model.lean. C21_queue_partial and C21_not_a_queue concern the order of equal items, which the code's comment promises and larger trees break; C21_capacity_one shows why the capacity must be at least two."
  },
  {
   "property": "C22",
   "status": "partial",
   "theorems": [
    "Verif.Path.C22_total",
    "Verif.Path.C22_meaning_partial",
    "Verif.Path.C22_meaning_posix_partial",
    "Verif.Path.C22_two_up",
    "Verif.Path.C22_root_lost",
    "Verif.Path.C22_drive_relative",
    "Verif.Path.C22_drive_name",
    "Verif.Path.C22_normal_form",
    "Verif.Path.C22_idempotent_partial",
    "Verif.Path.C22_not_idempotent",
    "Verif.Path.C22_trailing",
    "Verif.Path.C22_anchor_wins"
   ],
   "note": "Total for all arguments. Meaning is preserved exactly when no '..' climbs above a root or drive nor two directories above the start (iff, all POSIX paths; on Windows no name may look like a drive); elsewhere it is lost (witness theorems), because upCount is never incremented. Idempotent except for './'."
  },
  {
   "property": "C23",
   "status": "partial",
   "theorems": [
    "Verif.Path.C23_relative",
    "Verif.Path.C23_absolute_partial",
    "Verif.Path.C23_counterexample"
   ],
   "note": "All relative pairs; all absolute pairs whose descendant does not climb above its root (witness theorem otherwise); Windows names must not look like drives."
  },
  {
   "property": "C24",
   "status": "proved",
   "theorems": [
    "Verif.Path.C24_split",
    "Verif.Path.C24_split_unique",
    "Verif.Path.C24_ext",
    "Verif.Path.C24_splitFull",
    "Verif.Path.C24_splitFull_meaning"
   ],
   "note": "All paths of both formats."
  },
  {
   "property": "C25",
   "status": "partial",
   "theorems": [
    "Verif.Stream.C25_refines",
    "Verif.Stream.C25_read_remaining",
    "Verif.Stream.C25_wide_request_partial",
    "Verif.Stream.C25_wide_request_loses_data"
   ],
   "note": "All sequences of byte-wise and bulk requests, marks and rewinds; requests for two or more contiguous bytes lose data (witness theorem)."
  },
  {
   "property": "C26",
   "status": "partial",
   "theorems": [
    "Verif.Stream.C26_pipe",
    "Verif.Stream.C26_result",
    "Verif.Stream.C26_memory",
    "Verif.Stream.C26_view",
    "Verif.Stream.C26_flush_after_failed_request_asserts",
    "Verif.Stream.C26_huge_write_overruns"
   ],
   "note": "All request sequences on pipe, memory and view streams; multi-byte request failures and writes of 2 GiB or more assert or overrun (witness theorems)."
  },
  {
   "property": "C27",
   "status": "proved",
   "theorems": [
    "Verif.Stream.C27_write",
    "Verif.Stream.C27_read",
    "Verif.Stream.C27_read_returns"
   ],
   "note": "All answer scripts of the operating system, including interrupted and short operations."
  },
  {
   "property": "C28",
   "status": "proved",
   "theorems": [
    "Verif.Spooky.C28_stream",
    "Verif.Spooky.C28_cut",
    "Verif.Spooky.C28_compute",
    "Verif.Spooky.C28_get_harmless",
    "Verif.Spooky.C28_short_tail"
   ],
   "note": "All sequences of append and get, all memory images before construction; total length below 2^64 bytes."
  },
  {
   "property": "C29",
   "status": "proved",
   "theorems": [
    "Verif.Bits.C29_roundUp64_least",
    "Verif.Bits.C29_roundUp64_out_of_range",
    "Verif.Bits.C29_roundUp32_least",
    "Verif.Bits.C29_isPowerOf2_exact",
    "Verif.Bits.C29_isPowerOf2_zero",
    "Verif.Bits.C29_align_least",
    "Verif.Bits.C29_isAligned_exact",
    "Verif.Bits.C29_countSetBits_exact"
   ],
   "note": "All 32/64-bit arguments."
  },
  {
   "property": "C30",
   "status": "proved",
   "theorems": [
    "Verif.Bits.C30_deavalanche32_avalanche32",
    "Verif.Bits.C30_avalanche32_deavalanche32",
    "Verif.Bits.C30_deavalanche64_avalanche64",
    "Verif.Bits.C30_avalanche64_deavalanche64",
    "Verif.Bits.C30_avalanche_bijective"
   ],
   "note": "Both directions, both widths."
  },
  {
   "property": "C31",
   "status": "partial",
   "theorems": [
    "Verif.Date.C31_from_partial",
    "Verif.Date.C31_roundtrip_partial",
    "Verif.Date.C31_days",
    "Verif.Date.C31_days_overflow",
    "Verif.Date.C31_date_roundtrip",
    "Verif.Date.C31_to_partial",
    "Verif.Date.C31_before_epoch",
    "Verif.Date.C31_weekday_wrong"
   ],
   "note": "All instants from 1970 on: date, time and both round trips; dates and day numbers in both directions, before 1970 too. False of the code, proved: no instant before 1970 converts (assertion), and the weekday is always that of the following day."
  },
  {
   "property": "C32",
   "status": "partial",
   "theorems": [
    "Verif.FLoc.C32_partial",
    "Verif.FLoc.C32_ascii",
    "Verif.FLoc.C32_end_of_chunk",
    "Verif.FLoc.C32_inside_character",
    "Verif.FLoc.C32_counterexample"
   ],
   "note": "All texts and all offsets at characters whose 256-byte chunk starts at a character (so all ASCII texts). False elsewhere, proved: a character across a chunk boundary gives a wrong column, an offset inside a character fails an assertion, the end of a text of whole chunks reads outside the table."
  },
  {
   "property": "C33",
   "status": "partial",
   "theorems": [
    "Verif.Liquid.C33_partial",
    "Verif.Liquid.C33_outputs_partial",
    "Verif.Liquid.C33_no_tags",
    "Verif.Liquid.C33_content_iff",
    "Verif.Liquid.C33_percent_counterexample",
    "Verif.Liquid.C33_less_counterexample",
    "Verif.Liquid.C33_unfinished"
   ],
   "note": "All templates whose literal '<' are followed by a byte other than '<' and '%', and whose tags hold no '%'; all texts without '<%'. False elsewhere, proved: a tag's content is handed over exactly when it holds no '%' (iff); '<<%x%>' is not seen as a tag."
  },
  {
   "property": "C34",
   "status": "partial",
   "theorems": [
    "Verif.Pylon.C34_roundtrip_partial",
    "Verif.Pylon.C34_distinct_names",
    "Verif.Pylon.C34_control_characters",
    "Verif.Pylon.C34_byte_ff",
    "Verif.Pylon.C34_word_at_end_hangs",
    "Verif.Pylon.C34_repeated_name",
    "Verif.Pylon.C34_total",
    "Verif.Pylon.C34_words",
    "Verif.Pylon.C34_words_exact"
   ],
   "note": "All trees of any depth and size whose texts have no control characters but tab, LF, CR, no byte FF and no overlong ASCII; and for every source: distinct names in what comes back, and termination except for the endless loop. False elsewhere, proved: control characters and byte FF do not survive, an unquoted word at the end of the source loops for ever, errors end in a null dereference."
  },
  {
   "property": "C35",
   "status": "proved",
   "theorems": [
    "Verif.Pylon.C35_history",
    "Verif.Pylon.C35_never_stuck",
    "Verif.Pylon.C35_remove_frame",
    "Verif.Pylon.C35_copy_asserts",
    "Verif.Pylon.C35_copy_unchecked"
   ],
   "note": "All histories, all hash functions (collisions included), any order of the index entries; the index's hash table is represented by its entries (the table itself is C20). Also proved: copying any non-empty object fails an assertion; with assertions off it works iff the key hashes differ."
  },
  {
   "property": "C36",
   "status": "proved",
   "theorems": [
    "Verif.Cook.C36_once",
    "Verif.Cook.C36_everything_referenced",
    "Verif.Cook.C36_completes",
    "Verif.Cook.C36_loop_asserts",
    "Verif.Cook.C36_isCooked_spoils",
    "Verif.Cook.C36_vanished_dependency"
   ],
   "note": "All cook functions (as interactive programs), dependency graphs, earlier results, request sequences and enumeration orders; completion proved for acyclic nesting, with the step bounds discharged. Also proved: asking isCooked about a job not looked at makes cooking it fail an assertion; a vanished file dependency fails an assertion."
  },
  {
   "property": "C37",
   "status": "proved",
   "theorems": [
    "Verif.Conc.Spin.C37_mutual_exclusion",
    "Verif.Conc.Spin.C37_try",
    "Verif.Conc.Spin.C37_unlock_releases",
    "Verif.Conc.Spin.C37_progress"
   ],
   "note": "All numbers of threads and interleavings over sequentially consistent memory: exclusion, exact effect of a try, release, no deadlock."
  },
  {
   "property": "C38",
   "status": "proved",
   "theorems": [
    "Verif.Conc.Lazy.C38_constructed_once",
    "Verif.Conc.Lazy.C38_mutual_exclusion",
    "Verif.Conc.Lazy.C38_can_enter"
   ],
   "note": "All numbers of threads and interleavings over sequentially consistent memory, with a recursive inner mutex; destructor not modelled."
  },
  {
   "property": "C39",
   "status": "proved",
   "theorems": [
    "Verif.Conc.Event.C39_returns_signalled",
    "Verif.Conc.Event.C39_no_lost_wakeup",
    "Verif.Conc.Event.C39_signal_wakes",
    "Verif.Conc.Event.C39_signalled_on_return",
    "Verif.Conc.Event.C39_bounded",
    "Verif.Conc.Event.C39_all_return"
   ],
   "note": "All numbers of threads, interleavings and spurious wake-ups; release of all waiters proved as: bounded number of steps, and none left inside when no step is possible."
  },
  {
   "property": "C40",
   "status": "partial",
   "theorems": [
    "Verif.Conc.MemLog.C40_unique_partial",
    "Verif.Conc.MemLog.C40_no_gaps_partial",
    "Verif.Conc.MemLog.C40_window",
    "Verif.Conc.MemLog.C40_first_pages",
    "Verif.Conc.MemLog.C40_deleted_page"
   ],
   "note": "Holds in every execution that has not touched a deleted page, which needs at least four new pages during one call (proved); false in general: a thread held up that long adds to the index of a deleted page (witness theorem)."
  },
  {
   "property": "C41",
   "status": "partial",
   "theorems": [
    "Verif.Schema.C41_schema_partial",
    "Verif.Schema.C41_schema",
    "Verif.Schema.C41_never_recursive",
    "Verif.Schema.C41_recursion_lost",
    "Verif.Schema.C41_list_node",
    "Verif.Schema.C41_switch_crash",
    "Verif.Schema.C41_any_owned"
   ],
   "note": "Exact for every finite non-recursive collection of types (C41_schema) and, with null allowed for back references, for recursive ones without switch cycles (C41_schema_partial). For every recursive type the claim is false (C41_recursion_lost); a switch reaching itself and AnyOwnedObject members crash the reader (witnesses)."
  },
  {
   "property": "C42",
   "status": "proved",
   "theorems": [
    "Verif.Build.C42_once",
    "Verif.Build.C42_exact",
    "Verif.Build.C42_rejects",
    "Verif.Build.C42_again",
    "Verif.Build.C42_cycle",
    "Verif.Build.C42_add",
    "Verif.Build.C42_clash"
   ],
   "note": "Acyclic graphs only (a rank decreases along edges); nothing is said about the order of merged entries beyond own entries first; source files and precompiled headers not modelled. A dependency cycle recurses for ever (witness theorem)."
  },
  {
   "property": "C43",
   "status": "partial",
   "theorems": [
    "Verif.Fs.Walk.C43_walk_partial",
    "Verif.Fs.Walk.C43_list",
    "Verif.Fs.Walk.C43_once_partial",
    "Verif.Fs.Walk.C43_two_up",
    "Verif.Fs.Walk.C43_empty",
    "Verif.Fs.Walk.C43_dangling"
   ],
   "note": "The walk visits exactly the tree, depth first, minus what the body prunes, each directory once, provided the start is a tame path (at most one leading '..' and no climbing above an anchor) and names are plain; for '../..' the claim is false (witness C43_two_up); the empty start yields nothing."
  },
  {
   "property": "C44",
   "status": "partial",
   "theorems": [
    "Verif.Fs.C44_makeDirs",
    "Verif.Fs.C44_makeDirs_slash",
    "Verif.Fs.C44_makeDirs_file",
    "Verif.Fs.C44_makeDirs_adds",
    "Verif.Fs.C44_makeDirs_tells",
    "Verif.Fs.C44_makeDirs_denied",
    "Verif.Fs.C44_makeDirs_exists_false",
    "Verif.Fs.C44_unchanged",
    "Verif.Fs.C44_saved",
    "Verif.Fs.C44_crash_partial",
    "Verif.Fs.C44_crash_loses",
    "Verif.Fs.C44_short_write",
    "Verif.Fs.C44_blocked"
   ],
   "note": "makeDirs, unchanged files untouched, changed files saved, all for every disk. The claim that an interrupted save keeps old or new contents is false (C44_crash_loses), a short write is reported OK (C44_short_write), makeDirs with trailing slash or a file in the way asserts."
  },
  {
   "property": "C45",
   "status": "proved",
   "theorems": [
    "Verif.Esc.C45_format_exact"
   ],
   "note": "All format strings built from text and holes, any arguments."
  },
  {
   "property": "C46",
   "status": "partial",
   "theorems": [
    "Verif.Web.C46_extensions",
    "Verif.Web.C46_static_partial",
    "Verif.Web.C46_static_windows_partial",
    "Verif.Web.C46_static_escape",
    "Verif.Web.C46_above_root",
    "Verif.Web.C46_windows_drive",
    "Verif.Web.C46_source_partial",
    "Verif.Web.C46_source_escape",
    "Verif.Web.C46_virtual_partial",
    "Verif.Web.C46_virtual_escape"
   ],
   "note": "Lexical locations only (no symbolic links). Requests that never climb stay inside, and the exact location is given for all that climb no higher than the root's own depth; climbing requests escape (C46_static_escape for every root, C46_source_escape one directory up, C46_virtual_escape), on Windows a drive letter does (C46_windows_drive)."
  },
  {
   "property": "C47",
   "status": "partial",
   "theorems": [
    "Verif.Web.C47_conversation_partial",
    "Verif.Web.C47_unique",
    "Verif.Web.C47_error_page"
   ],
   "note": "Every input and handler: the connection does exactly what the specification says. Partial because readString is taken to return what it consumed, whereas at this commit it crashes on every non-empty line (C52_capture_crashes)."
  },
  {
   "property": "C48",
   "status": "partial",
   "theorems": [
    "Verif.Esc.C48_first_occurrence_partial",
    "Verif.Esc.C48_single_byte",
    "Verif.Esc.C48_found_sound",
    "Verif.Esc.C48_false_start_misses"
   ],
   "note": "First occurrence found unless a false start is followed by the terminator's first byte (witness theorem); one-byte terminators unrestricted."
  },
  {
   "property": "C49",
   "status": "proved",
   "theorems": [
    "Verif.Enc.C49_utf8_back_exact",
    "Verif.Enc.C49_utf8_back",
    "Verif.Enc.C49_utf16_back",
    "Verif.Enc.C49_reversed_total",
    "Verif.Enc.C49_reversed_text"
   ],
   "note": "UTF-8 and UTF-16; arbitrary preceding bytes."
  },
  {
   "property": "C50",
   "status": "partial",
   "theorems": [
    "Verif.Str.C50_starts_ends_with",
    "Verif.Str.C50_find_first",
    "Verif.Str.C50_rfind_last",
    "Verif.Str.C50_subStr_checked_partial",
    "Verif.Str.C50_subStr_wraps",
    "Verif.Str.C50_case_conversion",
    "Verif.Str.C50_concat_repeat_partial",
    "Verif.Str.C50_repeat_overflow"
   ],
   "note": "Exact except where 32-bit position sums wrap (witness theorems)."
  },
  {
   "property": "C51",
   "status": "partial",
   "theorems": [
    "Verif.Esc.C51_identifier_exact",
    "Verif.Esc.C51_empty_identifier_accepted",
    "Verif.Esc.C51_whitespace"
   ],
   "note": "Without flags exact; with flags an empty identifier is accepted (witness theorem)."
  },
  {
   "property": "C52",
   "status": "partial",
   "theorems": [
    "Verif.Stream.C52_capture_crashes",
    "Verif.Stream.C52_capture_partial"
   ],
   "note": "Captures crash unless the end lies at a block start (witness and characterisation)."
  },
  {
   "property": "C53",
   "status": "partial",
   "theorems": [
    "Verif.Arr.C53_find",
    "Verif.Arr.C53_rfind_partial",
    "Verif.Arr.C53_rfind_empty_asserts",
    "Verif.Arr.C53_view_equality"
   ],
   "note": "rfind on an empty view fails an assertion (witness theorem); everything else for all views of at most 2^31 items."
  },
  {
   "property": "C54",
   "status": "proved",
   "theorems": [
    "Verif.Path.C54_from",
    "Verif.Path.C54_names",
    "Verif.Path.C54_backslash"
   ],
   "note": "All paths; a backslash in a POSIX name becomes a separator (witness theorem)."
  },
  {
   "property": "C55",
   "status": "proved",
   "theorems": [
    "Verif.Conc.Race.C55_exact",
    "Verif.Conc.Race.C55_any"
   ],
   "note": "All sequences of calls in which each thread alternates enter and exit."
  },
  {
   "property": "C56",
   "status": "proved",
   "theorems": [
    "Verif.Conc.Groups.C56_all_registered",
    "Verif.Conc.Groups.C56_lock_free"
   ],
   "note": "All numbers of groups and interleavings, spurious failures included, over sequentially consistent memory."
  },
  {
   "property": "C57",
   "status": "partial",
   "theorems": [
    "Verif.Persist.C57_asset_roundtrip_partial",
    "Verif.Persist.C57_pointer_order_asserts",
    "Verif.Persist.C57_nested_owner_asserts",
    "Verif.Persist.C57_empty_object_confused"
   ],
   "note": "Every acyclic collection of types and every object of them without null pointers whose plain pointers are first used in the order of the objects pointed to, and whose objects not pointed to begin with something. Without these conditions the claim is false (C57_pointer_order_asserts, C57_nested_owner_asserts, C57_empty_object_confused); null pointers are dereferenced when saving. TypedArray, AnySavedObject and StaticPtr are not modelled."
  },
  {
   "property": "C58",
   "status": "partial",
   "theorems": [
    "Verif.Persist.C58_evolution_partial",
    "Verif.Persist.C58_number_kept",
    "Verif.Persist.C58_bool_from_u64",
    "Verif.Persist.C58_switch_order",
    "Verif.Persist.C58_pointer_dropped_asserts",
    "Verif.Persist.C58_enum_from_number"
   ],
   "note": "Every pair of compatible types, objects without plain pointers. False otherwise: C58_pointer_dropped_asserts, C58_switch_order, C58_enum_from_number; a 64-bit number as bool loses the high half (C58_bool_from_u64)."
  },
  {
   "property": "C59",
   "status": "proved",
   "theorems": [
    "Verif.Enc.C59_bytes"
   ],
   "note": ""
  },
  {
   "property": "C60",
   "status": "proved",
   "theorems": [
    "Verif.Markdown.C60_reads",
    "Verif.Markdown.C60_empty_item_asserts"
   ],
   "note": "Texts with overlong encodings of ASCII characters come out changed (C11); C60_empty_item_asserts shows why items of tight lists must not be empty."
  },
  {
   "property": "C61",
   "status": "partial",
   "theorems": [
    "Verif.Markdown.C61_reading",
    "Verif.Markdown.C61_simple",
    "Verif.Markdown.C61_total",
    "Verif.Markdown.C61_intraword",
    "Verif.Markdown.C61_link_escape"
   ],
   "note": "C61_reading and C61_total hold for all lines. C61_simple covers unambiguous text (Spec.Writes); what CommonMark says about ambiguous text is not stated, and the parser deviates from it (C61_intraword, C61_link_escape)."
  },
  {
   "property": "C62",
   "status": "partial",
   "theorems": [
    "Verif.Markdown.C62_lists",
    "Verif.Markdown.C62_list_after_code_false",
    "Verif.Markdown.C62_kept",
    "Verif.Markdown.C62_in_order",
    "Verif.Markdown.C62_flat",
    "Verif.Markdown.C62_flat_asserts",
    "Verif.Markdown.C62_code_columns",
    "Verif.Markdown.C62_order_false",
    "Verif.Markdown.C62_quote_false",
    "Verif.Markdown.C62_nested_false",
    "Verif.Markdown.C62_total_false"
   ],
   "note": "C62_kept holds for every source that parses, C62_in_order for those without a list directly in a list (C62_order_false shows why), C62_flat reads flat documents exactly and C62_flat_asserts gives their only failure; C62_lists reads documents of paragraphs, headings, code blocks and lists of any markers exactly; C62_code_columns: code keeps its columns when tabs are expanded. C62_list_after_code_false: a list not beginning with 1 after a code block is a paragraph. The nesting of quotes and of lists is not characterised; the parser deviates from CommonMark there (C62_quote_false, C62_nested_false, C62_total_false)."
  },
  {
   "property": "C63",
   "status": "proved",
   "theorems": [
    "Verif.Crowbar.C63_token",
    "Verif.Crowbar.C63_cover",
    "Verif.Crowbar.C63_total",
    "Verif.Crowbar.C63_string_text",
    "Verif.Crowbar.C63_string_ends"
   ],
   "note": "The text of a number is not interpreted here; a numeral that does not fit 32 bits becomes 0 when parsed."
  },
  {
   "property": "C64",
   "status": "partial",
   "theorems": [
    "Verif.Crowbar.C64_roundtrip",
    "Verif.Crowbar.C64_as_in_C_partial",
    "Verif.Crowbar.C64_prefix_swallows",
    "Verif.Crowbar.C64_text_injective"
   ],
   "note": "C64_roundtrip holds for all expressions with prefix operators binding weaker than all others, which is how the parser reads them; for expressions without prefix operators this is C (C64_as_in_C_partial). C64_prefix_swallows: -a + b is read as -(a + b)."
  },
  {
   "property": "C65",
   "status": "partial",
   "theorems": [
    "Verif.Crowbar.C65_roundtrip",
    "Verif.Crowbar.C65_unclosed_parameters_hang",
    "Verif.Crowbar.C65_recovery_skips",
    "Verif.Crowbar.C65_recovery_stops",
    "Verif.Crowbar.C65_recovery_single",
    "Verif.Crowbar.C65_no_error_complete",
    "Verif.Crowbar.C65_hole_reported",
    "Verif.Crowbar.C65_ends_partial",
    "Verif.Crowbar.C65_block_ends",
    "Verif.Crowbar.C65_expression_ends"
   ],
   "note": "C65_roundtrip holds for all programs, C65_no_error_complete for all sources. Parsing does not always end (C65_unclosed_parameters_hang); C65_ends_partial shows that this is the only kind of source on which it does not."
  },
  {
   "property": "C66",
   "status": "partial",
   "theorems": [
    "Verif.Crowbar.C66_reads",
    "Verif.Crowbar.C66_labels",
    "Verif.Crowbar.C66_expand_partial",
    "Verif.Crowbar.C66_expand_exact",
    "Verif.Crowbar.C66_parser",
    "Verif.Crowbar.C66_expand_false"
   ],
   "note": "C66_reads holds for every source up to 16 MiB and whatever is asked, C66_labels too; looking up a token works except near the end of a 256 byte block (C66_expand_partial), C66_expand_exact says exactly when it fails and C66_expand_false gives a source. C66_parser: the tokenizer of the parser model is the plain one."
  },
  {
   "property": "C67",
   "status": "partial",
   "theorems": [
    "Verif.Crowbar.C67_output_is_meaning",
    "Verif.Crowbar.C67_safe",
    "Verif.Crowbar.C67_careful",
    "Verif.Crowbar.C67_strict_meaning",
    "Verif.Crowbar.C67_meaning_unique",
    "Verif.Crowbar.C67_run_unique",
    "Verif.Crowbar.C67_stack",
    "Verif.Crowbar.C67_from_text",
    "Verif.Crowbar.C67_copy_of_newest_undefined",
    "Verif.Crowbar.C67_string_assignment_empties_source",
    "Verif.Crowbar.C67_parameter_aliases_newest",
    "Verif.Crowbar.C67_returned_variable_undefined",
    "Verif.Crowbar.C67_string_argument_empties_source"
   ],
   "note": "What a run writes is the meaning whenever there is one (C67_output_is_meaning), for every program; without undefined behaviour when no variable by itself is assigned, passed or returned (C67_safe, and C67_careful with a condition on the text of the program). In general the claim is false: copying the newest variable is undefined behaviour (C67_copy_of_newest_undefined, for all names, numbers and rests), so is using a returned variable, strings are emptied by being assigned or passed, and a parameter can be an alias of the caller's variable. C67_stack holds for every program. Missing: stacks of more than one block (there deleteRange itself is wrong), structs of the host."
  },
  {
   "property": "C68",
   "status": "partial",
   "theorems": [
    "Verif.Num.C68_reads_partial",
    "Verif.Num.C68_only",
    "Verif.Num.C68_integers",
    "Verif.Num.C68_radixes",
    "Verif.Num.C68_leading_point"
   ],
   "note": "C68_only holds for every input, radix and rounding, C68_integers for all integers up to 2^53; C68_reads_partial gives the value of every well-written number without rounding, in the fifteen radixes for which the test for overflow is right (ten, two, sixteen among them). In all other radixes (seven, twelve \u2026) a long fraction is read as another number: C68_radixes is an equivalence. Not covered: how much the roundings add up to, infinities."
  },
  {
   "property": "C69",
   "status": "partial",
   "theorems": [
    "Verif.PyRef.C69_roundtrip_partial",
    "Verif.PyRef.C69_file_partial",
    "Verif.PyRef.C69_injective",
    "Verif.PyRef.C69_numbers_not_exported",
    "Verif.PyRef.C69_null_not_exported",
    "Verif.PyRef.C69_unnamed_value",
    "Verif.PyRef.C69_import_fits",
    "Verif.PyRef.C69_members",
    "Verif.PyRef.C69_unknown_names",
    "Verif.PyRef.C69_integer",
    "Verif.PyRef.C69_bool",
    "Verif.PyRef.C69_string_keeps",
    "Verif.PyRef.C69_fixed_array"
   ],
   "note": "C69_roundtrip_partial and C69_file_partial hold for all contents of structs, strings, bools, arrays, switches, named enum values and non-null pointers; numbers, fixed arrays, enum arrays, null pointers and unnamed enum values cannot be exported at all (C69_numbers_not_exported, C69_null_not_exported, C69_unnamed_value). C69_import_fits, C69_members, C69_unknown_names hold for every tree. Not modelled: AnySavedObject, TypedArray, filters, the lifetime of strings borrowed by the exported tree"
  },
  {
   "property": "C70",
   "status": "partial",
   "theorems": [
    "Verif.Ref.Atomic.C70_threads",
    "Verif.Ref.Atomic.C70_dual_race",
    "Verif.Ref.Atomic.C70_dual_partial",
    "Verif.Ref.C70_reachable_alive",
    "Verif.Ref.C70_no_leak",
    "Verif.Ref.C70_clear_exact",
    "Verif.Ref.C70_move_exact",
    "Verif.Ref.C70_step",
    "Verif.Ref.C70_history",
    "Verif.Ref.C70_pop_undefined",
    "Verif.Ref.C70_circle",
    "Verif.Ref.C70_limit"
   ],
   "note": "Holds for every sequence of operations whose move assignments and clear() are not applied to a place inside of what they may destroy (C70_step, C70_history; C70_clear_exact and C70_move_exact say exactly what clear and move assignment do); false for `head = std::move(head->next)` (C70_pop_undefined), for clear() on a member of a circle (C70_circle) and at the 65535th reference, which can be made but not given up (C70_limit). Threads: C70_threads for RefCounted; for DualRefCounted only when operations do not interleave (C70_dual_partial, C70_dual_race). Memory order is not modelled."
  },
  {
   "property": "C71",
   "status": "partial",
   "theorems": [
    "Verif.TFmt.C71_roundtrip",
    "Verif.TFmt.C71_utf8_any_bytes",
    "Verif.TFmt.C71_detect_bom",
    "Verif.TFmt.C71_detect_utf8",
    "Verif.TFmt.C71_detect_ascii16",
    "Verif.TFmt.C71_detect_latin",
    "Verif.TFmt.C71_detect_blind",
    "Verif.TFmt.C71_detect_total",
    "Verif.TFmt.C71_import_pipe",
    "Verif.TFmt.C71_load_fails_iff",
    "Verif.TFmt.C71_load_saved",
    "Verif.TFmt.C71_resave",
    "Verif.TFmt.C71_late_newline",
    "Verif.TFmt.C71_bytes_not_converted",
    "Verif.TFmt.C71_bytes_mark",
    "Verif.TFmt.C71_mark_lost",
    "Verif.TFmt.C71_stray_hides",
    "Verif.TFmt.C71_escape_misread"
   ],
   "note": "C71_roundtrip and C71_detect_bom, C71_detect_utf8, C71_detect_total hold without restriction; UTF-16 without mark is recognised for texts of plain characters (C71_detect_ascii16), and Latin-1 texts with isolated accented letters are never taken for UTF-8 (C71_detect_latin); C71_load_saved and C71_resave join them. False: the format Bytes is not converted when written (C71_bytes_not_converted), a text that begins with U+FEFF loses it (C71_mark_lost), a CRLF file whose first line is long is saved with other line ends (C71_late_newline), one stray byte hides the rest of a file from the detection (C71_stray_hides, C71_detect_blind), a short ASCII text with an escape character is taken for UTF-16 (C71_escape_misread). The floating point comparisons are a parameter that must agree with the exact ones where they are far apart; streams are lists of bytes (C04, C05); C71_import_pipe connects them with the converting pipe."
  },
  {
   "property": "C72",
   "status": "partial",
   "theorems": [
    "Verif.Cpp.C72_call_ends",
    "Verif.Cpp.C72_lossless",
    "Verif.Cpp.C72_located",
    "Verif.Cpp.C72_ends",
    "Verif.Cpp.C72_self_macro_never_ends",
    "Verif.Cpp.C72_roundtrip",
    "Verif.Cpp.C72_longest",
    "Verif.Cpp.C72_angles",
    "Verif.Cpp.C72_string",
    "Verif.Cpp.C72_comment_stars",
    "Verif.Cpp.C72_raw_unfinished",
    "Verif.Cpp.C72_raw_missed",
    "Verif.Cpp.C72_raw_partial",
    "Verif.Cpp.C72_zero_minus",
    "Verif.Cpp.C72_number_cut",
    "Verif.Cpp.C72_directive_lost",
    "Verif.Cpp.C72_define",
    "Verif.Cpp.C72_macro_misplaced",
    "Verif.Cpp.C72_end_location",
    "Verif.Cpp.C72_macro_args"
   ],
   "note": "C72_lossless (without macros), C72_located (tokens of files and of expansions), C72_roundtrip, C72_longest, C72_string, C72_define, C72_angles, C72_macro_args and C72_call_ends hold without restriction; C72_ends for macros none of which leads back to itself. False: a macro that names itself is expanded for ever (C72_self_macro_never_ends); a comment that ends in an even number of stars goes on (C72_comment_stars); a source that ends inside of a raw string makes an assertion fail, and some raw strings are not closed (C72_raw_unfinished, C72_raw_missed; C72_raw_partial says which are read); 0-5 is one number and other numbers are cut (C72_zero_minus, C72_number_cut); directives behind an empty one or a comment are lost (C72_directive_lost); tokens that name a macro, and the end of the file, have locations that lead elsewhere or nowhere (C72_macro_misplaced, C72_end_location). The location map is the list of its insertions, of equal positions the last counts; the code keeps it in a BTree, about which see C21."
  },
  {
   "property": "C73",
   "status": "partial",
   "theorems": [
    "Verif.Seq.C73_contents",
    "Verif.Seq.C73_count",
    "Verif.Seq.C73_count_wraps",
    "Verif.Seq.C73_append",
    "Verif.Seq.C73_stable",
    "Verif.Seq.C73_destructed",
    "Verif.Seq.C73_truncate_leaks",
    "Verif.Seq.C73_array",
    "Verif.Seq.C73_read",
    "Verif.Seq.C73_truncate_saved",
    "Verif.Seq.C73_pop_too_many",
    "Verif.Seq.C73_empty_tail",
    "Verif.Seq.C73_normalized_fails",
    "Verif.Seq.C73_large_items"
   ],
   "note": "For items of at most 2048 bytes and operations that end with endWrite what is claimed holds: C73_contents, C73_append, C73_read, C73_stable, C73_destructed, C73_truncate_saved, and below 4 GB C73_count and C73_array. False of the code: larger items (C73_large_items: isEmpty is true and head and range-for fail), numItems from 4 GB (C73_count_wraps), truncate does not destruct (C73_truncate_leaks), beginWrite without endWrite (C73_empty_tail), normalized() at the end of a block that is not the last (C73_normalized_fails), popping too much is not noticed (C73_pop_too_many)."
  },
  {
   "property": "C74",
   "status": "partial",
   "theorems": [
    "Verif.CppParse.C74_tokens_in_order",
    "Verif.CppParse.C74_whole_file_partial",
    "Verif.CppParse.C74_whole_list",
    "Verif.CppParse.C74_operator_silent",
    "Verif.CppParse.C74_limit",
    "Verif.CppParse.C74_tried_params_hang",
    "Verif.CppParse.C74_texts_hang",
    "Verif.CppParse.C74_texts_assert",
    "Verif.CppParse.C74_texts_refused",
    "Verif.CppParse.C74_comment_twice",
    "Verif.CppParse.C74_function_pointer",
    "Verif.CppParse.C74_typedef_lost",
    "Verif.CppParse.C74_base_comma"
   ],
   "note": "For every source of tokens, every function of the parser and every state: C74_tokens_in_order; whole texts: C74_whole_file_partial (errors found are reported, unless the word operator occurs), C74_whole_list; the model's limit on call depth makes no difference: C74_limit. False of the code: parsing does not end for some texts, also correct ones (C74_tried_params_hang, C74_texts_hang), assertions fail (C74_texts_assert), errors are forgotten (C74_operator_silent), correct declarations are refused (C74_texts_refused), comments are passed on twice (C74_comment_twice), function pointers become functions (C74_function_pointer), typedef is forgotten (C74_typedef_lost), a name is stored as a comma (C74_base_comma). Missing: which texts end without an assertion."
  },
  {
   "property": "C75",
   "status": "partial",
   "theorems": [
    "Verif.CppParse.C75_declarations_parse_partial",
    "Verif.CppParse.C75_texts_parse_partial",
    "Verif.CppParse.C75_one_tree",
    "Verif.CppParse.C75_body_opaque"
   ],
   "note": "For all token sequences of a grammar of declarations (specification apart from the parser): C75_declarations_parse_partial; for texts with white space between the tokens: C75_texts_parse_partial; the grammar gives one tree: C75_one_tree; bodies are opaque: C75_body_opaque. Missing: comments, >> and >= in texts, what the parser gets wrong (C74), and declarations outside the grammar (pointers to functions, lambdas, base lists with commas, conversion operators, default template arguments, initializer lists)."
  },
  {
   "property": "C76",
   "status": "partial",
   "theorems": [
    "Verif.Image.C76_size",
    "Verif.Image.C76_colour_bytes",
    "Verif.Image.C76_pixels",
    "Verif.Image.C76_crop",
    "Verif.Image.C76_crop_crop",
    "Verif.Image.C76_copy",
    "Verif.Image.C76_copy_empty_asserts",
    "Verif.Image.C76_flip_partial",
    "Verif.Image.C76_flip_in_place_wrong",
    "Verif.Image.C76_flip_twice",
    "Verif.Image.C76_copy32",
    "Verif.Image.C76_clear_partial",
    "Verif.Image.C76_clear_bottom_up_does_nothing",
    "Verif.Image.C76_convert",
    "Verif.Image.C76_half_partial",
    "Verif.Image.C76_half_small",
    "Verif.Image.C76_half_exact",
    "Verif.Image.C76_half_wrong",
    "Verif.Image.C76_half_checked",
    "Verif.Image.C76_srgb_partial",
    "Verif.Image.C76_srgb_undefined",
    "Verif.Image.C76_colour_word",
    "Verif.Image.C76_colour_reversed_wrong"
   ],
   "note": "Every pixel has its own memory (C76_pixels), which is within the size (C76_size); a colour is its bytes (C76_colour_bytes), parts share it (C76_crop, C76_crop_crop), copy and copy32Bit (C76_copy, C76_copy32), flips into another image (C76_flip_partial, C76_flip_twice), clear for rows stored from the top (C76_clear_partial), conversion to 16-bit floats in every component (C76_convert), which truncates toward zero in the normal range (C76_half_partial) and is zero for numbers below it (C76_half_small), exact where it can be (C76_half_exact), sRGB for bytes below 128 (C76_srgb_partial), colour words (C76_colour_word). False of the code: flipping in place (C76_flip_in_place_wrong), clear with rows stored from the bottom (C76_clear_bottom_up_does_nothing), images without columns (C76_copy_empty_asserts), numbers outside the range of 16-bit floats (C76_half_wrong), sRGB for bytes from 128 (C76_srgb_undefined), toABGR (C76_colour_reversed_wrong)."
  },
  {
   "property": "C77",
   "status": "partial",
   "theorems": [
    "Verif.Geom.C77_dot",
    "Verif.Geom.C77_cross",
    "Verif.Geom.C77_signs",
    "Verif.Geom.C77_vector",
    "Verif.Geom.C77_dot_vector",
    "Verif.Geom.C77_plane_turn",
    "Verif.Geom.C77_plane_group",
    "Verif.Geom.C77_plane_negate_wrong",
    "Verif.Geom.C77_plane_space",
    "Verif.Geom.C77_checks",
    "Verif.Geom.C77_rot_vector",
    "Verif.Geom.C77_rot_axis",
    "Verif.Geom.C77_rot_product",
    "Verif.Geom.C77_rot_inverse",
    "Verif.Geom.C77_rot_identity",
    "Verif.Geom.C77_rot_handed",
    "Verif.Geom.C77_rot_matrix",
    "Verif.Geom.C77_rot_two",
    "Verif.Geom.C77_rot_basis",
    "Verif.Geom.C77_rot_plane",
    "Verif.Geom.C77_rot_each",
    "Verif.Geom.C77_rot_order",
    "Verif.Geom.C77_pos_product",
    "Verif.Geom.C77_pos_rot",
    "Verif.Geom.C77_pos_inverse",
    "Verif.Geom.C77_pos_identity",
    "Verif.Geom.C77_pos_matrix_wrong",
    "Verif.Geom.C77_reflections",
    "Verif.Geom.C77_box_points",
    "Verif.Geom.C77_box_intersect",
    "Verif.Geom.C77_box_contains_partial",
    "Verif.Geom.C77_box_contains_empty",
    "Verif.Geom.C77_box_union_partial",
    "Verif.Geom.C77_box_wrong",
    "Verif.Geom.C77_box_point_partial",
    "Verif.Geom.C77_box_solid",
    "Verif.Geom.C77_box_expand"
   ],
   "note": "Directions, plane directions, axis rotations with and without translation, and boxes: all operations agree with vectors over any commutative ring (C77_dot to C77_box_expand). False of the code: negate of a plane direction is the inverse turn, not the opposite direction (C77_plane_negate_wrong), the matrix of a rotation with translation drops the translation (C77_pos_matrix_wrong), Box::full is empty and a union with a point need not contain it (C77_box_wrong; C77_box_point_partial says when it does), empty boxes are not contained and not neutral (C77_box_contains_empty, C77_box_contains_partial, C77_box_union_partial), mirrored reflections cannot be made rotations (C77_reflections)."
  },
  {
   "property": "C78",
   "status": "partial",
   "theorems": [
    "Verif.Xform.C78_axis_angle",
    "Verif.Xform.C78_quat_rotates",
    "Verif.Xform.C78_quat_product",
    "Verif.Xform.C78_quat_inverse",
    "Verif.Xform.C78_quat_forms",
    "Verif.Xform.C78_quat_matrix",
    "Verif.Xform.C78_quat_sign",
    "Verif.Xform.C78_matrix_vector",
    "Verif.Xform.C78_matrix_product",
    "Verif.Xform.C78_matrix_forms",
    "Verif.Xform.C78_matrix_effect",
    "Verif.Xform.C78_matrix_turn",
    "Verif.Xform.C78_matrix_transpose",
    "Verif.Xform.C78_inverted_ortho",
    "Verif.Xform.C78_projection_partial",
    "Verif.Xform.C78_projection_wrong",
    "Verif.Xform.C78_projection_fov",
    "Verif.Xform.C78_ortho",
    "Verif.Xform.C78_closer",
    "Verif.Xform.C78_mix",
    "Verif.Xform.C78_mix_sign",
    "Verif.Xform.C78_unit_vectors_partial",
    "Verif.Xform.C78_unit_vectors_opposite",
    "Verif.Xform.C78_unit_vectors_wrong",
    "Verif.Xform.C78_from_matrix",
    "Verif.Xform.C78_quat_round_trip",
    "Verif.Xform.C78_quatpos_round_trip",
    "Verif.Xform.C78_quatpos",
    "Verif.Xform.C78_quatpos_matrix",
    "Verif.Xform.C78_quatpos_mix",
    "Verif.Xform.C78_quatpos_wrong",
    "Verif.Xform.C78_quatposscale",
    "Verif.Xform.C78_scalepos",
    "Verif.Xform.C78_scalepos_wrong",
    "Verif.Xform.C78_matrix_rotations",
    "Verif.Xform.C78_any_perp",
    "Verif.Xform.C78_make_basis",
    "Verif.Xform.C78_make_basis_one",
    "Verif.Xform.C78_look_at",
    "Verif.Xform.C78_look_at_wrong",
    "Verif.Xform.C78_approach",
    "Verif.Xform.C78_cubic",
    "Verif.Xform.C78_cubic_range",
    "Verif.Xform.C78_cubic_derivative_partial",
    "Verif.Xform.C78_cubic_derivative_wrong",
    "Verif.Xform.C78_simple_cubic",
    "Verif.Xform.C78_mix_unmix"
   ],
   "note": "Over the real numbers (no rounding): quaternions against the formula of Rodrigues (C78_axis_angle), as rotations (C78_quat_rotates), products, inverses, matrices and back (C78_quat_product to C78_quat_round_trip, C78_from_matrix for every rotation matrix), interpolation (C78_mix); matrices against Mathlib's (C78_matrix_product and others); projections (C78_projection_partial, C78_projection_fov, C78_ortho); movements (C78_quatpos, C78_quatposscale, C78_scalepos), directions (C78_make_basis, C78_look_at, C78_any_perp, C78_approach), curves (C78_cubic, C78_cubic_range, C78_simple_cubic). False of the code: opposite unit vectors within 1e-6 are taken for exactly opposite (C78_unit_vectors_wrong), views neither symmetric nor square are projected wrongly (C78_projection_wrong), ScalePos2::makeTranslation takes every point to one (C78_scalepos_wrong), a movement made from a rotation has no position (C78_quatpos_wrong), derivativeCubic is a third of the derivative (C78_cubic_derivative_wrong), looking straight up or down divides by zero (C78_look_at_wrong)."
  },
  {
   "property": "C79",
   "status": "proved",
   "theorems": [
    "Verif.Rand.C79_period",
    "Verif.Rand.C79_never_zero",
    "Verif.Rand.C79_zero_stuck",
    "Verif.Rand.C79_all_states",
    "Verif.Rand.C79_one_cycle",
    "Verif.Rand.C79_counts",
    "Verif.Rand.C79_equidistributed",
    "Verif.Rand.C79_low_bits",
    "Verif.Rand.C79_widths",
    "Verif.Rand.C79_predictable",
    "Verif.Rand.C79_seeds_differ",
    "Verif.Rand.C79_clocks_matter",
    "Verif.Rand.C79_nearest",
    "Verif.Rand.C79_monotone",
    "Verif.Rand.C79_fraction",
    "Verif.Rand.C79_fraction_one",
    "Verif.Rand.C79_fraction_reaches_one"
   ],
   "note": "C79_period, C79_never_zero, C79_all_states, C79_one_cycle, C79_counts, C79_equidistributed, C79_low_bits, C79_widths, C79_predictable, C79_seeds_differ, C79_clocks_matter; fractions C79_nearest, C79_monotone, C79_fraction, C79_fraction_one, C79_fraction_reaches_one. Rounding of the conversion to float is modelled as to nearest even, 4294967295.f as 2^32."
  },
  {
   "property": "C80",
   "status": "partial",
   "theorems": [
    "Verif.Proc.C80_streams",
    "Verif.Proc.C80_inherits",
    "Verif.Proc.C80_parent",
    "Verif.Proc.C80_succeeds",
    "Verif.Proc.C80_output_ends",
    "Verif.Proc.C80_errors_end",
    "Verif.Proc.C80_input_ends",
    "Verif.Proc.C80_input_broken",
    "Verif.Proc.C80_race",
    "Verif.Proc.C80_closed_input",
    "Verif.Proc.C80_arguments",
    "Verif.Proc.C80_zero_byte",
    "Verif.Proc.C80_folder",
    "Verif.Proc.C80_join",
    "Verif.Proc.C80_code_256",
    "Verif.Proc.C80_join_once",
    "Verif.Proc.C80_destroy"
   ],
   "note": "C80_streams, C80_inherits, C80_parent, C80_succeeds, C80_output_ends, C80_errors_end, C80_input_ends, C80_input_broken, C80_arguments, C80_folder, C80_join, C80_join_once, C80_destroy. False of the code: a program started by another thread in between keeps the pipes open (C80_race), without a standard input in the parent the program gets none (C80_closed_input), a zero byte cuts an argument (C80_zero_byte), a folder that cannot be entered is ignored (C80_folder), exit code 256 is success (C80_code_256). The kernel is modelled as POSIX describes it; fork is taken to succeed, signals are left out."
  },
  {
   "property": "C81",
   "status": "partial",
   "theorems": [
    "Verif.Audio.C81_saturating",
    "Verif.Audio.C81_platforms",
    "Verif.Audio.C81_format",
    "Verif.Audio.C81_subregion",
    "Verif.Audio.C81_zero",
    "Verif.Audio.C81_size_wraps",
    "Verif.Audio.C81_mix",
    "Verif.Audio.C81_overlap",
    "Verif.Audio.C81_leveled",
    "Verif.Audio.C81_leveled_range",
    "Verif.Audio.C81_leveled_defined",
    "Verif.Audio.C81_dyn_any",
    "Verif.Audio.C81_dyn",
    "Verif.Audio.C81_dyn_defined",
    "Verif.Audio.C81_dyn_wraps",
    "Verif.Audio.C81_blocks",
    "Verif.Audio.C81_mix_regions",
    "Verif.Audio.C81_no_overshoot",
    "Verif.Audio.C81_lerp",
    "Verif.Audio.C81_pitched",
    "Verif.Audio.C81_pitched_defined",
    "Verif.Audio.C81_pitched_blocks",
    "Verif.Audio.C81_pitched_wrong"
   ],
   "note": "C81_saturating, C81_platforms, C81_format, C81_subregion, C81_zero, C81_mix, C81_leveled, C81_leveled_range, C81_leveled_defined, C81_dyn_any, C81_dyn, C81_dyn_defined, C81_blocks, C81_mix_regions, C81_no_overshoot, C81_lerp, C81_pitched, C81_pitched_defined, C81_pitched_blocks. False of the code: above full volume mixLeveled overflows (C81_leveled_range) and mixDynLevel wraps around instead of being limited (C81_dyn_wraps); sizes are taken modulo 2^32 (C81_size_wraps); a step of 2^31 runs backwards, a fraction of 65536 is not normalised, an empty mix fails (C81_pitched_wrong); a destination inside the source is mixed twice (C81_overlap)."
  },
  {
   "property": "C82",
   "status": "partial",
   "theorems": [
    "Verif.Inst.C82_ends",
    "Verif.Inst.C82_once",
    "Verif.Inst.C82_complete",
    "Verif.Inst.C82_edges",
    "Verif.Inst.C82_externs",
    "Verif.Inst.C82_data",
    "Verif.Inst.C82_no_loop",
    "Verif.Inst.C82_succeeds",
    "Verif.Inst.C82_loop_reported",
    "Verif.Inst.C82_twice_reported",
    "Verif.Inst.C82_extern_loop",
    "Verif.Inst.C82_reports",
    "Verif.Inst.C82_writable",
    "Verif.Inst.C82_container",
    "Verif.Inst.C82_one_container",
    "Verif.Inst.C82_acyclic",
    "Verif.Inst.C82_propagates",
    "Verif.Inst.C82_shared_leaks",
    "Verif.Inst.C82_shared_late",
    "Verif.Inst.C82_shared_ignored"
   ],
   "note": "C82_ends, C82_once, C82_complete, C82_edges, C82_externs, C82_data, C82_no_loop, C82_succeeds, C82_loop_reported, C82_twice_reported, C82_reports, C82_writable, C82_container, C82_one_container, C82_acyclic, C82_propagates (with C42_exact). Several are for extern functions that ask for nothing, as all in the repository. False of the code: a loop entered at an extern is not reported and the dependency silently left out (C82_extern_loop); after a root target that is to be shared the following ones are put into its library, too (C82_shared_leaks), before it propagation fails an assertion (C82_shared_late); a root target already asked for is not made shared (C82_shared_ignored). Module functions are taken to make the same calls whatever these return; resolution of names is not modelled."
  },
  {
   "property": "C83",
   "status": "partial",
   "theorems": [
    "Verif.Names.C83_split",
    "Verif.Names.C83_split_refused",
    "Verif.Names.C83_module",
    "Verif.Names.C83_module_reports",
    "Verif.Names.C83_module_full",
    "Verif.Names.C83_module_short_partial",
    "Verif.Names.C83_module_short_ambiguous",
    "Verif.Names.C83_extern",
    "Verif.Names.C83_extern_superfluous",
    "Verif.Names.C83_extern_asserts",
    "Verif.Names.C83_extern_full",
    "Verif.Names.C83_extern_short_partial",
    "Verif.Names.C83_extern_short_repo",
    "Verif.Names.C83_provider",
    "Verif.Names.C83_provider_asserts",
    "Verif.Names.C83_provider_full_partial",
    "Verif.Names.C83_provider_full_ambiguous",
    "Verif.Names.C83_provider_short_partial",
    "Verif.Names.C83_child",
    "Verif.Names.C83_in_module",
    "Verif.Names.C83_in_extern",
    "Verif.Names.C83_scope",
    "Verif.Names.C83_add_module",
    "Verif.Names.C83_add_provider",
    "Verif.Names.C83_extern_twice",
    "Verif.Names.C83_add_keeps"
   ],
   "note": "C83_split, C83_split_refused, C83_module, C83_module_reports, C83_module_full, C83_module_short_partial (exact condition), C83_extern, C83_extern_superfluous, C83_extern_asserts, C83_extern_full, C83_extern_short_partial, C83_provider, C83_provider_asserts, C83_provider_full_partial, C83_provider_short_partial, C83_child, C83_in_module, C83_in_extern, C83_scope, C83_add_module, C83_add_provider, C83_add_keeps. False of the code: the short name of a module that two repos define is ambiguous (C83_module_short_ambiguous); an extern named like a repo has a short name that is refused (C83_extern_short_repo); the fully qualified name of a provider, which is what a build folder stores, may be refused as ambiguous (C83_provider_full_ambiguous); superfluous components of an extern name are reported and then ignored (C83_extern_superfluous); an extern name given where a provider is expected, or an unknown extern of one letter in a repo, fails an assertion (C83_provider_asserts, C83_extern_asserts); an ambiguous extern name creates a further extern that no name leads to (C83_extern_twice)."
  },
  {
   "property": "C84",
   "status": "partial",
   "theorems": [
    "Verif.Docs.C84_sidebar_partial",
    "Verif.Docs.C84_sidebar_total",
    "Verif.Docs.C84_link_breaks",
    "Verif.Docs.C84_absolute",
    "Verif.Docs.C84_only_html",
    "Verif.Docs.C84_page_partial",
    "Verif.Docs.C84_inside_partial",
    "Verif.Docs.C84_escape",
    "Verif.Docs.C84_relative_root",
    "Verif.Docs.C84_windows_drive",
    "Verif.Docs.C84_content_only"
   ],
   "note": "C84_sidebar_partial (all tables whose links are written as HTML wants them), C84_sidebar_total, C84_only_html (both platforms, all requests), C84_absolute, C84_page_partial (exact file, POSIX, absolute root), C84_inside_partial, C84_content_only. False of the code: links are not escaped, so that a quote in one breaks the page (C84_link_breaks); requests with .. reach HTML files outside the folder of pages (C84_escape), on Windows also those that name a drive (C84_windows_drive); with a relative root folder, which the command line accepts, every page is sought in root/pages/root/pages (C84_relative_root)."
  },
  {
   "property": "C85",
   "status": "partial",
   "theorems": [
    "Verif.Own.C85_clear",
    "Verif.Own.C85_assign",
    "Verif.Own.C85_release",
    "Verif.Own.C85_create",
    "Verif.Own.C85_move_partial",
    "Verif.Own.C85_move_iff",
    "Verif.Own.C85_move_next",
    "Verif.Own.C85_once",
    "Verif.Own.C85_proper",
    "Verif.Own.C85_clear_vars",
    "Verif.Own.C85_no_leak_partial",
    "Verif.Own.C85_cycle_leaks",
    "Verif.Own.C85_functor_safe",
    "Verif.Own.C85_functor_no_leak_partial",
    "Verif.Own.C85_functor_leaks",
    "Verif.Own.C85_functor_move"
   ],
   "note": "C85_clear, C85_assign, C85_release, C85_create, C85_move_partial, C85_move_iff (exact condition), C85_once (all programs, proper or not), C85_proper, C85_clear_vars (exactly what is left), C85_no_leak_partial, C85_functor_safe, C85_functor_no_leak_partial, C85_functor_move. False of the code: p = std::move(p->next) reads the pointer after destroying the object it is in (C85_move_next); a->next = std::move(a) makes an object that is never destroyed (C85_cycle_leaks); assigning to a functor that holds something never deletes it (C85_functor_leaks). Not modelled: destructors that do more than destroy members, types with a destroy of their own; the missing virtual destructor of the wrapper (see DESIGN.md)."
  },
  {
   "property": "C86",
   "status": "partial",
   "theorems": [
    "Verif.Rm.C86_remove_partial",
    "Verif.Rm.C86_links_out",
    "Verif.Rm.C86_nothing_else",
    "Verif.Rm.C86_missing",
    "Verif.Rm.C86_delete",
    "Verif.Rm.C86_dangling",
    "Verif.Rm.C86_order",
    "Verif.Rm.C86_top_link",
    "Verif.Rm.C86_two_up"
   ],
   "note": "C86_remove_partial (exact disk afterwards), C86_links_out (a simple condition for its hypothesis on links), C86_nothing_else (any links, any outcome), C86_missing, C86_delete. False of the code: a link that leads nowhere is not removed and removing fails an assertion (C86_dangling), also if the link was made to lead nowhere by removing its target in the same directory before it (C86_order); a link to a directory given as the directory to remove has the contents of what it leads to removed, and then an assertion fails (C86_top_link); a path that goes up twice removes files of another directory (C86_two_up). Without permissions and other processes changing the disk; Windows is not modelled."
  },
  {
   "property": "C87",
   "status": "partial",
   "theorems": [
    "Verif.Clean.C87_succeeds",
    "Verif.Clean.C87_cut",
    "Verif.Clean.C87_replaces",
    "Verif.Clean.C87_code_partial",
    "Verif.Clean.C87_idempotent_partial",
    "Verif.Clean.C87_header",
    "Verif.Clean.C87_comment_cut",
    "Verif.Clean.C87_line_shared",
    "Verif.Clean.C87_no_code",
    "Verif.Clean.C87_text_lost",
    "Verif.Clean.C87_garbage_lost"
   ],
   "note": "C87_succeeds, C87_cut (exactly what is cut off, all headers), C87_replaces, C87_code_partial, C87_idempotent_partial, C87_header (the header of Plywood meets the conditions). False of the code: a comment with a blank line inside is cut in two and its rest becomes code (C87_comment_cut); so is a comment that shares its last line with code, and cleaning up again removes the code (C87_line_shared); a file without code is undefined behaviour (C87_no_code). By design or not: a comment about the code right below it (C87_text_lost) and unreadable text (C87_garbage_lost) are removed. Limited to texts that are ASCII up to the first token."
  },
  {
   "property": "C88",
   "status": "partial",
   "theorems": [
    "Verif.Cmd.C88_order",
    "Verif.Cmd.C88_command_partial",
    "Verif.Cmd.C88_options_order",
    "Verif.Cmd.C88_one",
    "Verif.Cmd.C88_unknown_option",
    "Verif.Cmd.C88_option_twice",
    "Verif.Cmd.C88_abbreviation",
    "Verif.Cmd.C88_one_letter",
    "Verif.Cmd.C88_ambiguous",
    "Verif.Cmd.C88_no_words",
    "Verif.Cmd.C88_empty_ignores",
    "Verif.Cmd.C88_rpc",
    "Verif.Cmd.C88_finalized",
    "Verif.Cmd.C88_shared_alone"
   ],
   "note": "C88_command_partial (which command is carried out, in both directions), C88_order, C88_options_order, C88_one, C88_unknown_option, C88_option_twice, C88_abbreviation, C88_one_letter, C88_no_words, C88_finalized. Missing: command lines with an empty argument, for which the claim is false (C88_empty_ignores: what follows it is ignored), and rpc (C88_rpc: ignores its arguments and never finalizes the command line, which a destructor asserts). Within extern, in means info and not install (C88_ambiguous); --shared alone is refused by build and run (C88_shared_alone). What the commands then do is not part of this property."
  },
  {
   "property": "C89",
   "status": "partial",
   "theorems": [
    "Verif.Conv.C89_convert_partial",
    "Verif.Conv.C89_recipe",
    "Verif.Conv.C89_member_missing",
    "Verif.Conv.C89_array_wrong"
   ],
   "note": "C89_convert_partial (exact effect on memory, all layouts without arrays of variable size), C89_recipe, C89_member_missing. False of the code: a fixed array to be filled from an array of variable size is never filled; the first bytes of the destination are overwritten instead and the remaining members are left out (C89_array_wrong, for all such structs). Limited to recipes that fit into one block of the stream."
  },
  {
   "property": "C90",
   "status": "partial",
   "theorems": [
    "Verif.Title.C90_grammar",
    "Verif.Title.C90_roundtrip",
    "Verif.Title.C90_text",
    "Verif.Title.C90_html_partial",
    "Verif.Title.C90_backslash_silent",
    "Verif.Title.C90_unknown_name"
   ],
   "note": "C90_grammar (exactly the titles read without errors, and their parts), C90_roundtrip, C90_text (any title), C90_unknown_name. C90_html_partial is limited to text without overlong UTF-8, which the escaping changes (see C11). A backslash at the very end is left out without an error (C90_backslash_silent)."
  },
  {
   "property": "C91",
   "status": "partial",
   "theorems": [
    "Verif.Cpu.C91_cores_partial",
    "Verif.Cpu.C91_each_once",
    "Verif.Cpu.C91_same_core",
    "Verif.Cpu.C91_fallback",
    "Verif.Cpu.C91_any",
    "Verif.Cpu.C91_overflow",
    "Verif.Cpu.C91_bind",
    "Verif.Cpu.C91_mixed",
    "Verif.Cpu.C91_packages_only"
   ],
   "note": "C91_cores_partial, C91_each_once, C91_same_core, C91_fallback, C91_any (any text), C91_bind. Missing: descriptions in which only some processors give package or core, for which the claim is false (C91_mixed: a processor that tells nothing lands on a core that has its number). A number too large for an int after the first colon of any line is undefined behaviour (C91_overflow, iff; there are machines with such a serial number). If only packages are given, each package counts as one core (C91_packages_only). Processors from 1024 cannot be bound to (C91_bind)."
  },
  {
   "property": "C92",
   "status": "partial",
   "theorems": [
    "Verif.DocEx.C92_extract_partial",
    "Verif.DocEx.C92_page",
    "Verif.DocEx.C92_each_once",
    "Verif.DocEx.C92_list_left_open",
    "Verif.DocEx.C92_two_members_assert",
    "Verif.DocEx.C92_comments_assert",
    "Verif.DocEx.C92_stray"
   ],
   "note": "C92_extract_partial, C92_page (layout for all such classes, and how many lists are left open), C92_each_once, C92_stray. False of the code: the list of each category with functions is never closed (C92_list_left_open, for all such classes); documenting a declaration of several members fails an assertion (C92_two_members_assert, for all); text inside of a group, and an empty comment or one that begins a group after one with text, fail assertions (C92_comments_assert). Comments are given as lines that are text or a directive; nested classes, templates and the directive that adds to another class are not modelled."
  },
  {
   "property": "C93",
   "status": "partial",
   "theorems": [
    "Verif.DocLink.C93_lookup",
    "Verif.DocLink.C93_colons",
    "Verif.DocLink.C93_roundtrip",
    "Verif.DocLink.C93_destination",
    "Verif.DocLink.C93_span",
    "Verif.DocLink.C93_leading_colon",
    "Verif.DocLink.C93_hidden",
    "Verif.DocLink.C93_bases_ignored",
    "Verif.DocLink.C93_global_function",
    "Verif.DocLink.C93_same_name"
   ],
   "note": "C93_lookup (termination and exact meaning of names), C93_destination, C93_span (both directions), C93_roundtrip, C93_colons, C93_global_function. Missing: text beginning with a colon, as in ::f, which fails an assertion (C93_leading_colon, iff). As in C++ a name hides those outside even if the rest of the name is only found there (C93_hidden); unlike C++, base classes are not looked into (C93_bases_ignored), and the second of two things of the same name in a scope is never found, so that the full name of a class can lead to a function (C93_same_name). Names are shorter than 2^31 bytes (C15)."
  },
  {
   "property": "C94",
   "status": "partial",
   "theorems": [
    "Verif.DocText.C94_shown_partial",
    "Verif.DocText.C94_names",
    "Verif.DocText.C94_fails",
    "Verif.DocText.C94_heading_code",
    "Verif.DocText.C94_page_link",
    "Verif.DocText.C94_other_link",
    "Verif.DocText.C94_colon"
   ],
   "note": "C94_shown_partial, C94_names, C94_page_link, C94_other_link, C94_fails (iff). Missing: headings that are a link to a # place and have code in it that leads somewhere; there the code is looked for in its former parent, which has been deleted (C94_heading_code, for all such headings). Code that begins with a colon fails an assertion (see C93). A link to a page by its ID is left as it is if there is a colon in the place (C94_colon, for all). That the parser never puts links into links is taken as given."
  },
  {
   "property": "C95",
   "status": "partial",
   "theorems": [
    "Verif.Toc.C95_names",
    "Verif.Toc.C95_order",
    "Verif.Toc.C95_order_distinct",
    "Verif.Toc.C95_clean",
    "Verif.Toc.C95_unnamable",
    "Verif.Toc.C95_made_partial",
    "Verif.Toc.C95_made_once",
    "Verif.Toc.C95_lost",
    "Verif.Toc.C95_contents",
    "Verif.Toc.C95_address"
   ],
   "note": "C95_names (iff), C95_order, C95_order_distinct, C95_clean (iff), C95_made_partial (iff), C95_made_once, C95_contents, C95_address (iff). False of the code: a page not named in the childOrder tag of its folder is not only reported but neither made nor shown, with everything below it (C95_lost); a page whose link ID has a hyphen cannot be named, so every such tag loses it (C95_unnamable, for all texts); a file and the index page of a folder of the same name have the same address (C95_address). The directory and its sorting (C17) are not modelled."
  },
  {
   "property": "C96",
   "status": "partial",
   "theorems": [
    "Verif.Gen.C96_generate_partial",
    "Verif.Gen.C96_again",
    "Verif.Gen.C96_fails",
    "Verif.Gen.C96_end_of_file",
    "Verif.Gen.C96_one_each",
    "Verif.Gen.C96_mark"
   ],
   "note": "C96_generate_partial, C96_again, C96_one_each, C96_mark, C96_fails (iff). False of the code: if a generated line is the end of the file, an assertion fails (C96_fails, C96_end_of_file). The parser is not part of this model (see CppParse): that it tells of the directives and braces of the file, and of those of the new file where they now are, is taken as given; so are lines with two such braces left out."
  },
  {
   "property": "C97",
   "status": "partial",
   "theorems": [
    "Verif.Reg.C97_written",
    "Verif.Reg.C97_only",
    "Verif.Reg.C97_registered_partial",
    "Verif.Reg.C97_balance",
    "Verif.Reg.C97_reported",
    "Verif.Reg.C97_lost_at_end"
   ],
   "note": "C97_written, C97_only, C97_registered_partial, C97_balance (all sequences of comments and declarations), C97_reported. False of the code: a command with no declaration after it is dropped without a report (C97_lost_at_end, for all such files). The parser is not part of this model (see CppParse): its calls are given as a list of events; names with escapes in the quotes are covered by C97_only and C97_balance but not by C97_written."
  },
  {
   "property": "C98",
   "status": "partial",
   "theorems": [
    "Verif.Sig.C98_roundtrip",
    "Verif.Sig.C98_distinct",
    "Verif.Sig.C98_add",
    "Verif.Sig.C98_order",
    "Verif.Sig.C98_noticed",
    "Verif.Sig.C98_built",
    "Verif.Sig.C98_once",
    "Verif.Sig.C98_errors_once",
    "Verif.Sig.C98_folder"
   ],
   "note": "C98_roundtrip, C98_distinct, C98_add, C98_order, C98_noticed (iff), C98_built (iff), C98_once. False of the code: errors in module definition files are only reported when they are built, and do not keep the signature from being saved, so that the next run reports nothing (C98_errors_once, for all files); the names of targets of a build folder are hashed with nothing between, so that moving one from the root targets to the shared ones leaves the signature the same for every hash (C98_folder). The hash is any function of the bytes (C28); that different files have different hashes cannot be proved. CMake is a yes or no; the file of the signature is read back as written (C69)."
  }
 ]
}