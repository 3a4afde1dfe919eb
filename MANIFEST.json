{
 "claims": [
  {
   "property": "C01",
   "status": "proved",
   "theorems": [
    "Verif.Props.C01_insert_roundtrip"
   ],
   "note": ""
  },
  {
   "property": "C02",
   "status": "proved",
   "theorems": [
    "Verif.Props.C02_appendix_lookup",
    "Verif.Props.C02_empty_lookup"
   ],
   "note": ""
  },
  {
   "property": "C03",
   "status": "partial",
   "theorems": [
    "Verif.Props.C03_housekept_lookup_partial",
    "Verif.Props.C03_counterexample_missed",
    "Verif.Props.C03_counterexample_present_aborts",
    "Verif.Props.C03_counterexample_absent_aborts",
    "Verif.Props.C03_counterexample_bogus_record"
   ],
   "note": "False in general: interpolation is relative to the start of the file, not the end of the table. Proved exact under the explicit condition SeekSafe; counterexamples show missed, aborting and bogus lookups."
  },
  {
   "property": "C04",
   "status": "proved",
   "theorems": [
    "Verif.Props.C04_listing_complete"
   ],
   "note": "Fewer than 2^31 inserts."
  },
  {
   "property": "C05",
   "status": "proved",
   "theorems": [
    "Verif.Props.C05_housekeeping_preserves"
   ],
   "note": "Fewer than 2^31 inserts."
  },
  {
   "property": "C06",
   "status": "proved",
   "theorems": [
    "Verif.Props.C06_sorted_valid"
   ],
   "note": "Fewer than 2^31 inserts."
  },
  {
   "property": "C07",
   "status": "proved",
   "theorems": [
    "Verif.Props.C07_nothing_lost",
    "Verif.Props.C07_recovery"
   ],
   "note": "Interleaved system calls on inodes and names, any crashes.  An appendix that is missing while a snapshot is left over is reported as nothing to do; the snapshot stays and is still searched."
  },
  {
   "property": "C08",
   "status": "proved",
   "theorems": [
    "Verif.Props.C08_mutual_exclusion",
    "Verif.Props.C08_second_leaves",
    "Verif.Props.C08_holder_blocks"
   ],
   "note": "The hold file may be removed by hand when no living process has it."
  },
  {
   "property": "C09",
   "status": "partial",
   "theorems": [
    "Verif.Props.C09_concurrent_insert_partial",
    "Verif.Props.C09_counterexample_lost"
   ],
   "note": "False: an insert that opened the appendix before the housekeeper took it away and writes after its last read is lost.  Proved for every other schedule."
  },
  {
   "property": "C10",
   "status": "partial",
   "theorems": [
    "Verif.Props.C10_concurrent_lookup_partial",
    "Verif.Props.C10_counterexample_missed"
   ],
   "note": "False: a lookup can miss entries when the snapshot is merged and removed between its reading of the sorted file and of the snapshot.  Proved for every schedule without removal of the snapshot during the lookup."
  },
  {
   "property": "C100",
   "status": "partial",
   "theorems": [
    "Verif.Props.Cut.C100_gone_partial",
    "Verif.Props.Cut.C100_before",
    "Verif.Props.Cut.C100_swallowed",
    "Verif.Props.Cut.C100_counterexample"
   ],
   "note": "True if nothing is written any more after the first write that fails or is cut, as when the other side has gone away (C100_gone_partial). False otherwise: the program goes on with the next message, which is taken for the rest of the one that was cut (C100_swallowed, C100_counterexample)."
  },
  {
   "property": "C101",
   "status": "partial",
   "theorems": [
    "Verif.Props.Printing.C101_part",
    "Verif.Props.Printing.C101_fine",
    "Verif.Props.Printing.C101_filter_partial",
    "Verif.Props.Printing.C101_lost",
    "Verif.Props.Printing.C101_counterexample_hole"
   ],
   "note": "False: no result of fprintf is looked at, so a list that goes into the buffer is lost on a full disk with status 0 (C101_lost), and a line may be missing in the middle (C101_counterexample_hole). Proved is that the file has parts of the list in their order and nothing else, and all of it if no write(2) fails."
  },
  {
   "property": "C102",
   "status": "partial",
   "theorems": [
    "Verif.Props.StowFiles.C102_mtree",
    "Verif.Props.StowFiles.C102_stops",
    "Verif.Props.StowFiles.C102_changed_partial",
    "Verif.Props.StowFiles.C102_counterexample_entry"
   ],
   "note": "True for the output of mtree (C102_mtree, C102_stops), if the digits of the digest used by the archive tell the whole text from the one cut short. False for the list of changed files, as the results of fprintf are not looked at: if a write fails and later ones do not, an entry may be missing (C102_counterexample_entry). It is complete if no write(2) fails, and the job stops if the last ones fail (C102_changed_partial)."
  },
  {
   "property": "C103",
   "status": "partial",
   "theorems": [
    "Verif.Props.IndexFaults.C103_fine",
    "Verif.Props.IndexFaults.C103_found_partial",
    "Verif.Props.IndexFaults.C103_opens",
    "Verif.Props.IndexFaults.C103_reads",
    "Verif.Props.IndexFaults.C103_lost",
    "Verif.Props.IndexFaults.C103_get_fine",
    "Verif.Props.IndexFaults.C103_get_lost",
    "Verif.Props.IndexFaults.C103_counterexample_missed"
   ],
   "note": "False: a file of the index that cannot be opened is taken for one that is not there (C103_opens), and an error in reading for the end of the file (C103_reads), so that entries are not found and nothing tells so (C103_counterexample_missed); GetJob_New says of every ID that no object has it if the index cannot be opened (C103_get_lost). Proved is that nothing else is found than without errors (C103_found_partial)."
  },
  {
   "property": "C104",
   "status": "partial",
   "theorems": [
    "Verif.Props.SiloFaults.C104_visits_partial",
    "Verif.Props.SiloFaults.C104_fine",
    "Verif.Props.SiloFaults.C104_skipped",
    "Verif.Props.SiloFaults.C104_endless",
    "Verif.Props.SiloFaults.C104_ends_iff",
    "Verif.Props.SiloFaults.C104_counterexample"
   ],
   "note": "True if stat(2) fails for no silo (C104_fine). False otherwise: a silo that cannot be looked at is taken for one that is not there (C104_skipped, C104_counterexample), 0 is returned always, and if the directories cannot be looked at the loop does not end (C104_endless); it ends for a callback that does not stop it exactly if some number has no directory (C104_ends_iff)."
  },
  {
   "property": "C105",
   "status": "partial",
   "theorems": [
    "Verif.Props.FilterFaults.C105_fine",
    "Verif.Props.FilterFaults.C105_beginnings_partial",
    "Verif.Props.FilterFaults.C105_lost",
    "Verif.Props.FilterFaults.C105_directory",
    "Verif.Props.FilterFaults.C105_counterexample"
   ],
   "note": "True if the lists can be read to their ends (C105_fine, with C41). False otherwise: an error is taken for the end of the list, and what was read of the line is lost (C105_lost, C105_counterexample); a directory is taken for an empty list (C105_directory). Proved is that filter does what it does for some beginnings of the lists (C105_beginnings_partial)."
  },
  {
   "property": "C106",
   "status": "partial",
   "theorems": [
    "Verif.Props.ReadFaults.C106_plain",
    "Verif.Props.ReadFaults.C106_stops",
    "Verif.Props.ReadFaults.C106_fine",
    "Verif.Props.ReadFaults.C106_lost",
    "Verif.Props.ReadFaults.C106_stitched",
    "Verif.Props.ReadFaults.C106_beginning_partial",
    "Verif.Props.ReadFaults.C106_counterexample"
   ],
   "note": "True without -z: what is written with status 0 is the whole object (C106_plain), and the program stops if a call that is needed fails (C106_stops). False with -z: the bytes read before the error are written and the status is 0 (C106_lost, C106_counterexample); if the error comes at the beginning of a segment a complete gzip file of the segments before it is written (C106_stitched). Wherever the errors are, what is written with -z is a beginning of the gzip file, followed by at most the 13 bytes that complete one (C106_beginning_partial)."
  },
  {
   "property": "C11",
   "status": "proved",
   "theorems": [
    "Verif.Props.C11_valid_id",
    "Verif.Props.C11_errors"
   ],
   "note": ""
  },
  {
   "property": "C12",
   "status": "proved",
   "theorems": [
    "Verif.Props.C12_header_map",
    "Verif.Props.C12_header_map_parsed"
   ],
   "note": ""
  },
  {
   "property": "C13",
   "status": "proved",
   "theorems": [
    "Verif.Props.C13_sorted_unique"
   ],
   "note": ""
  },
  {
   "property": "C14",
   "status": "proved",
   "theorems": [
    "Verif.Props.C14_serialize_parse",
    "Verif.Props.C14_parse_serialize",
    "Verif.Props.C14_counterexample_injection"
   ],
   "note": "Also the other way round: whatever was parsed prints to a text that parses to the same header. For names and values free of CR, NL and NUL, as the quantifier says; the counterexample shows that the condition is needed."
  },
  {
   "property": "C15",
   "status": "partial",
   "theorems": [
    "Verif.Props.C15_number_roundtrip",
    "Verif.Props.C15_number_sound_partial",
    "Verif.Props.C15_counterexample_empty",
    "Verif.Props.C15_counterexample_overflow"
   ],
   "note": "Round-trip proved. 'Never a wrong number' is false: the empty value reads as 0 and large values overflow."
  },
  {
   "property": "C16",
   "status": "proved",
   "theorems": [
    "Verif.Props.C16_names_unique"
   ],
   "note": ""
  },
  {
   "property": "C17",
   "status": "proved",
   "theorems": [
    "Verif.Props.C17_hundred_per_directory",
    "Verif.Props.C17_directory_exists"
   ],
   "note": ""
  },
  {
   "property": "C18",
   "status": "proved",
   "theorems": [
    "Verif.Props.C18_silo_iter",
    "Verif.Props.C18_counterexample_gap"
   ],
   "note": "The counterexample shows that the no-gap condition is needed."
  },
  {
   "property": "C19",
   "status": "partial",
   "theorems": [
    "Verif.Props.C19_roundtrip",
    "Verif.Props.C19_vsb",
    "Verif.Props.C19_in_bounds_partial",
    "Verif.Props.C19_counterexample_bounds"
   ],
   "note": "Round-trip proved for all lengths. The bounds half is false: with 16 to 23 bytes in the buffer the field is read from outside it."
  },
  {
   "property": "C20",
   "status": "partial",
   "theorems": [
    "Verif.Props.C20_segment_is_gzip",
    "Verif.Props.C20_stitch_partial",
    "Verif.Props.C20_counterexample_long",
    "Verif.Props.C20_separator"
   ],
   "note": "Proved for segments whose contents are shorter than 4 GiB each; false beyond that (counterexample)."
  },
  {
   "property": "C21",
   "status": "proved",
   "theorems": [
    "Verif.Props.C21_chunking"
   ],
   "note": ""
  },
  {
   "property": "C22",
   "status": "partial",
   "theorems": [
    "Verif.Props.C22_combine",
    "Verif.Props.C22_counterexample_length"
   ],
   "note": "The combination law is proved for all byte strings; the code passes a 32 bit length, which gives a wrong checksum for segments of 4 GiB and more."
  },
  {
   "property": "C23",
   "status": "proved",
   "theorems": [
    "Verif.Props.C23_enumerate_headers",
    "Verif.Props.C23_enumerate_bodies",
    "Verif.Props.C23_counterexample_long_header"
   ],
   "note": "For headers that fit a page with 24 bytes to spare (Rec.Fits); the counterexamples (also C51) show what happens otherwise."
  },
  {
   "property": "C24",
   "status": "proved",
   "theorems": [
    "Verif.Props.C24_random_access"
   ],
   "note": "For headers that fit a page with 24 bytes to spare (Rec.Fits)."
  },
  {
   "property": "C25",
   "status": "proved",
   "theorems": [
    "Verif.Props.C25_sizes",
    "Verif.Props.C25_from_start",
    "Verif.Props.C25_hold",
    "Verif.Props.C25_installed",
    "Verif.Props.C25_archive"
   ],
   "note": "Appends and installs; hold files of finished segments are below the limit."
  },
  {
   "property": "C26",
   "status": "proved",
   "theorems": [
    "Verif.Props.C26_never_changed",
    "Verif.Props.C26_whole_records",
    "Verif.Props.commit_grows",
    "Verif.Props.commit_change"
   ],
   "note": "Interleaved processes, any crashes, any choice of append target."
  },
  {
   "property": "C27",
   "status": "proved",
   "theorems": [
    "Verif.Props.C27_exclusive",
    "Verif.Props.C27_only_owner_writes",
    "Verif.Props.C27_hold_blocks"
   ],
   "note": "The hold file may be removed by hand when no living process has it."
  },
  {
   "property": "C28",
   "status": "partial",
   "theorems": [
    "Verif.Props.C28_in_place",
    "Verif.Props.C28_iff",
    "Verif.Props.C28_unsegmented",
    "Verif.Props.C28_first_partial",
    "Verif.Props.C28_middle",
    "Verif.Props.C28_last_partial",
    "Verif.Props.C28_counterexample"
   ],
   "note": "Proved for unsegmented objects and middle segments; for first and last segments the exact condition on the decimal lengths is proved, and a last segment that compresses well is a counterexample (assertion failure in Wsilo_Commit)."
  },
  {
   "property": "C29",
   "status": "partial",
   "theorems": [
    "Verif.Props.C29_entries_partial",
    "Verif.Props.C29_finished",
    "Verif.Props.C29_appended",
    "Verif.Props.C29_counterexample_crash",
    "Verif.Props.C29_counterexample_race"
   ],
   "note": "False: the index entry of a new silo is inserted before the silo is linked, so a crash in between leaves it dangling; and a race between the existence test and the creation of the hold file lets two processes build one number.  Proved: every entry points at a complete record, or at a silo whose writer is between the two steps or died there."
  },
  {
   "property": "C30",
   "status": "proved",
   "theorems": [
    "Verif.Props.C30_roundtrip",
    "Verif.Props.C30_short",
    "Verif.Props.C30_ordered",
    "Verif.Props.C30_no_reuse",
    "Verif.Props.C30_next_found",
    "Verif.Props.C30_existing"
   ],
   "note": ""
  },
  {
   "property": "C31",
   "status": "partial",
   "theorems": [
    "Verif.Props.C31_segments_partial",
    "Verif.Props.C31_archive_untouched",
    "Verif.Props.C31_counterexample_empty"
   ],
   "note": "Proved under the contract for deflate in Spec/Zlib.lean; segments are non-empty if the headers leave at least 76 bytes of silo.max_size, and with less an empty one is possible (counterexample)."
  },
  {
   "property": "C32",
   "status": "partial",
   "theorems": [
    "Verif.Props.C32_stored_partial",
    "Verif.Props.store_adds",
    "Verif.Props.later_inv",
    "Verif.Props.gettable_of",
    "Verif.Props.C32_counterexample_segment_content"
   ],
   "note": "Every history of stores and housekeeping from an empty index, every compressor meeting the zlib contract; the stored object stays among the records, and is delivered exactly if no other record clashes with it (same ID, same 32-bit continuation field, unsafe binary search). Counterexample: content equal to a continuation segment of another object."
  },
  {
   "property": "C33",
   "status": "partial",
   "theorems": [
    "Verif.Props.C33_get_partial",
    "Verif.Props.C33_get_gzip",
    "Verif.Props.finds_history",
    "Verif.Props.C33_counterexample_collision",
    "Verif.Props.C33_counterexample_missing",
    "Verif.Props.C33_counterexample_equal"
   ],
   "note": "Proved unless the continuation field (32 bits) is shared with another record; then the search aborts or the order is wrong. Counterexamples: collision with a record that is not a continuation, a missing continuation, and two equal continuation segments."
  },
  {
   "property": "C34",
   "status": "proved",
   "theorems": [
    "Verif.Props.C34_not_found",
    "Verif.Props.C34_empty",
    "Verif.Props.C34_errors"
   ],
   "note": "The index finds what was inserted (hypothesis Finds, from C03 by finds_history)."
  },
  {
   "property": "C35",
   "status": "proved",
   "theorems": [
    "Verif.Props.C35_store_once",
    "Verif.Props.store_adds"
   ],
   "note": "Same type, reference and contents give the same ID; if it is found nothing changes and no hold file is left."
  },
  {
   "property": "C36",
   "status": "proved",
   "theorems": [
    "Verif.Props.C36_announced"
   ],
   "note": "For headers with the right Content-Length, which the store job writes."
  },
  {
   "property": "C37",
   "status": "proved",
   "theorems": [
    "Verif.Props.C37_any",
    "Verif.Props.C37_record",
    "Verif.Props.C37_silo",
    "Verif.Props.C37_object",
    "Verif.Props.C37_all",
    "Verif.Props.C37_in_order",
    "Verif.Props.C37_interleaved",
    "Verif.Props.C37_counterexample_order"
   ],
   "note": "Record checks for any file; objects for lists of segments that are records in the silos, which is what auditing silos of complete records makes. The converse fails: complete objects met out of order are reported as incomplete."
  },
  {
   "property": "C38",
   "status": "partial",
   "theorems": [
    "Verif.Props.C38_ends_partial",
    "Verif.Props.C38_counterexample"
   ],
   "note": "False: with the second segment missing the audit of that object never ends. Proved: that is the only way."
  },
  {
   "property": "C39",
   "status": "proved",
   "theorems": [
    "Verif.Props.C39_links",
    "Verif.Props.C39_complete",
    "Verif.Props.C39_counterexample_twice"
   ],
   "note": "For every order of the segments, also among segments of incomplete objects. No segment may be stored twice: the counterexample shows that reindexing then aborts."
  },
  {
   "property": "C40",
   "status": "partial",
   "theorems": [
    "Verif.Props.C40_reindex_partial",
    "Verif.Props.C40_counterexample_twice"
   ],
   "note": "After any history of stores (resource or metadata), housekeeping runs and hold-file/cache changes from an empty archive: reindexing all silos, in any order, succeeds, leaves nothing over, and gives an index with exactly the same entries. Condition: no two segmented objects with the same ID (fewer than 2^31 records). C40_counterexample_twice: without it reindexing aborts - a segmented object that cannot be retrieved is stored a second time, and the silos of the two copies interleave."
  },
  {
   "property": "C41",
   "status": "partial",
   "theorems": [
    "Verif.Props.C41_exact",
    "Verif.Props.C41_filter_partial",
    "Verif.Props.C41_missing_partial",
    "Verif.Props.C41_silos_partial",
    "Verif.Props.C41_line",
    "Verif.Props.C41_bad_line",
    "Verif.Props.C41_incomplete",
    "Verif.Props.C41_counterexample_short",
    "Verif.Props.C41_counterexample_upper",
    "Verif.Props.C41_counterexample_silos"
   ],
   "note": "Holds for IDs of at least 24 digits whose first 24 digits are in lower case, without -s, for every list, every history of the index and every result of qsort.  With -s it needs that neighbouring index entries have different keys.  Proved false for IDs of less than 24 digits and for upper-case IDs, which are never found, and with -s for IDs that have 24 digits in common."
  },
  {
   "property": "C42",
   "status": "proved",
   "theorems": [
    "Verif.Props.C42_roundtrip",
    "Verif.Props.C42_truncated",
    "Verif.Props.C42_bad_command",
    "Verif.Props.C42_counterexample_long"
   ],
   "note": "Payloads below 4 GiB, the limit of the length field; the counterexample shows what happens above."
  },
  {
   "property": "C43",
   "status": "partial",
   "theorems": [
    "Verif.Props.C43_always",
    "Verif.Props.C43_verdicts",
    "Verif.Props.C43_exact",
    "Verif.Props.C43_stow_partial",
    "Verif.Props.C43_finish",
    "Verif.Props.C43_bounded",
    "Verif.Props.C43_job",
    "Verif.Props.C43_counterexample_short"
   ],
   "note": "For every interleaving of client, server, filter jobs and stores by others, every batching and every set of present digests: no check fails, exactly what the filter finds missing is requested, in order and once, and the exchange comes to an end. C43_job connects it to the filter of C41. Proved false for archives with IDs of less than 24 digits, where everything is requested."
  },
  {
   "property": "C44",
   "status": "proved",
   "theorems": [
    "Verif.Props.C44_feed_lines",
    "Verif.Props.C44_feed_chunking",
    "Verif.Props.C44_file_lines",
    "Verif.Props.C44_in_bounds",
    "Verif.Props.C44_counterexample_nul"
   ],
   "note": "For streams without NUL, as the quantifier says; the counterexample shows that NUL makes the result depend on the cut."
  },
  {
   "property": "C45",
   "status": "partial",
   "theorems": [
    "Verif.Props.C45_feed_terminates_iff_partial",
    "Verif.Props.C45_counterexample_overlong",
    "Verif.Props.C45_counterexample_file"
   ],
   "note": "False in general: a line that fills the buffer makes the reader loop or deliver a cut line; termination is characterised exactly."
  },
  {
   "property": "C46",
   "status": "proved",
   "theorems": [
    "Verif.Props.C46_content",
    "Verif.Props.C46_concatenation",
    "Verif.Props.C46_fixed"
   ],
   "note": ""
  },
  {
   "property": "C47",
   "status": "proved",
   "theorems": [
    "Verif.Props.C47_parse",
    "Verif.Props.C47_find",
    "Verif.Props.C47_missing_section",
    "Verif.Props.C47_counterexample_case",
    "Verif.Props.C47_counterexample_error"
   ],
   "note": "Lookup needs section names that differ up to case; the counterexamples show case clashes and parse errors."
  },
  {
   "property": "C48",
   "status": "proved",
   "theorems": [
    "Verif.Props.C48_size_exact",
    "Verif.Props.C48_integer_exact",
    "Verif.Props.C48_bad_suffix"
   ],
   "note": "Over any arithmetic with the IEEE double error bounds; result below 2^49, at most 300 decimals, mantissa below 2^52. Exponent notation not covered."
  },
  {
   "property": "C49",
   "status": "partial",
   "theorems": [
    "Verif.Props.C49_by_digest",
    "Verif.Props.C49_metadata",
    "Verif.Props.C49_nothing_else",
    "Verif.Props.C49_no_other",
    "Verif.Props.C49_different_reference",
    "Verif.Props.C49_counterexample_type",
    "Verif.Props.C49_stored_id"
   ],
   "note": "False in one point: for every metadata record there is a resource content that gets the same ID.  SHA256 is a parameter."
  },
  {
   "property": "C50",
   "status": "partial",
   "theorems": [
    "Verif.Props.C50_bare",
    "Verif.Props.C50_uri",
    "Verif.Props.C50_counterexample_uri",
    "Verif.Props.C50_printed"
   ],
   "note": "Proved for bare IDs.  False for a full URI: its first characters become the ID and the store aborts."
  },
  {
   "property": "C51",
   "status": "partial",
   "theorems": [
    "Verif.Props.C51_in_bounds_partial",
    "Verif.Props.C51_counterexample_page_end"
   ],
   "note": "False: a header whose member ends 16 to 23 bytes before the end of the page is read out of bounds."
  },
  {
   "property": "C52",
   "status": "partial",
   "theorems": [
    "Verif.Props.C52_absolute_terminates",
    "Verif.Props.C52_relative_terminates_iff",
    "Verif.Props.C52_silo_terminates_partial",
    "Verif.Props.C52_parent_exists",
    "Verif.Props.C52_counterexample_relative"
   ],
   "note": "False for relative directories none of whose components exist: infinite recursion. Proved for absolute paths and characterised for relative ones."
  },
  {
   "property": "C53",
   "status": "proved",
   "theorems": [
    "Verif.Props.C53_prefix_stable",
    "Verif.Props.C53_content"
   ],
   "note": ""
  },
  {
   "property": "C54",
   "status": "partial",
   "theorems": [
    "Verif.Props.C54_records",
    "Verif.Props.C54_clean_audit_partial",
    "Verif.Props.C54_tidy_partial",
    "Verif.Props.C54_counterexample_given"
   ],
   "note": "C54_records: no message about any record, for any history, also with IDs given by the user if the audit is told to ignore those. C54_clean_audit_partial: the whole audit, with segmented objects, ends without a message and with nothing left over; conditions: no IDs given by the user, no two segmented objects with the same ID, no gap in the silo numbers (the audit stops there). C54_counterexample_given: the option to ignore given IDs has no effect on segmented objects."
  },
  {
   "property": "C55",
   "status": "partial",
   "theorems": [
    "Verif.Props.C55_headers_partial"
   ],
   "note": "Needs, as C32 does, that no record clashes with the object (Clear): no other record with its ID, none in between its segments, and an index search that is safe for the keys."
  },
  {
   "property": "C56",
   "status": "proved",
   "theorems": [
    "Verif.Props.C56_no_gaps",
    "Verif.Props.C56_counterexample_hold",
    "Verif.Props.C56_counterexample_cache"
   ],
   "note": "The counterexamples show what is outside of the quantifier: a hold file left behind by a crash, or a cache file with too high a number, makes a gap, and the audit then passes over all silos behind it without a word."
  },
  {
   "property": "C57",
   "status": "partial",
   "theorems": [
    "Verif.Props.C57_first_fit",
    "Verif.Props.C57_counterexample_protected"
   ],
   "note": "C57_first_fit: true unless a write-protected silo comes first. C57_counterexample_protected: if the silo where the search begins is write-protected, nothing is ever appended again by any later store, and every new object gets a silo of its own."
  },
  {
   "property": "C58",
   "status": "partial",
   "theorems": [
    "Verif.Props.C58_in_range",
    "Verif.Props.C58_no_abort",
    "Verif.Props.C58_values",
    "Verif.Props.C58_counterexample_bits",
    "Verif.Props.C58_counterexample_blank",
    "Verif.Props.C58_counterexample_sign"
   ],
   "note": "Proved for every file: what is accepted is in range, nothing aborts, and well-formed configurations give their values. False in three cases: an ID length is cut to 32 bits before the check, a size with a blank in it is silently replaced by the default, and silo sizes from 2^63 on pass as negative numbers. Sizes of 2^64 and more are undefined behaviour (conversion of double), which C58_no_abort names."
  },
  {
   "property": "C59",
   "status": "partial",
   "theorems": [
    "Verif.Props.C59_options",
    "Verif.Props.C59_store",
    "Verif.Props.C59_refused",
    "Verif.Props.C59_history",
    "Verif.Props.C59_counterexample_star",
    "Verif.Props.C59_counterexample_read_error"
   ],
   "note": "C59_store is an equivalence for every option list, input and archive. False in two cases: an error after the first piece has been read is not noticed, and with a wildcard in the list of mime types a type with line ends is accepted, which makes a record that cannot be read. C59_history has the hypothesis that lists have no wildcard."
  },
  {
   "property": "C60",
   "status": "partial",
   "theorems": [
    "Verif.Props.C60_get_partial",
    "Verif.Props.C60_authentic"
   ],
   "note": "C60_get_partial: for objects that are new, unless records clash (Clear, as for C32). C60_authentic needs no such hypothesis, but that the index finds the ID (SeekSafe, see C03). With -z what is written is a gzip file of the object, if segments have less than 4 GiB (see C20)."
  },
  {
   "property": "C61",
   "status": "proved",
   "theorems": [
    "Verif.Props.C61_refs"
   ],
   "note": "For archives with fewer than 2^31 records, lists of mime types without wildcard, and references that the index finds (SeekSafe, see C03) when they are given. The clock is constant in the model; the date plays no role here."
  },
  {
   "property": "C62",
   "status": "partial",
   "theorems": [
    "Verif.Props.C62_safe_partial",
    "Verif.Props.C62_done_partial",
    "Verif.Props.C62_kept_partial",
    "Verif.Props.C62_live_partial",
    "Verif.Props.C62_bounded_partial",
    "Verif.Props.C62_counterexample_empty",
    "Verif.Props.C62_counterexample_order",
    "Verif.Props.C62_counterexample_second",
    "Verif.Props.C62_counterexample_late",
    "Verif.Props.C62_counterexample_stuck"
   ],
   "note": "Proved for every interleaving if no file is empty when it is opened, the list of files is not in the archive while one of the files is missing, and the filter jobs end before the metadata job; for the end of the job, also if the connection can be written to whenever the client looks. Each of these hypotheses is necessary: five counterexamples, among them that a second target in the same run fails because an entry is left on ack_list. Store jobs do not fail in the model, and files can be opened. The list of files is what C63 shows to be read from the output of mtree."
  },
  {
   "property": "C63",
   "status": "partial",
   "theorems": [
    "Verif.Props.C63_list_partial",
    "Verif.Props.C63_start_partial",
    "Verif.Props.C63_counterexample_path",
    "Verif.Props.C63_counterexample_line"
   ],
   "note": "Proved if no line (with its continuation lines) has more than 8191 bytes and no directory has a path of more than 4094 bytes, as mtree prints it. Otherwise a buffer overflows, or the list ends early without a complaint: counterexamples. mtree exits with status 0 in the model, and the output is that for one target from the start of the program."
  },
  {
   "property": "C64",
   "status": "partial",
   "theorems": [
    "Verif.Props.C64_found_partial",
    "Verif.Props.C64_get_partial",
    "Verif.Props.C64_counterexample_mixed"
   ],
   "note": "Needs that no two segmented objects have the same ID (FirstsApart) and that the index search is safe (see C03). No assumption on the hash and none on other records that share keys. C64_counterexample_mixed: if an object is there twice, cut in different ways, then segments of both are mixed, and the CGI program serves the result."
  },
  {
   "property": "C65",
   "status": "partial",
   "theorems": [
    "Verif.Props.C65_form",
    "Verif.Props.C65_refused",
    "Verif.Props.C65_error",
    "Verif.Props.C65_error_texts",
    "Verif.Props.C65_strstr",
    "Verif.Props.C65_sound_partial",
    "Verif.Props.C65_served_partial",
    "Verif.Props.C65_counterexample_inject",
    "Verif.Props.C65_counterexample_void"
   ],
   "note": "C65_sound_partial needs what C64 needs; C65_served_partial needs that no record clashes with the object (Clear, as for C32), and that no segment is empty: an empty one makes the program abort, C65_counterexample_void. C65_form needs a mime type without newline; with a wildcard in the configuration there are others, and header fields can be injected, C65_counterexample_inject."
  },
  {
   "property": "C66",
   "status": "partial",
   "theorems": [
    "Verif.Props.C66_byid_partial",
    "Verif.Props.C66_dump",
    "Verif.Props.C66_dump_partial",
    "Verif.Props.C66_line",
    "Verif.Props.C66_counterexample_status",
    "Verif.Props.C66_counterexample_type",
    "Verif.Props.C66_counterexample_short"
   ],
   "note": "C66_dump and C66_line need nothing but fewer than 2^31 records. With arguments, fragments have to be such that the index search is safe (Seekable, see C03; C66_counterexample_short shows a fragment for which dumpindex misses the record and one for which it aborts), and not longer than an ID. An argument that is not hex ends byid with status 1, also with -e, which one match does as well; -t resource omits objects in several segments: counterexamples."
  },
  {
   "property": "C67",
   "status": "partial",
   "theorems": [
    "Verif.Props.C67_rebuild_partial",
    "Verif.Props.C67_read_partial",
    "Verif.Props.C67_silos_partial",
    "Verif.Props.C67_twice_partial",
    "Verif.Props.C67_archive_partial",
    "Verif.Props.C67_header_alone",
    "Verif.Props.C67_counterexample_full_buffer",
    "Verif.Props.C67_counterexample_long_header",
    "Verif.Props.C67_counterexample_old_long",
    "Verif.Props.C67_counterexample_damage",
    "Verif.Props.C67_counterexample_carried"
   ],
   "note": "Needs that inflate never fills the output buffer, that headers have at most BUFSIZ - 2 bytes, that contents have less than 2^60 bytes, and for records with the old digest that the contents have at most BUFSIZ bytes: counterexamples for the first, second and fourth. A damaged silo is cut off without a message, and the state is carried over to the next silo: counterexamples. The contract for deflate (Refill) is one for pages of 4 KiB. The messages are left out."
  },
  {
   "property": "C68",
   "status": "partial",
   "theorems": [
    "Verif.Props.C68_number",
    "Verif.Props.C68_mksilo",
    "Verif.Props.C68_makes",
    "Verif.Props.C68_once",
    "Verif.Props.C68_counterexample_octal",
    "Verif.Props.C68_counterexample_gap"
   ],
   "note": "Proved for numbers in decimal. A number written with leading zeros, as in the names of the silo files, is taken as octal, and what is no number as 0: C68_counterexample_octal. The histories in C32, C40, C54, C55, C59-C61 and C64-C67 may contain runs of mksilo. C68_counterexample_gap: a silo whose number leaves a directory out is not seen by commands that go over all silos."
  },
  {
   "property": "C69",
   "status": "partial",
   "theorems": [
    "Verif.Props.C69_feed",
    "Verif.Props.C69_store_partial",
    "Verif.Props.C69_history_partial"
   ],
   "note": "Feeding is proved for all contents. Committing needs that no segment of several holds more than ten times the size of a silo: with segments that compress better the final header may not fit, see C28_counterexample; and that looking up the ID comes to its end, which C69_history_partial shows for IDs no record has. Needs silo sizes with room for the warcinfo record and a page, a header that leaves 600 bytes of a page, silo numbers left, and of zlib (Live) that it holds back no more than 32000 bytes while there is much room, and no more than 16 after a partial flush."
  },
  {
   "property": "C70",
   "status": "proved",
   "theorems": [
    "Verif.Props.C70_round",
    "Verif.Props.C70_once",
    "Verif.Props.C70_ends",
    "Verif.Props.C70_dispatch",
    "Verif.Props.C70_stevedore",
    "Verif.Props.C70_stow",
    "Verif.Props.C70_stow_fails",
    "Verif.Props.C70_counterexample_next",
    "Verif.Props.C70_counterexample_lost"
   ],
   "note": "The counterexamples delimit the claim: the loop is not safe for handlers that remove events behind their own, and stow aborts when the connection is lost while mtree runs."
  },
  {
   "property": "C71",
   "status": "partial",
   "theorems": [
    "Verif.Props.C71_refines",
    "Verif.Props.C71_room_partial",
    "Verif.Props.C71_goes_on_partial",
    "Verif.Props.C71_waiting",
    "Verif.Props.C71_counterexample_deadlock"
   ],
   "note": "Wrong as it stands: C71_counterexample_deadlock shows, for pipes of any usual size, files for which both come to wait for ever. It holds if the pipe towards the client has room for 1500 bytes for each file: C71_room_partial. The conditions are those of C62."
  },
  {
   "property": "C72",
   "status": "partial",
   "theorems": [
    "Verif.Props.C72_refines",
    "Verif.Props.C72_safe_partial",
    "Verif.Props.C72_kept_partial",
    "Verif.Props.C72_counterexample_lost"
   ],
   "note": "For IDs of at least 24 digits, SHA256 in lower case, fewer than 2^31 records, and the conditions of C62; looking up IDs before storing has to be safe (SeekSafe, see C03). A record with the ID is not the same as an object for get: C72_counterexample_lost, a file equal to a later segment of an object is neither stored nor can it be got. Each job works on the archive in one step."
  },
  {
   "property": "C73",
   "status": "partial",
   "theorems": [
    "Verif.Props.C73_survives_partial",
    "Verif.Props.C73_dangling_fails",
    "Verif.Props.C73_counterexample_dangling"
   ],
   "note": "The bytes in the silos and the records of the object survive in every case. That get delivers the object needs that no record clashes with it (Clear, as for C32) and that no index entry of a silo that never got its name shares a key with one of its segments. The last sentence is false: C73_counterexample_dangling, a store killed between writing the index entry and linking the silo makes its object impossible to store, as every lookup that finds only such entries aborts (C73_dangling_fails). A write to the index is taken as atomic; crashes of mksilo and of housekeeping (C07) are not part of the histories."
  },
  {
   "property": "C74",
   "status": "partial",
   "theorems": [
    "Verif.Props.C74_audit_partial",
    "Verif.Props.C74_get",
    "Verif.Props.C74_counterexample_between",
    "Verif.Props.C74_counterexample_reindex",
    "Verif.Props.C74_counterexample_zip",
    "Verif.Props.C74_counterexample_lost",
    "Verif.Props.C74_counterexample_behind"
   ],
   "note": "The audit fails for each cut that is not between two records, and get for each cut in the body. The rest is false: a cut between two records is not noticed by the audit; reindex takes a record of which the header and 24 bytes are left for a whole one, after which store prints the ID of the object without storing it; get -z delivers half a gzip file and exits with success; and records that are put behind the damage, when the hold file is removed, are lost to reindex and audit."
  },
  {
   "property": "C75",
   "status": "partial",
   "theorems": [
    "Verif.Props.C75_roundtrip",
    "Verif.Props.C75_digests",
    "Verif.Props.C75_grows",
    "Verif.Props.C75_damage",
    "Verif.Props.C75_counter",
    "Verif.Props.C75_counterexample_reuse"
   ],
   "note": "All but the last sentence, for names without a slash. The last one is false: the IV depends on the name only, so whatever the keys are two copies of silos of the same name show how the silos differ (C75_counterexample_reuse); rebuild gives a new archive the names of the old one."
  },
  {
   "property": "C76",
   "status": "partial",
   "theorems": [
    "Verif.Props.C76_quota",
    "Verif.Props.C76_order",
    "Verif.Props.C76_eventually_partial",
    "Verif.Props.C76_counterexample_large",
    "Verif.Props.C76_counterexample_gone",
    "Verif.Props.C76_counterexample_blank"
   ],
   "note": "The quota and the order hold if no silo changes during the run and the clock stands still while the silos are sorted. Every silo has its turn within as many runs as there are silos, if the silos do not change, each fits in the quota, all names in silodates.txt are silos, and names have no white space. Without: one silo larger than the quota keeps all silos from ever being staged, a silo that is gone makes every run fail, and so does a name with a blank."
  },
  {
   "property": "C77",
   "status": "partial",
   "theorems": [
    "Verif.Props.C77_whole",
    "Verif.Props.C77_dates",
    "Verif.Props.C77_complete",
    "Verif.Props.C77_recorded_partial",
    "Verif.Props.C77_counterexample_lost"
   ],
   "note": "The last sentence is false for a run cut off between the rename of silodates.txt.new and that of the staging directory: C77_counterexample_lost. For all other places it holds: C77_recorded_partial. rmtree and the renames are taken to succeed."
  },
  {
   "property": "C78",
   "status": "partial",
   "theorems": [
    "Verif.Props.C78_getopt",
    "Verif.Props.C78_wrong",
    "Verif.Props.C78_refused",
    "Verif.Props.C78_options",
    "Verif.Props.C78_filter",
    "Verif.Props.C78_dumpindex",
    "Verif.Props.C78_byid",
    "Verif.Props.C78_simple",
    "Verif.Props.C78_get",
    "Verif.Props.C78_get_one",
    "Verif.Props.C78_store",
    "Verif.Props.C78_main",
    "Verif.Props.C78_none",
    "Verif.Props.C78_only",
    "Verif.Props.C78_home",
    "Verif.Props.C78_named",
    "Verif.Props.C78_json",
    "Verif.Props.C78_jobs",
    "Verif.Props.C78_counterexample_abort",
    "Verif.Props.C78_counterexample_audit",
    "Verif.Props.C78_counterexample_jobs",
    "Verif.Props.C78_counterexample_conf",
    "Verif.Props.C78_counterexample_home"
   ],
   "note": "Options, dispatch and -c are as stated. False: without -c a configuration in the home directory with a mistake in it is passed over silently and another archive is used (C78_counterexample_conf), a HOME of more than 1008 bytes ends in a failed assertion, as do arguments of housekeeping and _testbytes; audit goes on after a wrong -i; and after stevedore -- every metadata job fails, as getopt(3) is not reset before a job."
  },
  {
   "property": "C79",
   "status": "partial",
   "theorems": [
    "Verif.Props.C79_cstr",
    "Verif.Props.C79_plain",
    "Verif.Props.C79_hex",
    "Verif.Props.C79_counterexample_eschex",
    "Verif.Props.C79_counterexample_zeros",
    "Verif.Props.C79_counterexample_json"
   ],
   "note": "True for C strings with octal escapes, for the plain mode, and in hexadecimal unless there are more than four bytes and all are zero. False with VSB_QUOTE_ESCHEX, where an escape takes a following hexadecimal digit with it, and with VSB_QUOTE_JSON, where the escapes are not those of JSON. Nothing in the program calls the function. VSB_QUOTE_UNSAFE and VSB_QUOTE_NONL, which are not meant to be undone, are modelled without a theorem."
  },
  {
   "property": "C80",
   "status": "proved",
   "theorems": [
    "Verif.Props.C80_refines",
    "Verif.Props.C80_init",
    "Verif.Props.C80_reads",
    "Verif.Props.C80_loops",
    "Verif.Props.C80_safe",
    "Verif.Props.C80_counterexample_twice"
   ],
   "note": "For the macros that the program uses. C80_counterexample_twice shows that the rules are needed. The other models have lists where the program has tail queues."
  },
  {
   "property": "C81",
   "status": "partial",
   "theorems": [
    "Verif.Props.C81_recover_partial",
    "Verif.Props.C81_counterexample_retry"
   ],
   "note": "True if no two first segments in the silos have the same ID; the object is delivered if no other record clashes with it in the index (as in C32). False in general: a store of an object in three segments that is killed after the second one and then repeated makes reindex abort (C81_counterexample_retry). What a torn append does to reindex is C74."
  },
  {
   "property": "C82",
   "status": "partial",
   "theorems": [
    "Verif.Props.C82_found",
    "Verif.Props.C82_torn",
    "Verif.Props.C82_stays",
    "Verif.Props.C82_miss",
    "Verif.Props.C82_unknown",
    "Verif.Props.C82_store",
    "Verif.Props.C82_housekeep",
    "Verif.Props.C82_counterexample_bogus"
   ],
   "note": "The first sentence part is true: C82_found, for an index that is not being housekept. The rest is false, and the theorems say so for every index with part of an entry in it: no lookup of something that is not there and no listing comes to an end, nothing new can be stored, housekeeping aborts, and nothing that is written later changes that. Reindexing into an empty index (C81) is the way out."
  },
  {
   "property": "C83",
   "status": "partial",
   "theorems": [
    "Verif.Props.C83_again_partial"
   ],
   "note": "The condition is that no two segmented objects have the same ID (they are told apart only by their first segments), and that the index stays below 2^31 entries. The entries are the same as a set: some can be there twice, as the example shows."
  },
  {
   "property": "C84",
   "status": "proved",
   "theorems": [
    "Verif.Props.C84_opens",
    "Verif.Props.C84_short"
   ],
   "note": "strnunvis(3) is that of FreeBSD, without flags; it is not in the repository and was modelled from its source as known. What happens with longer lines and paths is C63."
  },
  {
   "property": "C85",
   "status": "proved",
   "theorems": [
    "Verif.Props.C85_store",
    "Verif.Props.C85_history",
    "Verif.Props.C85_archive"
   ],
   "note": "For stores that succeed; a store whose assertions fail is not related to a killed process. Index entries are compared by silo and offset; the IDs and flags are not part of the processes."
  },
  {
   "property": "C86",
   "status": "partial",
   "theorems": [
    "Verif.Props.Client.C86_pieces",
    "Verif.Props.Client.C86_objects",
    "Verif.Props.Client.C86_metadata",
    "Verif.Props.Client.C86_zero",
    "Verif.Props.Client.C86_open",
    "Verif.Props.Client.C86_stuck",
    "Verif.Props.Client.C86_answers",
    "Verif.Props.Client.C86_waits",
    "Verif.Props.Client.C86_memory_partial",
    "Verif.Props.Client.C86_refuses",
    "Verif.Props.Client.C86_counterexample_cut",
    "Verif.Props.Client.C86_counterexample_open",
    "Verif.Props.Client.C86_counterexample_freed",
    "Verif.Props.Client.C86_counterexample_early"
   ],
   "note": "False in parts: if the client breaks off inside a DATA message, the object as far as it came is stored (the exit status is then 3); if it breaks off inside a FILTER message while a filter job runs, an entry of the queue is used after it was freed (C86_memory_partial is for the other streams); if it goes away before it has its last answer, an assertion fails; if it goes away between two pieces of an object, the server never ends. Failing reads are not modelled."
  },
  {
   "property": "C87",
   "status": "partial",
   "theorems": [
    "Verif.Props.C87_wrong",
    "Verif.Props.C87_status",
    "Verif.Props.C87_order",
    "Verif.Props.C87_commands",
    "Verif.Props.C87_counterexample_cmd",
    "Verif.Props.C87_counterexample_refused"
   ],
   "note": "False in that status 0 does not mean that the files were stowed: a server that ends with status 0 before it has got anything, as stevedore does without its metadata type (C86_refuses), is taken for success. A target without cmd is accepted, and runs ssh without a command. Assumes that no two sections have the same name but for case; the names of targets are shorter than BUFSIZ - 5 bytes."
  },
  {
   "property": "C88",
   "status": "partial",
   "theorems": [
    "Verif.Props.AnyServer.C88_ids",
    "Verif.Props.AnyServer.C88_files",
    "Verif.Props.AnyServer.C88_metadata",
    "Verif.Props.AnyServer.C88_memory_partial",
    "Verif.Props.AnyServer.C88_counterexample_unlisted",
    "Verif.Props.AnyServer.C88_counterexample_twice"
   ],
   "note": "False in that a server can make the client use memory that it must not: an ID that is not listed is compared with what is behind the empty digest of the end mark, and a second confirmation of mtree's output makes it read a file that it has closed. C88_memory_partial is for servers that do neither. The first job of a run of stow (a second one finds an item of the first on its list, C62). The contents of a file are those when it is opened."
  },
  {
   "property": "C89",
   "status": "partial",
   "theorems": [
    "Verif.Props.C89_once",
    "Verif.Props.C89_get_partial",
    "Verif.Props.C89_object_partial",
    "Verif.Props.C89_ready",
    "Verif.Props.C89_store",
    "Verif.Props.C89_counterexample_pending"
   ],
   "note": "False while another process that stores the same object has its index entry but not yet its silo, or was killed there: get of the object that is already stored then aborts (C89_counterexample_pending, the same window as in C73). Otherwise true for objects whose records clash with no others in the index and for lookups that are safe (C03). C89_store shows that what store does for an object of one piece is such a process. The steps of housekeeping are not interleaved with those of the processes."
  },
  {
   "property": "C90",
   "status": "partial",
   "theorems": [
    "Verif.Props.C90_refines",
    "Verif.Props.C90_kept_partial",
    "Verif.Props.C90_lost",
    "Verif.Props.C90_lost_entries",
    "Verif.Props.C90_short",
    "Verif.Props.C90_double_free",
    "Verif.Props.C90_no_hold",
    "Verif.Props.C90_lookup",
    "Verif.Props.C90_lookup_all",
    "Verif.Props.C90_lookup_none",
    "Verif.Props.C90_counterexample_cut"
   ],
   "note": "C90_kept_partial is for all failing calls but those with which index.sorted is opened and read, and without short reads of the snapshot. With these the property is false: an index.sorted that cannot be opened is taken for one that is not there, and replaced by what was inserted since (C90_lost, C90_lost_entries); a read error is taken for its end (C90_counterexample_cut); a short read is taken for the end of the snapshot (C90_short). If the snapshot cannot be opened a buffer is freed twice (C90_double_free); if the hold file cannot be made for another reason than that it exists, housekeeping works without it and removes that of others (C90_no_hold). A lookup passes over files that it cannot open (C90_lookup), in the extreme over all of them (C90_lookup_none)."
  },
  {
   "property": "C91",
   "status": "partial",
   "theorems": [
    "Verif.Props.C91_still",
    "Verif.Props.C91_changing_partial",
    "Verif.Props.C91_get_partial",
    "Verif.Props.C91_plain_partial",
    "Verif.Props.C91_counterexample_pending"
   ],
   "note": "False while a process that stores the same object has its index entry but not yet its silo: whether the reader aborts depends on when it opens the record (C91_counterexample_pending). Otherwise true: C91_get_partial for objects whose records clash with no others, C91_plain_partial for objects of one piece stored by several processes, where only the moment counts at which the reader looks at the index. The index is read at one moment for each lookup; lookups during housekeeping are C10. C91_still: if nothing changes this is the reader of the other properties."
  },
  {
   "property": "C92",
   "status": "partial",
   "theorems": [
    "Verif.Props.C92_record",
    "Verif.Props.C92_option",
    "Verif.Props.C92_files",
    "Verif.Props.C92_all_named",
    "Verif.Props.C92_counterexample_missing",
    "Verif.Props.C54_counterexample_given"
   ],
   "note": "False in two ways. The option has no effect on what is said about segmented objects (C92_option says so for every archive; C54_counterexample_given is a metadata object that the audit finds fault with in spite of the option). Files behind the first one that cannot be opened are not audited, without a message and with status 0 (C92_counterexample_missing). The rest is proved."
  },
  {
   "property": "C93",
   "status": "partial",
   "theorems": [
    "Verif.Props.C93_meta_partial",
    "Verif.Props.C93_stow_partial",
    "Verif.Props.C93_info",
    "Verif.Props.C93_counterexample_job",
    "Verif.Props.C93_counterexample_twice",
    "Verif.Props.JsonAny.C93_any_server_partial",
    "Verif.Props.JsonAny.C93_counterexample_server"
   ],
   "note": "C93_info is without conditions. The metadata is JSON if the name of the job needs no quoting; the configuration takes names that do (C93_counterexample_job). Two files with the same digest that have both changed give the same name twice (C93_counterexample_twice). C93_stow_partial has the conditions of C62; JsonAny.C93_any_server_partial is for any server, if what it says can stand between quotation marks, and the server can otherwise put anything into the metadata (JsonAny.C93_counterexample_server). Strings are not checked for being UTF-8."
  },
  {
   "property": "C94",
   "status": "partial",
   "theorems": [
    "Verif.Props.C94_grown",
    "Verif.Props.C94_returns",
    "Verif.Props.C94_stops",
    "Verif.Props.C94_rough",
    "Verif.Props.C94_survives_partial",
    "Verif.Props.C94_fine",
    "Verif.Props.C94_tolerated",
    "Verif.Props.C94_next",
    "Verif.Props.C94_next_fine",
    "Verif.Props.C94_cache_whole",
    "Verif.Props.C94_cache_part",
    "Verif.Props.C94_counterexample_cache",
    "Verif.Props.C94_counterexample_full",
    "Verif.Props.C94_counterexample_link"
   ],
   "note": "False in two ways. When no directory can be made the search for a number does not end (C94_counterexample_full). A link that fails leaves index entries for a silo that is not there, after which the object cannot be stored (C94_counterexample_link, as in C73). The rest is proved: C94_grown and C94_returns for all failing calls, C94_stops for those with which no index entry is written in part (these are C82); C94_survives_partial has the conditions of C73; C94_tolerated says for which failing calls a store does not stop; C94_fine: without failing calls it is the store of the other properties. Failing calls when the ID is looked up are C90, those of the hold file before the commit are assertion failures that change nothing else."
  },
  {
   "property": "C95",
   "status": "partial",
   "theorems": [
    "Verif.Props.C95_filter",
    "Verif.Props.C95_bounded",
    "Verif.Props.C95_ends",
    "Verif.Props.C95_waits_partial",
    "Verif.Props.C95_stow_partial",
    "Verif.Props.C95_counterexample_mixed"
   ],
   "note": "C95_bounded and C95_ends are without conditions. False for clients that begin to send metadata while they send an object: the metadata job then holds the input of the store job open, and the server waits for ever (C95_counterexample_mixed). C95_waits_partial is for all other clients; stow is one, under the conditions of C62 (C95_stow_partial). Pipes have room (C71 is about those that have not)."
  },
  {
   "property": "C96",
   "status": "partial",
   "theorems": [
    "Verif.Props.C96_number",
    "Verif.Props.C96_args",
    "Verif.Props.C96_some_partial",
    "Verif.Props.C96_runs_partial",
    "Verif.Props.C96_no_file",
    "Verif.Props.C96_no_slash",
    "Verif.Props.C96_name_zero",
    "Verif.Props.C96_counterexample_name",
    "Verif.Props.C96_counterexample_runs"
   ],
   "note": "False in two ways. If silo.basename has a text before the number, a silo that is named is taken as number 0 (C96_name_zero for all such names, C96_counterexample_name). A lost index is not made again by several runs: an object with segments in the silos of two runs is not found afterwards (C96_counterexample_runs); it is if there is no such object (C96_runs_partial). The rest is proved for names that begin with the number, and segments whose IDs differ in the first 16 digits and have them in small letters."
  },
  {
   "property": "C97",
   "status": "partial",
   "theorems": [
    "Verif.Props.C97_killed_partial"
   ],
   "note": "The conditions are that no two segmented objects have the same ID (as in C40; without it reindexing may abort), and that reindex is not killed within IDX_Resort, which C07 is about. The entries may be there more than once."
  },
  {
   "property": "C98",
   "status": "partial",
   "theorems": [
    "Verif.Props.GetOutput.C98_fine",
    "Verif.Props.GetOutput.C98_written_partial",
    "Verif.Props.GetOutput.C98_get_partial",
    "Verif.Props.GetOutput.C98_lost",
    "Verif.Props.GetOutput.C98_counterexample_full",
    "Verif.Props.GetOutput.C98_no_file"
   ],
   "note": "False: on a full disk an object that goes into the buffer of the stream is lost with status 0 (C98_lost, C98_counterexample_full), and a file that cannot be opened makes get crash (C98_no_file). Proved is that the file is always the beginning of the object, that status 0 means that at most the last buffer is missing, and that it is complete if no write(2) fails."
  },
  {
   "property": "C99",
   "status": "partial",
   "theorems": [
    "Verif.Props.StevReads.C99_read",
    "Verif.Props.StevReads.C99_id",
    "Verif.Props.StevReads.C99_skip",
    "Verif.Props.StevReads.C99_bounds",
    "Verif.Props.StevReads.C99_error",
    "Verif.Props.StevReads.C99_first_error",
    "Verif.Props.StevReads.C99_mark",
    "Verif.Props.StevReads.C99_skip_error",
    "Verif.Props.StevReads.C99_counterexample"
   ],
   "note": "True if no call of read(2) fails (C99_read, C99_id, C99_skip), and the memory is never misused (C99_bounds). False if one fails: the -1 is added to the length, so that a byte of the ID is lost and one of the next message is taken (C99_error, C99_counterexample), or the ID is taken for the mark of the end (C99_mark)."
  }
 ]
}