{"id": "C01", "title": "Index entries come back as inserted", "statement": "An index entry inserted with an ID, flags, silo number, offset and optional continuation ID is reported by an index listing with the lower-cased first 24 hex digits of the ID (zero padded), the same flags, silo and offset, and the first 8 hex digits of the continuation ID (zeros if none).", "quantifier": "every valid ID of any permitted length, all 32-bit flags and silo numbers, all 63-bit offsets, every continuation ID", "why_tests_cant": "The value space is astronomically large and the encodings (hex packing, byte order, odd lengths, sign of the offset) break only at particular values.", "anchors": ["index.c:IDX_Insert", "index.c:IDX_Iter", "index.c:idx_key_bin", "index.c:idx_hex_digit"]}
{"id": "C02", "title": "Un-housekept lookup is exact", "statement": "While no sorted index exists, looking up an ID or a prefix reports exactly the inserted entries whose key starts with (the first 24 digits of) that prefix, case-insensitively, in insertion order, and stops at the first entry for which the caller asks to stop.", "quantifier": "every sequence of inserts, every prefix, every caller behaviour", "why_tests_cant": "Quantifies over all insertion histories and callback behaviours.", "anchors": ["index.c:IDX_Iter", "index.c:IDX_Insert"]}
{"id": "C03", "title": "Housekept lookup is exact", "statement": "After housekeeping has sorted any number of inserted entries, looking up a complete ID reports exactly the entries with that key: none is missed, nothing else is reported and the program does not abort.", "quantifier": "every set of entries, every looked-up ID, present or absent", "why_tests_cant": "The interpolation-plus-offset table fails only for particular key distributions; a test suite samples a handful of distributions.", "anchors": ["index.c:IDX_Iter", "index.c:bucket_new", "index.c:bucket_update", "index.c:bucket_seek", "index.c:bucket_write", "index.c:idx_merge"]}
{"id": "C04", "title": "Full listing of the index is complete", "statement": "Listing the index without a key (dumpindex, filter) reports every entry of the sorted, appendix and housekeeping files exactly once per stored record, and nothing else, whatever the key distribution.", "quantifier": "every index state built by inserts and housekeeping", "why_tests_cant": "Quantifies over all histories and key distributions.", "anchors": ["index.c:IDX_Iter", "index.c:bucket_seek", "main_dumpindex.c"]}
{"id": "C05", "title": "Housekeeping preserves the index", "statement": "Housekeeping never adds or removes an index entry: the set of records in sorted+appendix+housekeep files is the same before and after, for any sort chunk size.", "quantifier": "every index content, every chunk size, any number of rounds", "why_tests_cant": "All contents, including duplicates and chunk boundaries, cannot be enumerated by tests.", "anchors": ["index.c:idx_merge", "index.c:idx_attempt_merge", "index.c:IDX_Resort"]}
{"id": "C06", "title": "Sorted index is sorted and housekeeping can always continue", "statement": "The sorted index file written by housekeeping is a valid table header followed by records in ascending byte order, so the next housekeeping run never trips over its own output.", "quantifier": "every index content and every sequence of inserts and housekeeping runs", "why_tests_cant": "Inductive over all histories.", "anchors": ["index.c:idx_merge", "index.c:idx_cmp", "index.c:bucket_write", "index.c:bucket_skip"]}
{"id": "C07", "title": "Housekeeping is crash safe", "statement": "If housekeeping is killed between any two file system operations, every index entry is still present in one of the index files, and after removing the stale hold file a new housekeeping run completes with the same set of entries.", "quantifier": "every crash point, every index content, any number of crashes and re-runs", "why_tests_cant": "Crash points times contents; a test would need to kill the program between arbitrary system calls.", "anchors": ["index.c:idx_attempt_merge", "index.c:idx_merge", "index.c:IDX_Resort"]}
{"id": "C08", "title": "At most one housekeeper runs", "statement": "Two concurrent housekeeping processes never both work on the index files: the second sees the hold file and leaves the index untouched.", "quantifier": "every interleaving of any number of housekeeping processes", "why_tests_cant": "Schedules cannot be enumerated by tests.", "anchors": ["index.c:IDX_Resort"]}
{"id": "C09", "title": "Concurrent inserts survive housekeeping", "statement": "An index entry whose insert runs concurrently with housekeeping is not lost.", "quantifier": "every interleaving of any number of inserting processes with one housekeeping process", "why_tests_cant": "Race windows are microseconds wide; only reasoning over all schedules settles it.", "anchors": ["index.c:IDX_Insert", "index.c:idx_attempt_merge"]}
{"id": "C10", "title": "Concurrent lookups during housekeeping are complete", "statement": "A lookup that runs concurrently with housekeeping reports every matching entry that was inserted before the lookup began.", "quantifier": "every interleaving of a lookup with housekeeping", "why_tests_cant": "Race windows; all schedules.", "anchors": ["index.c:IDX_Iter", "index.c:idx_attempt_merge", "index.c:IDX_Resort"]}
{"id": "C11", "title": "ID validation accepts exactly well-formed IDs", "statement": "An ID is accepted if and only if, after removing at most one leading configured prefix (case-insensitively), it consists of exactly the configured number of hex digits.", "quantifier": "all strings, all prefixes, all configured ID sizes", "why_tests_cant": "All strings.", "anchors": ["index.c:IDX_Valid_Id"]}
{"id": "C12", "title": "Header set/get behaves as a case-insensitive map", "statement": "After any sequence of set and delete operations, getting a header returns the value of the last set of that name (case-insensitively) not followed by a delete, and is absent otherwise; setting one header never changes another.", "quantifier": "every sequence of header operations, every names and values", "why_tests_cant": "All operation histories.", "anchors": ["header.c:Header_Set", "header.c:Header_Get", "header.c:Header_Delete"]}
{"id": "C13", "title": "Header lists stay sorted and duplicate free", "statement": "A header built by any sequence of set, delete, clone and parse operations holds its fields in strictly ascending case-insensitive order of name, and never trips the internal duplicate check.", "quantifier": "every sequence of header operations", "why_tests_cant": "All operation histories.", "anchors": ["header.c:Header_Set", "header.c:Header_Clone", "header.c:Header_Parse"]}
{"id": "C14", "title": "Header serialisation round-trips", "statement": "Parsing the serialised text of a header yields the same record ID and the same fields in the same order.", "quantifier": "every header whose names and values are free of line breaks and NUL (and colon in names)", "why_tests_cant": "All headers.", "anchors": ["header.c:Header_Serialize", "header.c:Header_Parse"]}
{"id": "C15", "title": "Numeric headers round-trip", "statement": "Reading a numeric header returns the number that was formatted into it; missing or non-decimal headers yield -1, never a wrong number.", "quantifier": "every number up to 2^63-1 and every header text", "why_tests_cant": "All texts and numbers.", "anchors": ["header.c:Header_Get_Number", "header.c:Header_Set"]}
{"id": "C16", "title": "Silo file names are unique", "statement": "Different silo numbers have different file names, and the name of one silo's hold file is never the name of any silo or of another silo's hold file.", "quantifier": "all pairs of silo numbers and all basename patterns of the form text%0Nu text", "why_tests_cant": "Pairs of 32-bit numbers times patterns.", "anchors": ["silo.c:Silo_Filename", "silo.c:numpart"]}
{"id": "C17", "title": "At most 100 silos per directory", "statement": "Two silos live in the same directory exactly when their numbers agree after division by 100.", "quantifier": "all pairs of silo numbers", "why_tests_cant": "Pairs of 32-bit numbers.", "anchors": ["silo.c:Silo_Filename", "silo.c:numpart"]}
{"id": "C18", "title": "Whole-archive iteration visits every silo", "statement": "Iterating over the archive visits each existing silo exactly once in ascending order, provided the silo directories have no gap.", "quantifier": "every set of existing silos", "why_tests_cant": "All sets of files.", "anchors": ["silo.c:Silo_Iter"]}
{"id": "C19", "title": "The archived length field round-trips", "statement": "The length written into the private gzip header field is the length read back, for every stream the writer accepts, and the reader never looks outside the bytes it was given.", "quantifier": "all lengths below 2^63, all available byte counts", "why_tests_cant": "64-bit values and buffer ends.", "anchors": ["gzip.c:Gzip_WriteAa", "gzip.c:Gzip_ReadAa", "gzip.c:Gzip_GoodAa"]}
{"id": "C20", "title": "Stitched gzip decodes to the concatenation", "statement": "Retrieving a segmented object as gzip yields one valid gzip member whose content is the concatenation of the segments, with correct CRC and length.", "quantifier": "any number of segments, any segment contents, any encoder output that ends in an aligned empty block", "why_tests_cant": "All contents and encoder outputs.", "anchors": ["gzip.c:Gzip_Stitch", "gzip.c:gzip_stitch_feed", "gzip.c:Gzip_StitchFini"]}
{"id": "C21", "title": "Stitching is independent of read chunking", "statement": "The bytes produced by stitching do not depend on how the segment bytes are cut into chunks by the reader.", "quantifier": "every cut of every segment into chunks (first one at least 24 bytes)", "why_tests_cant": "Exponentially many cuts.", "anchors": ["gzip.c:gzip_stitch_feed", "rsilo.c:Rsilo_ReadGZChunk"]}
{"id": "C22", "title": "Combined CRC equals CRC of the concatenation", "statement": "The checksum arithmetic used for stitching equals the CRC-32 of the concatenated data.", "quantifier": "all byte strings", "why_tests_cant": "All byte strings.", "anchors": ["gzip.c:gzip_stitch_feed"]}
{"id": "C23", "title": "Sequential silo reading enumerates exactly the stored records", "statement": "Reading a silo from the start, record by record, yields precisely the records stored in it, in order, each with its own header, body and start offset, and then end of file.", "quantifier": "every silo made of complete records", "why_tests_cant": "All silo contents.", "anchors": ["rsilo.c:Rsilo_ReadHeader", "rsilo.c:Rsilo_NextHeader", "rsilo.c:Rsilo_SkipCRNL", "rsilo.c:Rsilo_ReadGZChunk"]}
{"id": "C24", "title": "Random access yields the record at the offset", "statement": "Opening a silo at an offset recorded in the index and reading yields the header and body of the record that was stored there, whatever follows it.", "quantifier": "every silo content, every record in it", "why_tests_cant": "All silo contents.", "anchors": ["rsilo.c:Rsilo_Open", "rsilo.c:Rsilo_ReadHeader", "rsilo.c:Rsilo_ReadChunk"]}
{"id": "C25", "title": "Silos never exceed the configured size", "statement": "No silo file ever grows beyond silo.max_size, neither when appended to nor when installed as a new silo.", "quantifier": "every sequence of stores, every compressor behaviour, every configured size", "why_tests_cant": "All histories and sizes.", "anchors": ["wsilo.c:silo_attempt_append", "wsilo.c:Wsilo_GetSpace", "wsilo.c:Wsilo_Store", "segjob.c:segjob_setup_outbuf"]}
{"id": "C26", "title": "Archived bytes are never changed", "statement": "Whatever is stored later, and whatever the cache file says, every silo's existing bytes remain as a prefix of that silo.", "quantifier": "every sequence of stores from any number of processes, any cache content, crash at any step", "why_tests_cant": "All histories and crash points.", "anchors": ["wsilo.c:Wsilo_Install", "wsilo.c:silo_attempt_append", "wsilo.c:Wsilo_New"]}
{"id": "C27", "title": "A silo number is being built by one process at most", "statement": "At any time at most one process writes a given silo number's hold file, and a finished silo is never replaced.", "quantifier": "every interleaving of any number of storing processes", "why_tests_cant": "All schedules.", "anchors": ["wsilo.c:Wsilo_New", "wsilo.c:Wsilo_Install", "wsilo.c:silo_attempt_append"]}
{"id": "C28", "title": "Padding makes the final header fit exactly", "statement": "When a new silo is committed, the final header record plus padding occupies exactly the bytes reserved before the body, for every body size.", "quantifier": "every header, every segment size and total size", "why_tests_cant": "The padding amount depends on decimal lengths and compressor output; it fails only for rare combinations.", "anchors": ["wsilo.c:Wsilo_Header", "wsilo.c:Wsilo_Commit"]}
{"id": "C29", "title": "An index entry never points at nothing", "statement": "At every crash point of a commit, each index entry points at a complete record in an existing silo.", "quantifier": "every crash point of every commit", "why_tests_cant": "Crash points.", "anchors": ["wsilo.c:Wsilo_Commit", "wsilo.c:Wsilo_Install", "wsilo.c:silo_attempt_append"]}
{"id": "C30", "title": "The silo cache is only a hint", "statement": "The cached first-free and first-with-space numbers stay ordered, round-trip through the cache file, and no cache content can make a store reuse an existing silo number.", "quantifier": "every cache file content, every sequence of operations", "why_tests_cant": "All contents and histories.", "anchors": ["aardwarc.c:AardWARC_ReadCache", "aardwarc.c:AardWARC_WriteCache", "wsilo.c:Wsilo_Next", "wsilo.c:silo_attempt_append"]}
{"id": "C31", "title": "Segmentation loses nothing", "statement": "The bytes fed to a store job, in any number of calls, are exactly the concatenation of the segments' contents, every segment is non-empty, and each recorded segment length and the total length are right.", "quantifier": "every input, every way of cutting it into calls, every compressor behaviour", "why_tests_cant": "All inputs, cuttings and compressor states.", "anchors": ["segjob.c:SegJob_Feed", "segjob.c:segjob_newseg", "segjob.c:SegJob_Commit"]}
{"id": "C32", "title": "Stored objects can be retrieved", "statement": "After storing an object, getting its ID yields exactly the stored bytes, and continues to do so after any later stores and housekeeping runs.", "quantifier": "every history of stores and housekeeping, every stored object", "why_tests_cant": "All histories.", "anchors": ["main_store.c:main_store", "segjob.c:SegJob_Commit", "getjob.c:GetJob_New", "getjob.c:GetJob_Iter", "main_get.c:main_get"]}
{"id": "C33", "title": "Segmented objects are retrieved in order", "statement": "Getting a segmented object returns the segments' contents concatenated in order, whatever other records share the index.", "quantifier": "any number of segments, any other index content", "why_tests_cant": "32-bit continuation collisions and equal-content segments are too rare for tests.", "anchors": ["getjob.c:getjob_iter", "getjob.c:GetJob_New", "getjob.c:GetJob_Iter"]}
{"id": "C34", "title": "Never-stored IDs are reported as not found", "statement": "Getting an ID that has no index entry fails cleanly with 'ID not found'.", "quantifier": "every archive, every ID", "why_tests_cant": "All archives.", "anchors": ["getjob.c:GetJob_New"]}
{"id": "C35", "title": "Storing twice stores once", "statement": "Storing content whose ID is already retrievable changes neither the silos nor the index and returns the same ID.", "quantifier": "every archive, every content", "why_tests_cant": "All archives.", "anchors": ["segjob.c:SegJob_Commit", "main_store.c:main_store"]}
{"id": "C36", "title": "Announced length equals delivered bytes", "statement": "The total length announced for an object equals the number of bytes its iteration delivers, plain or (for single-segment objects) gzip.", "quantifier": "every retrievable object", "why_tests_cant": "All objects.", "anchors": ["getjob.c:GetJob_TotalLength", "getjob.c:GetJob_Iter", "main_cgi.c"]}
{"id": "C37", "title": "A clean audit means the data is intact", "statement": "If auditing a silo reports no error then every record's length, digest and ID agree with its content, and every segmented object started in it is complete.", "quantifier": "every silo content", "why_tests_cant": "All silo contents, including every possible corruption.", "anchors": ["main_audit.c:audit_one", "main_audit.c:audit_silo", "main_audit.c:audit_final_pending"]}
{"id": "C38", "title": "Audit terminates", "statement": "Auditing terminates on every silo, including one whose segmented object lacks a continuation.", "quantifier": "every list of pending segments", "why_tests_cant": "Non-termination can only be shown by reasoning.", "anchors": ["main_audit.c:audit_one_pending"]}
{"id": "C39", "title": "Reindexing reconstructs segment links", "statement": "Reindexing from the silos emits, for every segment of every complete segmented object, exactly one index entry with the right continuation, whatever order the segments are met in.", "quantifier": "every set of segmented objects, every order of their segments", "why_tests_cant": "Factorially many orders.", "anchors": ["main_reindex.c:got_seg", "main_reindex.c:try_seg", "main_reindex.c:emit_seg"]}
{"id": "C40", "title": "Reindexing reproduces the index", "statement": "Deleting the index and reindexing yields the same set of index entries that the stores had inserted.", "quantifier": "every history of stores", "why_tests_cant": "All histories.", "anchors": ["main_reindex.c:silo_iter", "segjob.c:SegJob_Commit", "wsilo.c:Wsilo_Commit"]}
{"id": "C41", "title": "Filter prints exactly the unknown IDs", "statement": "Filter removes an ID from its output if and only if the index has an entry with that ID's key, for every candidate list and index order.", "quantifier": "every candidate list, every index content and visiting order, every permitted ID size", "why_tests_cant": "All merges of two sequences.", "anchors": ["main_filter.c:filter_iter", "main_filter.c:main_filter", "main_filter.c:read_file"]}
{"id": "C42", "title": "Protocol messages round-trip", "statement": "A sequence of protocol messages written to a stream is read back as the same sequence of commands and payloads, and a truncated stream is never read as a different message.", "quantifier": "every sequence of messages", "why_tests_cant": "All sequences and payload lengths.", "anchors": ["proto.c:proto_out", "proto.c:proto_in"]}
{"id": "C43", "title": "Stow requests exactly the missing files", "statement": "In the stow/stevedore filter exchange every file whose digest is missing from the archive is requested, and no file that is present is.", "quantifier": "every list of digests, every set of present digests, every batching by the server", "why_tests_cant": "All batchings and interleavings.", "anchors": ["main_stow.c:filter_resp", "main_stevedore.c:filter_line", "main_stevedore.c:filter_end", "main_stevedore.c:start_filter"]}
{"id": "C44", "title": "Line assembly is independent of chunking", "statement": "The lines delivered from a byte stream do not depend on how it is cut into reads.", "quantifier": "every byte stream free of NUL with lines shorter than the buffer, every cut", "why_tests_cant": "Exponentially many cuts.", "anchors": ["vlu.c:LineUpProcess", "vlu.c:VLU_Feed", "vlu.c:VLU_Fd"]}
{"id": "C45", "title": "Over-long lines do not hang the line assembler", "statement": "Feeding any input to the line assembler terminates.", "quantifier": "every input, every buffer size", "why_tests_cant": "Termination.", "anchors": ["vlu.c:VLU_Feed"]}
{"id": "C46", "title": "String buffers never overflow and keep their content", "statement": "Appending to a dynamic string buffer always yields the old content followed by the new, with the length strictly below the allocated size, and no write outside the allocation.", "quantifier": "every sequence of appends", "why_tests_cant": "All sequences of lengths.", "anchors": ["vsb.c:VSB_extend", "vsb.c:VSB_extendsize", "vsb.c:VSB_put_byte", "vsb.c:VSB_bcat", "vsb.c:_vsb_indent"]}
{"id": "C47", "title": "Configuration parsing is faithful", "statement": "Every section and entry of a well-formed configuration text is found under its name with its argument, comments and blank lines having no effect.", "quantifier": "every configuration", "why_tests_cant": "All texts.", "anchors": ["config.c:config_parse", "config.c:Config_Get", "config.c:Config_Find"]}
{"id": "C48", "title": "Size suffix arithmetic is exact", "statement": "A size such as 3.5G evaluates to the number of bytes it denotes.", "quantifier": "all decimal numerals and suffixes", "why_tests_cant": "All numerals.", "anchors": ["vnum.c:VNUM_2bytes", "vnum.c:VNUMpfx"]}
{"id": "C49", "title": "Record identity is determined by content and reference", "statement": "The ID of a resource is its payload digest; the ID of a metadata record is determined by reference and payload digest; the same input always gets the same ID, and different types or references give different hash inputs.", "quantifier": "every type, reference and payload", "why_tests_cant": "All inputs.", "anchors": ["ident.c:Ident_Create", "ident.c:Ident_Set", "header.c:Header_Set_Id"]}
{"id": "C50", "title": "Forced IDs are honoured", "statement": "A metadata record stored with an explicit valid ID is stored under that ID, whether given bare or as a full URI.", "quantifier": "every valid ID, bare or prefixed", "why_tests_cant": "All prefixes and IDs.", "anchors": ["main_store.c:main_store", "header.c:Header_Set_Id", "ident.c:Digest2Ident"]}
{"id": "C51", "title": "Reading a silo with any bytes in it stays in bounds", "statement": "Reading the header of a record never accesses memory outside the page buffer, whatever the silo contains.", "quantifier": "every file content and offset", "why_tests_cant": "Every byte string.", "anchors": ["rsilo.c:Rsilo_ReadHeader", "gzip.c:Gzip_ReadAa"]}
{"id": "C52", "title": "Creating parent directories terminates", "statement": "Creating the parent directories of a silo terminates for every configured directory.", "quantifier": "every path and every file system state", "why_tests_cant": "Termination.", "anchors": ["wsilo.c:silo_mkparentdir"]}
{"id": "C53", "title": "Test-byte generator is prefix-stable", "statement": "testbytes emits exactly the requested number of bytes, and a shorter request is a prefix of a longer one.", "quantifier": "all pairs of lengths", "why_tests_cant": "All lengths.", "anchors": ["main_testbytes.c"]}
{"id": "C54", "title": "What has been stored passes the audit", "statement": "After any sequence of stores, index housekeeping and hold-file or cache changes that began with an empty archive, auditing the archive ends, sees every record, reports no error for any record or segmented object, and leaves no segment over.", "quantifier": "every history of stores, every content, every segmentation", "why_tests_cant": "All histories; the order of the silos decides whether objects are found.", "anchors": ["main_audit.c:main_audit", "main_audit.c:audit_silo", "main_audit.c:audit_one_pending", "segjob.c:SegJob_Commit", "wsilo.c:Wsilo_Next"]}
{"id": "C55", "title": "Headers shown for an object are those of the whole", "statement": "After an object has been stored, in however many segments and whatever is stored later, the headers shown for its ID have the ID, the SHA256 digest and the length of the whole contents, and every other field as it was given; and these headers can be parsed again.", "quantifier": "every history of stores, every content, every segmentation", "why_tests_cant": "All contents and segmentations.", "anchors": ["getjob.c:GetJob_Headers", "segjob.c:SegJob_Commit", "header.c:Header_Serialize", "header.c:Header_Parse"]}
{"id": "C56", "title": "Silo numbers have no gaps", "statement": "After any sequence of stores, index housekeeping runs, write-protection of silos, new processes and losses of the cache file that began with an empty archive, the silos are numbered from 0 on without gaps, no hold file is left, and the cached numbers are right: all silos below the first one exist, all silos below the second one are nearly full.", "quantifier": "every history of successful operations", "why_tests_cant": "All histories; the audit stops at the first gap, so a gap hides damage.", "anchors": ["wsilo.c:Wsilo_Next", "wsilo.c:Wsilo_Commit", "wsilo.c:silo_attempt_append", "wsilo.c:Wsilo_Install", "aardwarc.c:AardWARC_ReadCache", "aardwarc.c:AardWARC_WriteCache"]}
{"id": "C57", "title": "Small objects go where there is room", "statement": "An object in one segment is appended to the first silo, counted from the cached number, that is not write-protected, has room, and is not being written to; a new silo is made only if there is none.", "quantifier": "every state of the archive", "why_tests_cant": "All states, in particular every pattern of write protection.", "anchors": ["wsilo.c:Wsilo_Commit", "wsilo.c:silo_attempt_append"]}
{"id": "C58", "title": "Configuration values are used as given or refused", "statement": "Opening the archive with a well-formed configuration gives exactly the parameters of the file, with the defaults for what is not given; values out of range are refused; and no configuration file, well-formed or not, makes the program abort or read outside of its strings.", "quantifier": "every configuration file", "why_tests_cant": "All byte strings as configuration files.", "anchors": ["aardwarc.c:AardWARC_New", "config.c:Config_Read", "vnum.c:VNUM_2bytes"]}
{"id": "C59", "title": "The store command stores what is allowed, and all of it", "statement": "store prints an ID exactly if the options are consistent, the input is not empty and was read to its end, the mime type is listed for the type of record, and the object that metadata refers to exists; otherwise the archive is unchanged. Every history of such commands is a history of stores with well-formed headers.", "quantifier": "every option list, input, configuration and archive", "why_tests_cant": "All combinations of options, configuration and state.", "anchors": ["main_store.c:main_store", "config.c:Config_Find"]}
{"id": "C60", "title": "The get command delivers what the store command was given", "statement": "After store has printed an ID, and whatever is stored later, get with that ID in any of its forms prints a header with the mime type, type, date and reference given to store and writes exactly the input; and whatever get writes for any ID has the digest of an object that was stored.", "quantifier": "every history of commands, every input, every segmentation", "why_tests_cant": "All histories and contents.", "anchors": ["main_get.c:main_get", "main_store.c:main_store", "getjob.c:GetJob_New", "getjob.c:GetJob_Iter"]}
{"id": "C61", "title": "Metadata refers to objects that are there", "statement": "In an archive made by the store command and index housekeeping, every metadata record names in WARC-Refers-To the ID of an object all of whose records are in the archive.", "quantifier": "every history of commands", "why_tests_cant": "All histories; the referenced object may have been stored at any time and in any number of segments.", "anchors": ["main_store.c:main_store", "getjob.c:GetJob_New", "segjob.c:SegJob_Commit"]}
{"id": "C62", "title": "A stow job stores what is missing and then tells what it stored", "statement": "A stow job sends exactly the files the server calls missing, in order, then the list of files, and then one metadata record which refers to that list and names exactly the files whose contents were no longer those that mtree had seen; all of it is stored before the job ends, no check fails, and the job does end.", "quantifier": "every interleaving of client, server and jobs, every set of files and archive contents, every way in which files change meanwhile", "why_tests_cant": "All interleavings, and all contents of files at the time when they are opened.", "anchors": ["main_stow.c:stevedore_out", "main_stow.c:stevedore_in", "main_stow.c:data_resp", "main_stow.c:send_metadata", "main_stevedore.c:input", "main_stevedore.c:start_store", "main_stevedore.c:start_meta"]}
{"id": "C63", "title": "The client stows exactly the files that mtree lists", "statement": "From the output of mtree for any directory tree, in whatever layout the format allows and however it is cut by the reads, the client makes the list of exactly the files that are not empty, each with its path and digest, in order; the text it stores as the list of files is the output, unchanged.", "quantifier": "every directory tree, every layout of the output, every cutting into reads", "why_tests_cant": "All trees, layouts and cuts.", "anchors": ["main_stow.c:mtree_interpret", "main_stow.c:mtree_process", "main_stow.c:mtree_in"]}
{"id": "C64", "title": "What is delivered for an ID is an object with that ID", "statement": "Whatever is found and delivered for an ID, in an archive made by the store command and index housekeeping, are the records of one object that was stored with that ID, from the first to the last and in order; the header shown describes its contents.", "quantifier": "every history of commands, every ID asked for, every segmentation", "why_tests_cant": "All histories; records of different objects share the 32-bit continuation keys by which segments are found.", "anchors": ["getjob.c:GetJob_New", "getjob.c:getjob_iter", "getjob.c:GetJob_Iter", "main_get.c:main_get"]}
{"id": "C65", "title": "The CGI program serves the object and nothing else", "statement": "For a GET request with the ID of an object, the answer is well-formed and has the object's mime type, a Content-Length that is the length of the body, and a body that is the contents of the object, or, if the client accepts gzip and the object is in one record, a gzip file of them; for other IDs it is one of eight fixed error pages, and for other requests nothing is served.", "quantifier": "every history of commands, every request", "why_tests_cant": "All requests, histories and contents.", "anchors": ["main_cgi.c:main_cgi", "getjob.c:GetJob_TotalLength", "getjob.c:GetJob_IsSegmented", "getjob.c:GetJob_Iter"]}
{"id": "C66", "title": "byid and dumpindex list exactly the records asked for", "statement": "In an archive made by the store command and index housekeeping, byid prints for each argument one line for each record whose ID starts with it, ignoring case and with or without the prefix of the archive, and its exit status is the number of lines, at most 255; dumpindex prints each entry of the index once, the line determining the entry.", "quantifier": "every history of commands, every list of arguments", "why_tests_cant": "All histories and fragments; the interpolation search in the sorted file depends on the distribution of the keys.", "anchors": ["main_byid.c:main_byid", "main_byid.c:byid_iter", "main_dumpindex.c:main_dumpindex", "main_dumpindex.c:dumpindex_iter", "index.c:IDX_Iter"]}
{"id": "C67", "title": "Rebuilding silos keeps the records", "statement": "rebuild makes from each silo of an archive, in whatever pieces inflate hands out the contents, a silo that reads as the same records in the same order, with the same IDs, contents and header fields but for z and Content-Length-GZIP; the audit finds nothing wrong with it; old records get digest and ID of their contents; and rebuilding the result changes no header and no contents any more.", "quantifier": "every history of commands, every cutting into pieces, every compressor that meets the contract", "why_tests_cant": "All silos and cuttings; the state machine is fed with pieces whose boundaries depend on zlib.", "anchors": ["main_rebuild.c:rebuild_process", "main_rebuild.c:rebuild_silo_iter", "main_rebuild.c:main_rebuild"]}
{"id": "C68", "title": "mksilo makes the silo asked for and nothing else", "statement": "mksilo with the number of a silo that does not exist and is not being made makes that silo, with exactly its warcinfo record, and enters it in the index; otherwise it refuses.  In no case is anything else in the archive changed, and asked a second time it refuses.", "quantifier": "every archive, every argument", "why_tests_cant": "All archives and argument texts.", "anchors": ["main_mksilo.c:main_mksilo", "wsilo.c:Wsilo_New", "wsilo.c:Wsilo_Install", "warcinfo.c:Warcinfo_New"]}
{"id": "C69", "title": "Storing comes to its end", "statement": "In an archive as the commands leave it, storing an object with a proper header, whatever its contents and in whatever pieces they come, ends with the object in the archive: none of the assertions on the way fails, which are about the space left in a hold file, about what zlib returns, about the length of the final header and about the silo numbers; in particular, there is always room for what the compressor still holds back when a silo is full.", "quantifier": "every history of commands, every header, every contents, every cutting into pieces, every compressor that meets the contract", "why_tests_cant": "All contents and cuttings; whether the last bytes fit depends on how much zlib holds back when the silo is nearly full.", "anchors": ["segjob.c:SegJob_Feed", "segjob.c:segjob_outbuf", "segjob.c:SegJob_Commit", "wsilo.c:Wsilo_GetSpace", "wsilo.c:Wsilo_Header", "wsilo.c:Wsilo_Commit"]}
{"id": "C70", "title": "The event loop calls what is ready, and nothing that is gone", "statement": "In each round of the event loop, exactly the handlers of the events that were enabled when poll(2) was called, and of which it says something, are called, each once, in the order of the list, with their own descriptor and flags; a round ends whatever events the handlers add; the array for poll(2) is not overrun.  Neither stow nor stevedore uses an event that was freed, whatever its handlers add, remove, enable or disable, and stow always waits for something as long as there are events.", "quantifier": "every list of events, every behaviour of poll(2) and calloc(3), every sequence of handler calls", "why_tests_cant": "A handler that removes the wrong event shows only if two events are ready in the same round.", "anchors": ["proto.c:proto_dispatch_evs", "proto.c:proto_add_ev", "proto.c:proto_del_ev", "proto.c:proto_ctl_ev", "main_stow.c:diag", "main_stow.c:stevedore_in", "main_stevedore.c:job_ev"]}
{"id": "C71", "title": "Client and server do not wait for each other", "statement": "In a stow job over pipes with limited room, client and server are never both waiting in write(2) for the other to read.", "quantifier": "every list of files, every contents, every size of the pipes, every interleaving", "why_tests_cant": "Needs both pipes to be full at the same time, which depends on timing, on the number of missing files and on the sizes of the pipes.", "anchors": ["proto.c:proto_out", "main_stow.c:stevedore_out", "main_stow.c:stevedore_in", "main_stevedore.c:filter_line", "main_stevedore.c:input"]}
{"id": "C72", "title": "What stow was asked to keep is in the archive", "statement": "With filter and store as the jobs that the server starts, on an archive that others store to at the same time, each run of a stow job is one in which the server knows exactly what the index has; no step fails unless a store job does; and when the job is done, the metadata is in the archive, and for every file listed either contents are there for get, under the ID of its digest or under one that the metadata gives, or the index had a record with its ID.", "quantifier": "every list of files, every contents, every archive made by the commands, every interleaving", "why_tests_cant": "The server decides by the index, which has entries of many kinds; whether what it takes for the file can be got depends on the history of the archive.", "anchors": ["main_stevedore.c:start_filter", "main_stevedore.c:start_store", "main_stevedore.c:start_meta", "main_filter.c:filter_iter", "main_store.c:main_store", "main_stow.c:stevedore_in"]}
{"id": "C73", "title": "What was stored survives crashes and a full disk", "statement": "Once store has printed an ID, no later run of store that is killed or runs into a full disk, at whatever point of the commit of whichever segment, changes a byte of what is in the silos or keeps get from delivering the object; neither do crashes before it was stored.  The object that was being stored can be stored by repeating the command.", "quantifier": "every history of commands with crashes at any points, every contents, every compressor that meets the contract", "why_tests_cant": "The points at which a process can be killed are all those between two system calls, for each segment and each state of the silos.", "anchors": ["wsilo.c:Wsilo_Commit", "wsilo.c:Wsilo_Install", "wsilo.c:silo_attempt_append", "segjob.c:SegJob_Commit", "getjob.c:getjob_iter", "index.c:IDX_Insert"]}
{"id": "C74", "title": "A silo that was cut short is noticed", "statement": "If the end of a silo is missing, because the disk was full or the file was truncated, then the audit, get, get -z and reindex do not end as if nothing were wrong; and what is stored afterwards is not affected.", "quantifier": "every silo, every place of the cut", "why_tests_cant": "There are as many places to cut as there are bytes, in the header, in the body, in the separator or between records, each with another behaviour.", "anchors": ["main_audit.c:audit_silo", "rsilo.c:Rsilo_ReadHeader", "rsilo.c:Rsilo_ReadChunk", "rsilo.c:Rsilo_ReadGZChunk", "rsilo.c:Rsilo_SkipCRNL", "rsilo.c:Rsilo_NextHeader", "getjob.c:GetJob_Iter", "main_reindex.c:silo_iter"]}
{"id": "C75", "title": "The encrypted backup copies can be read again", "statement": "Encrypt_File applied to an encrypted copy gives back the silo, in whatever directories the two are; the .hmac and .sha256 files are those of the copy; the copy of a silo that has grown begins with the copy made before; damage of a copy stays where it is; and two different contents are never encrypted with the same key stream.", "quantifier": "every block cipher, HMAC and hash, every keys, contents, directories and silo names", "why_tests_cant": "The reading in pieces, the key stream position and the IV derived from a name have to agree between two runs in different places.", "anchors": ["utilities/select_silos.py:Encrypt_File", "utilities/select_silos.py:get_secrets"]}
{"id": "C76", "title": "Every silo is staged for backup in turn", "statement": "A run of the backup script stages at most QUOTA bytes, the silos with most new bytes first and then those staged longest ago; and silos are offered periodically, so that a remote site starting from scratch will eventually catch up.", "quantifier": "every set of silos, every earlier silodates.txt, every number of runs", "why_tests_cant": "Whether every silo has its turn is a statement about all sequences of runs.", "anchors": ["utilities/select_silos.py:main", "utilities/select_silos.py:Silo", "utilities/select_silos.py:silo"]}
{"id": "C77", "title": "The staging directory is whole and agrees with silodates.txt", "statement": "At any time, also if runs are killed at any point, the staging directory if there is one has all files of one run, each of them whole; and a silo that is recorded as staged has been in the staging directory.", "quantifier": "every sequence of runs, every place at which each of them is cut off", "why_tests_cant": "A run can be killed between any two system calls, and the runs after it find what it left.", "anchors": ["utilities/select_silos.py:main", "utilities/select_silos.py:__main__"]}
{"id": "C78", "title": "The command line means what it says", "statement": "However options are written, together or apart, with attached or separate arguments, with -- or without, they are delivered in order and the arguments behind them are left; only the command that is named is run, with the options and arguments given, and with -j only info; the configuration is the file named by -c, or the first one found at the usual places, and if there is something wrong with it the program exits with an error; the jobs that stevedore starts are parsed in the same way; and wrong arguments end in a usage text, not in a failed assertion.", "quantifier": "every list of options, every way to write them, every arguments, every set of configuration files", "why_tests_cant": "There are unboundedly many command lines, and the state that getopt(3) keeps between its loops shows only in the jobs of a server.", "anchors": ["main.c:main", "main.c:call_main", "main_store.c:main_store", "main_get.c:main_get", "main_filter.c:main_filter", "main_stevedore.c:job_start", "main_stevedore.c:start_meta"]}
{"id": "C79", "title": "Quoted text can be read again", "statement": "Whatever bytes are given to VSB_quote, what is put in the buffer denotes these bytes: as C string literals with VSB_QUOTE_CSTR, as text with escapes without options, in hexadecimal with VSB_QUOTE_HEX, and as JSON with VSB_QUOTE_JSON.", "quantifier": "every byte string, every indentation, every state of the buffer", "why_tests_cant": "Whether an escape runs into what follows depends on pairs of neighbouring bytes.", "anchors": ["vsb.c:VSB_quote_pfx", "vsb.c:VSB_quote"]}
{"id": "C80", "title": "The tail queues are lists", "statement": "After any operations on tail queues (VTAILQ), in which an element that is put in a queue is in none and one that is removed is in that queue, the pointers of each queue are those of the list that the same operations on lists give: first, last, next and previous element, loops in both directions, and loops that remove the element they are at; and nothing happens to other queues.", "quantifier": "every sequence of operations on any number of queues", "why_tests_cant": "Pointers to the end of a queue go wrong only for certain positions of an element, and show only in later operations.", "anchors": ["vqueue.h:VTAILQ_INSERT_TAIL", "vqueue.h:VTAILQ_INSERT_BEFORE", "vqueue.h:VTAILQ_REMOVE", "vqueue.h:VTAILQ_LAST", "vqueue.h:VTAILQ_PREV", "vqueue.h:VTAILQ_FOREACH_SAFE"]}
{"id": "C81", "title": "Reindexing repairs what crashes have left", "statement": "However many stores were killed at any point, short of a torn append, and whatever was stored in between, reindexing all silos into an empty index succeeds; afterwards every index entry is for a record that is in a silo, every object whose store succeeded has its entries and is delivered in full, and index entries of silos that never came to be are gone.", "quantifier": "every history of stores, killed stores, housekeeping and mksilo runs, every place at which a store is killed, every order of the silos", "why_tests_cant": "Killed stores leave first segments of objects without the rest, in any number and order, and the pairing of segments depends on all that was seen before.", "anchors": ["main_reindex.c:main_reindex", "main_reindex.c:reindex_iter", "main_reindex.c:got_seg", "main_reindex.c:try_seg", "main_reindex.c:silo_iter", "wsilo.c:Wsilo_Commit", "segjob.c:SegJob_Commit"]}
{"id": "C82", "title": "Half an index entry does no harm to others", "statement": "If only a part of an index entry gets written, then whatever was found in the index before is found as before, what is not in the index is reported as not found, other objects can be stored and found, and housekeeping works.", "quantifier": "every index, every entry, every place at which the write ends, every later inserts and housekeeping runs, every lookup", "why_tests_cant": "A full disk has to hit the 32 bytes of an index entry, and what follows depends on all that is written and read afterwards.", "anchors": ["index.c:IDX_Insert", "index.c:IDX_Iter", "index.c:idx_attempt_merge", "getjob.c:GetJob_New", "segjob.c:SegJob_Commit"]}
{"id": "C83", "title": "Reindexing does not harm a good index", "statement": "Reindexing all silos of an archive into the index that it has succeeds and leaves no segment over, the entries of the index are the same as before, and every object is delivered as before.", "quantifier": "every history of stores and housekeeping runs, every order of the silos, every sort size", "why_tests_cant": "Every entry is inserted again, and what the merge does with duplicates depends on how the entries are spread over the files of the index.", "anchors": ["main_reindex.c:main_reindex", "main_reindex.c:silo_iter", "index.c:IDX_Insert", "index.c:IDX_Resort", "index.c:idx_merge_file"]}
{"id": "C84", "title": "Stow opens the files that mtree listed", "statement": "Whatever the names of files and directories are, and in whichever of its notations vis(3) writes them in mtree's output: if the output fits the client's buffers, the paths that the client opens are exactly the paths of the files that are not empty, in the order of the listing and each with its digest; no assertion on a name fails, and nothing is written outside of the buffer for the path.", "quantifier": "every tree of files, every name without NUL and slash, every notation of each byte, every layout of the listing and way to cut it into reads, with lines of at most 8191 bytes and directories of at most 4094", "why_tests_cant": "Names can have any bytes, notations can be mixed within a name, and decoding depends on the bytes that follow.", "anchors": ["main_stow.c:stevedore_out", "main_stow.c:mtree_interpret", "main_stow.c:mtree_in"]}
{"id": "C85", "title": "A store alone is one of the interleavings", "statement": "Any number of objects stored one after the other, with nobody else doing anything, leave exactly the silos, the hold files and the index entries, in the same order, that concurrent storing processes (one for each piece of each object) make in one of their executions, in which nobody is killed and nothing is done by hand; all of these processes come to their ends. What holds for all executions of the processes therefore holds for the stores; all index entries of an archive that was made in this way point at complete records.", "quantifier": "every archive the stores start with, every list of objects and ways to cut them into buffers, every compressor, every configuration", "why_tests_cant": "It relates two descriptions of all executions, one of which has every interleaving of any number of processes.", "anchors": ["wsilo.c:Wsilo_Next", "wsilo.c:Wsilo_New", "wsilo.c:silo_attempt_append", "wsilo.c:Wsilo_Commit", "wsilo.c:Wsilo_Install", "wsilo.c:Wsilo_Abandon", "segjob.c:SegJob_Commit", "segjob.c:segjob_destroy"]}
{"id": "C86", "title": "The server stores what it was sent, whatever the client", "statement": "Whatever bytes a client sends to stevedore, however they are cut into reads, however the jobs of the server take their time, and wherever the client stops: the input of each store job is the pieces of one DATA sequence, in order, and each metadata job gets the ID and the pieces of one META sequence; every job that was given all of its input is answered exactly once, or is still owed an answer while it is open; if the server exits with status 0, then everything that came was a whole message, every sequence was complete, and all of them were stored; it never exits while an object is not complete, nor uses memory it must not; without the metadata type in its configuration it does nothing at all.", "quantifier": "every stream of bytes from the client, every sequence of reads, every interleaving with the filter, store and metadata jobs, every moment at which one of them fails", "why_tests_cant": "The client is a program that follows the protocol; tests do not make the server meet others, at every point of its state.", "anchors": ["main_stevedore.c:input", "main_stevedore.c:input_filter", "main_stevedore.c:input_data", "main_stevedore.c:input_meta", "main_stevedore.c:start_filter", "main_stevedore.c:filter_func", "main_stevedore.c:main_stevedore", "proto.c:proto_in"]}
{"id": "C87", "title": "Stow does the jobs of the configuration, or none", "statement": "stow exits with status 0 if and only if targets were named, each of them is described in the configuration (a section of the name, in upper or lower case, with known options only and a directory that can be opened), and for each of them in the order of the command line the job was done and its server exited with status 0, which then means that the files were stowed; if one target is wrong then no job is done and the status is 1; the jobs done are always the first ones asked for, with the last values of the options, and mtree and the server are started with these.", "quantifier": "every configuration, every list of targets, every outcome of each job", "why_tests_cant": "The configuration can repeat, miss or misspell any option of any section, and each job can end in many ways.", "anchors": ["main_stow.c:main_stow", "main_stow.c:arg_iter", "main_stow.c:start_mtree", "main_stow.c:start_stevedore", "main_stow.c:diag", "config.c:Config_Iter"]}
{"id": "C88", "title": "The client sends what it was asked for, whatever the server", "statement": "Whatever messages a server sends to stow, and whenever it goes away: the client tells it at most the digests (or beginnings of them) of the files that mtree listed, of mtree's output and the end mark, in this order and each once; it opens files only if they are listed, each at most once and in the order of the listing, and the n-th one only if its digest begins with the n-th ID (of 16 to 64 bytes) that the server has asked for; what it sends is the contents of these files, one after the other and in full but for the last one; metadata is sent at most once, is about mtree's output, and notes exactly the files for which the server has named an ID that is not that of the listing; the client does not use memory that it must not.", "quantifier": "every list of files, every sequence of messages of a server, every order in which the handlers are called, every size of the pieces, files that cannot be opened", "why_tests_cant": "The server is a program that follows the protocol; tests do not make the client meet others, at every point of its state.", "anchors": ["main_stow.c:stevedore_in", "main_stow.c:stevedore_out", "main_stow.c:filter_resp", "main_stow.c:data_resp", "main_stow.c:subj_flush", "main_stow.c:metadata", "main_stow.c:send_metadata", "main_stow.c:diag"]}
{"id": "C89", "title": "Objects stored at the same time can be retrieved", "statement": "Any number of processes store objects in one archive at the same time, in any interleaving, and some of them are killed at any point; housekeeping of the index may run as well, when they are through. The object of each process that has come to its end has exactly one index entry for each of its records, which points at a complete record with the ID and the contents of the object; and get of its ID delivers the object, whether it is segmented or not, and also if other processes have stored the same object at the same time.", "quantifier": "every number of processes, every interleaving of their steps, every set of killed processes, every archive they start from, every object", "why_tests_cant": "Interleavings of the steps of several programs cannot be enumerated or forced by tests; the sequential theorem (C32) says nothing about them.", "anchors": ["wsilo.c:Wsilo_Commit", "wsilo.c:Wsilo_Install", "segjob.c:SegJob_Commit", "index.c:IDX_Insert", "getjob.c:GetJob_New", "getjob.c:GetJob_Iter"]}
{"id": "C90", "title": "Errors while the index is read or housekept lose nothing", "statement": "Whichever calls of the system fail while the index is housekept, and however housekeeping ends then: the index has the same entries as before, memory is not misused, and the hold file of another process is not removed; and a lookup, when index files cannot be opened, does not report that something is absent which is there. If no call fails housekeeping is that of the other properties.", "quantifier": "every history of the index, every combination of failing calls and of short reads in each part of the work, every lookup", "why_tests_cant": "The errors have to be made to happen at each call, in every state of the index; most of these calls do not fail in practice.", "anchors": ["index.c:IDX_Resort", "index.c:idx_attempt_merge", "index.c:idx_merge", "index.c:IDX_Iter"]}
{"id": "C91", "title": "Objects can be got while others are being stored", "statement": "A program gets an object that is stored, while any number of other processes store objects in the same archive: between any two accesses of the reader to the index or to a record they may do any of their steps, and be killed. The reader gets the object, with its contents, whether it is segmented or not, and also if the others store the same object.", "quantifier": "every number of processes, every interleaving of their steps with the accesses of the reader, every archive, every object", "why_tests_cant": "The reader looks at the index once for each segment and opens one record after the other; which of the steps of others happen in between cannot be forced by tests.", "anchors": ["getjob.c:GetJob_New", "getjob.c:getjob_iter", "getjob.c:GetJob_Iter", "wsilo.c:Wsilo_Commit", "wsilo.c:Wsilo_Install", "segjob.c:SegJob_Commit", "index.c:IDX_Iter"]}
{"id": "C92", "title": "What is audited, and what the option leaves out", "statement": "With -i ignore-metadata-record-id the audit reads the same records and says the same about them and about the segmented objects, except for the messages about the IDs of metadata records, which are left out. If files are named all of them are audited, in this order and each as if it were alone, or there is a message; to name all silos of the archive is the same as to name none.", "quantifier": "every archive with any contents of the silos, every list of files, with the option and without", "why_tests_cant": "The option and the arguments meet every kind of record and every way in which it can be wrong.", "anchors": ["main_audit.c:main_audit", "main_audit.c:audit_silo", "main_audit.c:audit_one", "main_audit.c:audit_check_ident", "main_audit.c:audit_final_pending", "rsilo.c:Rsilo_Open"]}
{"id": "C93", "title": "What is written as JSON is JSON", "statement": "The metadata that a stow job stores is JSON (RFC 8259): an array of the name of the format and an object, which names exactly the files that have changed, each with the ID of what was stored, the output of mtree, the job and the time; each name is in an object once. What info prints with -j is JSON and tells the size of the IDs.", "quantifier": "every list of files and of changes, every run of a job, every name of a job, every size of the IDs", "why_tests_cant": "The text is put together from pieces with commas in between; whether it can be read depends on all of them.", "anchors": ["main_stow.c:send_metadata", "main_stow.c:metafile", "main_stow.c:data_resp", "main_info.c:main_info"]}
{"id": "C94", "title": "Errors while an object is stored lose nothing", "statement": "Whichever calls of the system fail while an object is stored: no silo loses a byte. If the store returns an ID, it has done what a store does without failing calls, in an archive with the same contents, but for hold files and write protection of silos that are there; so the object can be got like any other. If it ends in an assertion failure, it has left what a store leaves that is killed (C73), and all objects stored before can be got as is said there. The search for a number of a silo comes to an end, with a number that nobody uses or with an error.", "quantifier": "every archive, every object, every combination of failing calls in the attempts to append, in writing the cache, the index entries and the header, and in link and unlink, for each segment", "why_tests_cant": "Each call has to be made to fail in each state of the archive, for each silo that is tried; a full disk or a missing permission shows one of them.", "anchors": ["wsilo.c:Wsilo_Commit", "wsilo.c:Wsilo_Install", "wsilo.c:silo_attempt_append", "wsilo.c:Wsilo_New", "wsilo.c:Wsilo_Next", "wsilo.c:wsilo_delete", "aardwarc.c:AardWARC_WriteCache", "segjob.c:SegJob_Commit", "index.c:IDX_Insert"]}
{"id": "C95", "title": "The server does not wait for a job that cannot end", "statement": "A job of the server reads its input until nobody can write to it any more, and the ends of pipes are inherited by the jobs started later. Nevertheless: when the client has ended all objects and metadata it has begun, all jobs come to their end, within a bounded number of steps; and when the server waits for a store job, not listening to the client, then this job comes to its end without anything from the client.", "quantifier": "every sequence of messages of a client, every order in which the jobs print and exit, every number of filter jobs in between", "why_tests_cant": "Which job inherits which pipe depends on the order in which the jobs are started and exit; if one is kept from ending the server only hangs.", "anchors": ["main_stevedore.c:job_start", "main_stevedore.c:job_end", "main_stevedore.c:start_filter", "main_stevedore.c:start_store", "main_stevedore.c:start_meta", "main_stevedore.c:input", "main_stevedore.c:store_line", "main_stevedore.c:meta_line", "main_stevedore.c:filter_end"]}
{"id": "C96", "title": "Reindexing the silos that are named", "statement": "The silos named as arguments of reindex are reindexed with the numbers that they have. An archive that has its index, and of which any silos are reindexed, in any order, has the same index entries as before, no segment is left over, and all objects are got as before; that is so also for objects with only some of their segments in these silos. If the index is lost, the silos can be reindexed in several runs.", "quantifier": "every history of stores and housekeeping runs, every set of silos in every order, every name that the configuration gives to silos", "why_tests_cant": "Which segments of an object are in the silos that are named is a matter of the sizes of everything that was stored before.", "anchors": ["main_reindex.c:main_reindex", "main_reindex.c:silo_iter", "main_reindex.c:got_seg", "main_reindex.c:reindex_iter", "main_reindex.c:try_seg", "main_reindex.c:emit_seg", "silo.c:Silo_Filename"]}
{"id": "C97", "title": "Reindexing that is killed can be done again", "statement": "If reindex is killed, at whatever time and however often, with an index that was lost or with the one that is there, then reindexing all silos succeeds: the index has exactly the entries that it had before, no segment is left over, and all objects are got as before.", "quantifier": "every history of stores and housekeeping runs, every number of attempts, each with the silos in any order and killed after any number of changes of the index", "why_tests_cant": "What an attempt leaves depends on the record and the silo at which it is killed, and each of these indexes is the beginning of the next attempt.", "anchors": ["main_reindex.c:main_reindex", "main_reindex.c:silo_iter", "main_reindex.c:got_seg", "main_reindex.c:emit_seg", "index.c:IDX_Insert", "index.c:IDX_Resort"]}
{"id": "C98", "title": "The file that get writes has the object", "statement": "If get ends with status 0 the output file has the whole object; and whatever calls of write(2) fail or write only in part, the file is the beginning of the object.", "quantifier": "every object in every archive that can be got, every way in which it is cut into pieces, every size of the buffer of the stream, every sequence of outcomes of write(2)", "why_tests_cant": "A full disk is met at one of the writes; whether it is noticed depends on how much of the object is in the buffer of the stream at that time.", "anchors": ["main_get.c:main_get", "main_get.c:get_iter", "getjob.c:GetJob_Iter", "main.c:main"]}
{"id": "C99", "title": "The server reads a message whole and nothing of the next", "statement": "Of a message that asks for an ID, of the reference of metadata and of a message that it does not know the server takes exactly the bytes of the message from the pipe, and hands on these; or the client has gone away. That is so however the calls of read(2) cut the bytes into pieces, and also if some of them fail. Nothing is written behind the place for the message.", "quantifier": "every message, every stream of bytes behind it, every sequence of outcomes of read(2)", "why_tests_cant": "The pieces in which a pipe delivers its bytes and the errors of read(2) cannot be forced by tests.", "anchors": ["main_stevedore.c:input", "main_stevedore.c:start_filter", "main_stevedore.c:start_meta"]}
{"id": "C100", "title": "A message that is not written whole is not taken for another", "statement": "If writev(2) fails for a message of the protocol between stow and stevedore, or writes only a part of it, then what the other side receives is the first messages of those sent, unchanged: nothing is received that was not sent, and an end within a message is noticed.", "quantifier": "every sequence of messages, every sequence of outcomes of writev(2)", "why_tests_cant": "Writes in part and errors cannot be forced at each message and each byte of it.", "anchors": ["proto.c:proto_out", "proto.c:proto_in", "main_stow.c:stevedore_out", "main_stow.c:send_metadata", "main_stevedore.c:input"]}
{"id": "C101", "title": "The list that filter writes is whole", "statement": "If filter ends with status 0 its output file has the line of each candidate that it is to print; and whatever calls of write(2) fail or write only in part, the file is the beginning of that list.", "quantifier": "every list of candidates, every archive, every size of the buffer of the stream, every sequence of outcomes of write(2)", "why_tests_cant": "A full disk is met at one of the writes, and which lines are then missing depends on the size of the buffer and on whether later writes succeed.", "anchors": ["main_filter.c:main_filter", "main.c:main"]}
{"id": "C102", "title": "A stow job needs its temporary files whole", "statement": "If the output of mtree or the list of changed files cannot be written whole to the temporary files of stow, because calls of write(2) fail, then no metadata are sent: there are no metadata for a list of files that is not whole in the archive, and none that lack a file that has changed.", "quantifier": "every output of mtree, every list of changed files, every size of the buffers, every sequence of outcomes of write(2)", "why_tests_cant": "The temporary files are written through buffers, and on a full disk the error is met at one of many calls, some of which nobody looks at.", "anchors": ["main_stow.c:mtree_in", "main_stow.c:stevedore_out", "main_stow.c:data_resp", "main_stow.c:metafile", "main_stow.c:send_metadata"]}
{"id": "C103", "title": "An index that cannot be read is not taken for one without the entry", "statement": "If a file of the index cannot be opened or read, looking something up finds the entries that are there, or the program stops with an error; it does not go on as if there were none.", "quantifier": "every index, every key, every subset of its files that cannot be opened, every place from which on a file cannot be read", "why_tests_cant": "Errors in opening and reading files depend on the system and on other processes, and what is overlooked then depends on where the entries are in the files.", "anchors": ["index.c:IDX_Iter", "index.c:bucket_seek"]}
{"id": "C104", "title": "Going over the silos leaves none out in silence", "statement": "Going over the silos of an archive visits each silo below the first missing directory, in ascending order, until the callback asks to stop; if a silo or a directory cannot be looked at the caller is told, and in any case it ends.", "quantifier": "every archive, every subset of its silos and directories for which stat(2) fails, every callback", "why_tests_cant": "Errors of stat(2) depend on the system, and a silo that is left out cannot be told from one that was never there; that a loop does not end cannot be observed.", "anchors": ["silo.c:Silo_Iter", "silo.c:Silo_Filename"]}
{"id": "C105", "title": "Filter reads its lists to the end", "statement": "If filter ends with status 0 it has considered each line of each list of IDs: if a list cannot be read to its end it says so and does not print a result for a part of it.", "quantifier": "every set of lists, every subset of them that cannot be read to the end, every place of the error, every archive", "why_tests_cant": "Errors of read(2) cannot be forced at each byte of a list, and what is printed for a part of a list looks like what is printed for a shorter one.", "anchors": ["main_filter.c:read_file", "main_filter.c:main_filter"]}
{"id": "C106", "title": "An object that cannot be read is not delivered in part", "statement": "If read(2) fails while get reads an object from its silos, with or without -z, get does not end with status 0 after it has written only a part of the object.", "quantifier": "every archive, every object in it of one or of several segments, every call of read(2) for the bodies of its records that may fail", "why_tests_cant": "Bad blocks of a disk cannot be put under each piece of each segment of an object; and the part that is written may be a good gzip file.", "anchors": ["rsilo.c:Rsilo_ReadGZChunk", "rsilo.c:Rsilo_ReadChunk", "getjob.c:GetJob_Iter", "main_get.c:main_get"]}
