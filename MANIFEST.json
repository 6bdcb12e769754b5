{
 "claims": [
  {
   "property": "C01",
   "status": "proved",
   "theorems": [
    "Olecf.Props.C01_header_data_acceptance",
    "Olecf.Props.C01_header_acceptance",
    "Olecf.Props.C01_file_header_acceptance"
   ],
   "note": ""
  },
  {
   "property": "C02",
   "status": "proved",
   "theorems": [
    "Olecf.Props.C02_header_roundtrip",
    "Olecf.Props.C02_byte_orders_agree"
   ],
   "note": ""
  },
  {
   "property": "C03",
   "status": "proved",
   "theorems": [
    "Olecf.Props.C03_sector_sizes"
   ],
   "note": ""
  },
  {
   "property": "C04",
   "status": "proved",
   "theorems": [
    "Olecf.Props.C04_check_signature",
    "Olecf.Props.C04_check_content",
    "Olecf.Props.C04_handle_restored",
    "Olecf.Props.C04_opened_passes",
    "Olecf.Props.C04_check_name"
   ],
   "note": "Exact result for every content and every combination of failing libbfio calls; handle state restored when libbfio close works; agreement with open; the by-name variant too. A failed libbfio call is assumed not to change the handle."
  },
  {
   "property": "C05",
   "status": "proved",
   "theorems": [
    "Olecf.Props.C05_resize",
    "Olecf.Props.C05_table_history"
   ],
   "note": ""
  },
  {
   "property": "C06",
   "status": "proved",
   "theorems": [
    "Olecf.Props.C06_no_out_of_bounds",
    "Olecf.Props.C06_sat_size_is_needed"
   ],
   "note": ""
  },
  {
   "property": "C07",
   "status": "proved",
   "theorems": [
    "Olecf.Props.C07_bounded_reads"
   ],
   "note": ""
  },
  {
   "property": "C08",
   "status": "proved",
   "theorems": [
    "Olecf.Props.C08_msat_outcome",
    "Olecf.Props.C08_msat_exact",
    "Olecf.Props.C08_msat_header_only",
    "Olecf.Props.C08_msat_too_big"
   ],
   "note": ""
  },
  {
   "property": "C09",
   "status": "proved",
   "theorems": [
    "Olecf.Props.C09_sat_outcome",
    "Olecf.Props.C09_sat_exact"
   ],
   "note": ""
  },
  {
   "property": "C10",
   "status": "proved",
   "theorems": [
    "Olecf.Props.C10_ssat_outcome",
    "Olecf.Props.C10_ssat_exact"
   ],
   "note": ""
  },
  {
   "property": "C100",
   "status": "proved",
   "theorems": [
    "Olecf.Props.C100_set_of_document"
   ],
   "note": "The limits in the quantifier are those of C38 and C67. Contracts: libcdata arrays and trees, libfvalue data, libbfio as stated in DESIGN.md."
  },
  {
   "property": "C101",
   "status": "partial",
   "theorems": [
    "Olecf.Props.C101_reads",
    "Olecf.Props.C101_honest",
    "Olecf.Props.C101_memory",
    "Olecf.Props.C101_defined_partial",
    "Olecf.Props.C101_object_of_document",
    "Olecf.Props.C101_standard_clipboard_violated",
    "Olecf.Props.C101_clipboard_general_violated",
    "Olecf.Props.C101_reserved_violated",
    "Olecf.Props.C101_slack_violated",
    "Olecf.Props.C101_again_violated",
    "Olecf.Props.C101_position_violated"
   ],
   "note": "Violated: standard clipboard formats are refused (the markers are compared with 0x0ffffffe and 0x0fffffff), reserved strings above 0x28 bytes are not left out, bytes behind the end of the stream are read, a second call starts where the first ended, and positions far behind the end are undefined. Proved: acceptance is exact for objects within the stream that the library knows, memory in full, defined from positions within reach. Debug output is not modelled. The function has no caller in the library."
  },
  {
   "property": "C102",
   "status": "partial",
   "theorems": [
    "Olecf.Props.C102_depth_exact",
    "Olecf.Props.C102_enough",
    "Olecf.Props.C102_nesting_needs",
    "Olecf.Props.C102_deep_document_violated"
   ],
   "note": "Violated: the tree of items is made by a recursion along the links, one call for each; a well formed file of about 128 bytes for each of n nested storages, n up to 262398, needs n nested calls. Proved: the exact depth for every directory, and that 262401 calls are enough for every file. The size of a stack frame and the recursion of libcdata when the tree is freed are not modelled."
  },
  {
   "property": "C103",
   "status": "partial",
   "theorems": [
    "Olecf.Props.C103_file_name_partial",
    "Olecf.Props.C103_distinct",
    "Olecf.Props.C103_valid_partial",
    "Olecf.Props.C103_nul_violated",
    "Olecf.Props.C103_empty_name",
    "Olecf.Props.C103_ordinary_violated",
    "Olecf.Props.C103_open_by_path_partial",
    "Olecf.Props.C103_root",
    "Olecf.Props.C103_trailing_separator_violated",
    "Olecf.Props.C103_backslash_violated",
    "Olecf.Props.C103_file_name_safe",
    "Olecf.Props.C103_item_path_safe",
    "Olecf.Props.C103_open_any_path"
   ],
   "note": "Violated: names with a NUL, names that Windows reserves (devices, trailing dot or space, . and ..) are mounted unchanged, names with a backslash open another item, paths that end with a backslash open nothing. Proved for the other names; distinctness and the safety of buffers in full. Contract: libuna encodes and decodes UTF-16 (IsUtf16)."
  },
  {
   "property": "C104",
   "status": "partial",
   "theorems": [
    "Olecf.Props.C104_written_document_partial",
    "Olecf.Props.C104_long_name_violated",
    "Olecf.Props.C104_parent_violated",
    "Olecf.Props.C104_empty_size_violated",
    "Olecf.Props.C104_file_listed_violated",
    "Olecf.Props.C104_open_always_violated",
    "Olecf.Props.C104_read_only"
   ],
   "note": "Violated: names of 26 code units and more end the listing with an error, or are written past the end of the array in builds for long paths; .. of a directory is shown as a file; the size of an empty file is not set; a file is listed as an empty directory; OPEN_ALWAYS does not find an existing file. Proved for documents whose names have at most 25 code units. Threads and the kernel side of Dokan are not modelled."
  },
  {
   "property": "C105",
   "status": "partial",
   "theorems": [
    "Olecf.Props.C105_read_history_independent",
    "Olecf.Props.C105_paths_history_independent",
    "Olecf.Props.C105_open_contexts",
    "Olecf.Props.C105_no_directory_leak",
    "Olecf.Props.C105_operations_answered_partial",
    "Olecf.Props.C105_volume_names",
    "Olecf.Props.C105_listed_names",
    "Olecf.Props.C105_open_once"
   ],
   "note": "Conditions of C105_operations_answered_partial: short sectors of at least 4 bytes (C50_counter_overflow_violated), names of at most 25 code units in builds for long paths (C104_long_name_violated). The rest in full. Operations one after the other; for read requests of several threads (older versions of libdokan) see C116."
  },
  {
   "property": "C106",
   "status": "partial",
   "theorems": [
    "Olecf.Props.C106_separate_items_partial",
    "Olecf.Props.C106_no_race_partial",
    "Olecf.Props.C106_document_partial",
    "Olecf.Props.C106_shared_race_violated",
    "Olecf.Props.C106_shared_bytes_violated",
    "Olecf.Props.C106_shared_overflow_violated"
   ],
   "note": "Proved for threads of which no two use the same item object, also several objects for one stream. Violated for an object that two threads use: the accesses to its offset are a data race, a read at an offset returns bytes from the offset of the other thread, and a seek between the check of the size and its computation makes a read write behind the end of its buffer, for every stream of at least three bytes. The Python bindings release the lock of the interpreter around the calls. Calls on streams only: getting items walks lists of libcdata, which may change on look-ups. Contract: a read of libbfio at an offset is atomic."
  },
  {
   "property": "C107",
   "status": "partial",
   "theorems": [
    "Olecf.Props.C107_reads",
    "Olecf.Props.C107_memory",
    "Olecf.Props.C107_proportional_violated"
   ],
   "note": "Violated: the tables get the sizes that the header declares, before anything is read: a file of 1536 bytes is opened with tables of up to 2^25 entries (128 MiB) each. The bounds are proved for all files. The scan of the directory chain is in C14, the nested calls in C102."
  },
  {
   "property": "C108",
   "status": "partial",
   "theorems": [
    "Olecf.Props.C108_part_of_image",
    "Olecf.Props.C108_written_document",
    "Olecf.Props.C108_moments",
    "Olecf.Props.C108_olecfexport",
    "Olecf.Props.C108_success_violated"
   ],
   "note": "Proved for every combination of failures, every cut of failing writes and every crash point: what is there is a part of the image. Violated: the success. An item that fails is reported on the output and the export goes on; the result, and the exit status of the program, is success exactly if the export directory could be made. For every document, a file system that fails right after that gives success and an empty directory."
  },
  {
   "property": "C109",
   "status": "partial",
   "theorems": [
    "Olecf.Props.C109_export_faithful",
    "Olecf.Props.C109_layout",
    "Olecf.Props.C109_kind_violated"
   ],
   "note": "Proved for all pairs of stored documents with text names: the exports are the same exactly if the documents have the same data at the same paths of names; the layouts and byte orders have no influence. Violated: the kind of a part. Every item becomes a directory with a data file, so an empty storage and an empty stream cannot be told apart in an export."
  },
  {
   "property": "C11",
   "status": "partial",
   "theorems": [
    "Olecf.Props.C11_violated",
    "Olecf.Props.C11_never_reported",
    "Olecf.Props.C11_msat_unreadable_reported_partial"
   ],
   "note": "False of the code: failures while loading the sector table and the short sector table are swallowed (witness and general theorem). Holds for the master table."
  },
  {
   "property": "C110",
   "status": "proved",
   "theorems": [
    "Olecf.Props.C110_created",
    "Olecf.Props.C110_failures_told",
    "Olecf.Props.C110_written_document"
   ],
   "note": "Created directories: all files, names and faults. Failures told: all documents in files of any layout, all choices of failing operations. Complements C108: the exit status hides failures, the messages do not. Writes to the log file itself and the texts of the formats are not modelled."
  },
  {
   "property": "C111",
   "status": "partial",
   "theorems": [
    "Olecf.Props.C111_open_partial",
    "Olecf.Props.C111_stream_reads",
    "Olecf.Props.C111_document_partial",
    "Olecf.Props.C111_truncated",
    "Olecf.Props.C111_open_violated",
    "Olecf.Props.C111_written_violated",
    "Olecf.Props.C111_document_violated",
    "Olecf.Props.C111_short_table_partial",
    "Olecf.Props.C111_short_violated",
    "Olecf.Props.C111_table_partial",
    "Olecf.Props.C111_table_cut"
   ],
   "note": "Proved for all files and all damage: an open in which no read failed is that of the whole file; after it, or after the loss of anything but header, tables and directory, every read of a stream gives the stored bytes or fails, and fails exactly if a needed part is damaged. Violated: opens that succeed though the sector table could not be read. Its entries are then zeros and streams show the first sector of the file: for every written document with a directory of one sector, cut anywhere between the directory and the table. If only the short sector table and data are damaged, the hierarchy, the names and the sizes are exact, and so are the streams that are not short or take at most one short sector (C111_short_table_partial); longer short streams show the first short sector of the file as their second one (C111_short_violated). If only the first sectors of the sector table can be read, the hierarchy is exact and so are all streams whose sectors these describe (C111_table_partial; for written files that were cut within the table C111_table_cut)."
  },
  {
   "property": "C112",
   "status": "partial",
   "theorems": [
    "Olecf.Props.C112_export_damaged_partial",
    "Olecf.Props.C112_export_table_partial",
    "Olecf.Props.C112_export_damaged_violated"
   ],
   "note": "Proved for all files with a document, all damage after an open without a failed read, all faults of the target and all kill points: only parts of the document are left; an export without a message of a failure is the whole image; every part has its directory and every readable stream all its data; the last also for files of which a part of the sector table is lost, for the streams that the rest describes. Violated for files that are opened though the sector table could not be read (C111): their export succeeds silently with other data. Assumptions on names as in C61."
  },
  {
   "property": "C113",
   "status": "proved",
   "theorems": [
    "Olecf.Props.C113_same_document",
    "Olecf.Props.C113_unused_bytes",
    "Olecf.Props.C113_free_sectors",
    "Olecf.Props.C113_free_sectors_violated"
   ],
   "note": "All files with a document, any layout. The hypothesis of the part on free sectors, that nothing refers to one, is needed: the library does not check it, and C113_free_sectors_violated has two files that differ in free sectors only, both of which open, with different data."
  },
  {
   "property": "C114",
   "status": "proved",
   "theorems": [
    "Olecf.Props.C114_long_stream",
    "Olecf.Props.C114_short_stream"
   ],
   "note": "All files with a document, any layout; the new data has the size of the old."
  },
  {
   "property": "C115",
   "status": "proved",
   "theorems": [
    "Olecf.Props.C115_objects",
    "Olecf.Props.C115_shared_handle_violated"
   ],
   "note": "All interleavings of calls on any number of objects, all faults. The hypothesis, that no handle of the caller is used with two objects, is needed: C115_shared_handle_violated has two objects on one handle, where closing the first closes the handle of the second. Calls on one thread; the library has no mutable global variables (read from the source)."
  },
  {
   "property": "C116",
   "status": "partial",
   "theorems": [
    "Olecf.Props.C116_separate_handles_partial",
    "Olecf.Props.C116_document_partial",
    "Olecf.Props.C116_same_handle_bytes_violated",
    "Olecf.Props.C116_same_handle_overflow_violated"
   ],
   "note": "Proved for all drives and threads of which no two read from the same open file (also if they read the same stream, opened twice). Violated for two requests for one open file: one is answered with the bytes at the offset of the other, and a request for the end of a stream with one for its begin overwrites memory behind the buffer; for every stream that a drive shows. Contracts: libdokan before 2.0 takes several threads for a ThreadCount of 0, and libbfio locks its handles (C106). Requests to read only; the other operations make and free objects of their own."
  },
  {
   "property": "C117",
   "status": "partial",
   "theorems": [
    "Olecf.Props.C117_history_partial",
    "Olecf.Props.C117_document_partial",
    "Olecf.Props.C117_copy",
    "Olecf.Props.C117_seek_overflow_violated"
   ],
   "note": "All documents, histories and arguments, compared with a file that has the content of the stream. Partial: a seek that goes to 2^63 or beyond is undefined instead of refused, on every stream (C117_seek_overflow_violated). Sizes of 2 GiB or more are refused, as the specification says; C117_copy shows that pieces give everything. Offsets are integers: an argument of another type is refused by the argument parser of Python, which is not modelled."
  },
  {
   "property": "C118",
   "status": "partial",
   "theorems": [
    "Olecf.Props.C118_document_partial",
    "Olecf.Props.C118_shared_bytes_violated",
    "Olecf.Props.C118_shared_overflow_violated"
   ],
   "note": "Proved for all documents, threads and programs of which no two use the same object (also if they use different objects of one stream) and no seek goes to 2^63 or beyond (C117). Violated for one object: a thread gets the bytes at the offset of the other, and a read at the end with one at the begin writes behind the bytes object; for every stream. Contracts as in C106: libbfio locks its handles, and nobody closes the file meanwhile. With a file object of Python the lock of the interpreter is taken for each read; the calls of the library that wait for the lock of libbfio are made without it."
  },
  {
   "property": "C119",
   "status": "partial",
   "theorems": [
    "Olecf.Props.C119_told_partial",
    "Olecf.Props.C119_repr_violated",
    "Olecf.Props.C119_kept_violated",
    "Olecf.Props.C119_raised",
    "Olecf.Props.C119_raised_without_text"
   ],
   "note": "Proved for all texts and all exceptions of which repr gives a text: message and exception are as told; errors of the library are on one line and within the buffers, whatever the buffer holds. Violated: repr that fails is a null pointer dereference, and what was fetched is never released. The results of repr, of the formatting functions and of the backtrace are parameters; Python 3."
  },
  {
   "property": "C12",
   "status": "proved",
   "theorems": [
    "Olecf.Props.C12_slot_outcome",
    "Olecf.Props.C12_slot_roundtrip",
    "Olecf.Props.C12_short_data"
   ],
   "note": ""
  },
  {
   "property": "C120",
   "status": "partial",
   "theorems": [
    "Olecf.Props.C120_open_partial",
    "Olecf.Props.C120_open_object",
    "Olecf.Props.C120_document",
    "Olecf.Props.C120_nul_violated"
   ],
   "note": "partial for names that contain a null byte: the name ends there (C120_nul_violated, as in C86)"
  },
  {
   "property": "C121",
   "status": "proved",
   "theorems": [
    "Olecf.Props.C121_same_list",
    "Olecf.Props.C121_cut_listed"
   ],
   "note": "All files with a document, any layout, all damage outside of the parts that are named; for files of the writer that are cut also the text that is printed."
  },
  {
   "property": "C122",
   "status": "partial",
   "theorems": [
    "Olecf.Props.C122_mount_damaged_partial"
   ],
   "note": "All files that open, all damage after an open without a failed read, all histories. Missing: copies that are opened though a read failed (C111_open_violated), times that do not fit and short sectors of less than 4 bytes (C66)."
  },
  {
   "property": "C13",
   "status": "proved",
   "theorems": [
    "Olecf.Props.C13_identifiers_are_positions"
   ],
   "note": ""
  },
  {
   "property": "C14",
   "status": "proved",
   "theorems": [
    "Olecf.Props.C14_directory_safe"
   ],
   "note": ""
  },
  {
   "property": "C15",
   "status": "proved",
   "theorems": [
    "Olecf.Props.C15_directory_exact"
   ],
   "note": ""
  },
  {
   "property": "C16",
   "status": "proved",
   "theorems": [
    "Olecf.Props.C16_no_item_twice"
   ],
   "note": ""
  },
  {
   "property": "C17",
   "status": "proved",
   "theorems": [
    "Olecf.Props.C17_terminates",
    "Olecf.Props.C17_cycles_rejected"
   ],
   "note": ""
  },
  {
   "property": "C18",
   "status": "proved",
   "theorems": [
    "Olecf.Props.C18_sub_items_exact"
   ],
   "note": ""
  },
  {
   "property": "C19",
   "status": "proved",
   "theorems": [
    "Olecf.Props.C19_sub_items_sorted"
   ],
   "note": ""
  },
  {
   "property": "C20",
   "status": "proved",
   "theorems": [
    "Olecf.Props.C20_accepted_iff",
    "Olecf.Props.C20_well_formed_accepted",
    "Olecf.Props.C20_no_root"
   ],
   "note": ""
  },
  {
   "property": "C21",
   "status": "proved",
   "theorems": [
    "Olecf.Props.C21_name_lookup"
   ],
   "note": ""
  },
  {
   "property": "C22",
   "status": "partial",
   "theorems": [
    "Olecf.Props.C22_path_lookup_partial",
    "Olecf.Props.C22_undecodable",
    "Olecf.Props.C22_terminates",
    "Olecf.Props.C22_no_tree",
    "Olecf.Props.C22_one_character_violated",
    "Olecf.Props.C22_one_character_general"
   ],
   "note": "False in the code for paths of one character: they give the start item. Proved for all other paths, and the violation with a witness."
  },
  {
   "property": "C23",
   "status": "partial",
   "theorems": [
    "Olecf.Props.C23_read_returns_stream_bytes_partial",
    "Olecf.Props.C23_nested_of_le",
    "Olecf.Props.C23_large_short_sectors_violated"
   ],
   "note": "Proved for short sectors not larger than the sectors. False otherwise: a short sector that straddles two sectors is read from consecutive file positions (concrete witness)."
  },
  {
   "property": "C24",
   "status": "proved",
   "theorems": [
    "Olecf.Props.C24_read_succeeds_iff",
    "Olecf.Props.C24_covered_stream_readable"
   ],
   "note": "Exact condition of success, and success for every stream whose chain of distinct sectors covers its size."
  },
  {
   "property": "C25",
   "status": "proved",
   "theorems": [
    "Olecf.Props.C25_counts_clamped",
    "Olecf.Props.C25_size_limit"
   ],
   "note": "For every device; the sum of the device read sizes bounds what is written to the buffer, also on failure."
  },
  {
   "property": "C26",
   "status": "proved",
   "theorems": [
    "Olecf.Props.C26_offset_advances",
    "Olecf.Props.C26_read_at_offset"
   ],
   "note": ""
  },
  {
   "property": "C27",
   "status": "proved",
   "theorems": [
    "Olecf.Props.C27_pieces_equal_whole"
   ],
   "note": "Induction over the sequence of reads."
  },
  {
   "property": "C28",
   "status": "proved",
   "theorems": [
    "Olecf.Props.C28_history_independent",
    "Olecf.Props.C28_other_items"
   ],
   "note": "Histories over any number of items."
  },
  {
   "property": "C29",
   "status": "proved",
   "theorems": [
    "Olecf.Props.C29_seek",
    "Olecf.Props.C29_offset_never_negative"
   ],
   "note": ""
  },
  {
   "property": "C30",
   "status": "partial",
   "theorems": [
    "Olecf.Props.C30_seek_overflow_violated",
    "Olecf.Props.C30_seek_overflow_partial"
   ],
   "note": "False: offset 2^63-1 is reachable and one further relative seek overflows. Partial: exact condition of the overflow."
  },
  {
   "property": "C31",
   "status": "proved",
   "theorems": [
    "Olecf.Props.C31_only_streams"
   ],
   "note": ""
  },
  {
   "property": "C32",
   "status": "partial",
   "theorems": [
    "Olecf.Props.C32_reads_confined_partial",
    "Olecf.Props.C32_header_not_read",
    "Olecf.Props.C32_header_leak_violated"
   ],
   "note": "Every byte asked of the device is a byte of the requested range of the stream. Identifier 0xffffffff counts as a sector at position 0: a container chain that ends with it exposes the file header (witness)."
  },
  {
   "property": "C33",
   "status": "proved",
   "theorems": [
    "Olecf.Props.C33_read_terminates",
    "Olecf.Props.C33_container_walk"
   ],
   "note": ""
  },
  {
   "property": "C34",
   "status": "proved",
   "theorems": [
    "Olecf.Props.C34_open_iff",
    "Olecf.Props.C34_open_name_iff",
    "Olecf.Props.C34_open_when_open",
    "Olecf.Props.C34_close_when_closed",
    "Olecf.Props.C34_close_resets",
    "Olecf.Props.C34_two_states"
   ],
   "note": "All histories of opens (by handle or by name), closes, code page calls and abort signals, with any failing libbfio calls."
  },
  {
   "property": "C35",
   "status": "proved",
   "theorems": [
    "Olecf.Props.C35_handles_balanced",
    "Olecf.Props.C35_closed_holds_nothing",
    "Olecf.Props.C35_open_file_has_open_handle",
    "Olecf.Props.C35_free",
    "Olecf.Props.C35_open_name_leaves_callers_handles",
    "Olecf.Props.C35_failed_open_restores",
    "Olecf.Props.C35_open_close_restores",
    "Olecf.Props.C35_callers_handle_stays_open"
   ],
   "note": "Event trace of open/close/create/free calls on every handle, all histories, all combinations of failing libbfio calls."
  },
  {
   "property": "C36",
   "status": "partial",
   "theorems": [
    "Olecf.Props.C36_failed_open_changes_getters_violated",
    "Olecf.Props.C36_failed_open_invisible_partial"
   ],
   "note": "False for the getters of the closed file: they show the values of the file that could not be opened (witness: a file that is only a header). Proved: nothing else is visible, now or after any further history (bisimulation)."
  },
  {
   "property": "C37",
   "status": "proved",
   "theorems": [
    "Olecf.Props.C37_set_codepage",
    "Olecf.Props.C37_codepage_history"
   ],
   "note": ""
  },
  {
   "property": "C38",
   "status": "partial",
   "theorems": [
    "Olecf.Props.C38_set_read_as_serialised_partial",
    "Olecf.Props.C38_from_stream_bytes_partial",
    "Olecf.Props.C38_little_endian_sections",
    "Olecf.Props.C38_only_what_is_there_partial",
    "Olecf.Props.C38_by_index",
    "Olecf.Props.C38_big_endian_violated"
   ],
   "note": "False for big-endian sets (read as sets without sections) and for 65536 sections and more (only the lower 16 bits count). Proved for little-endian sets: what a stream holds (Spec/PropSet.lean, by positions) is what is read, and only that."
  },
  {
   "property": "C39",
   "status": "partial",
   "theorems": [
    "Olecf.Props.C39_values_partial",
    "Olecf.Props.C39_fixed_size",
    "Olecf.Props.C39_cut_string",
    "Olecf.Props.C39_cut_units",
    "Olecf.Props.C39_unit_count_wrap_violated"
   ],
   "note": "All types, both byte orders. False for 16-bit strings that declare 2^31 units or more (32-bit overflow, witness)."
  },
  {
   "property": "C40",
   "status": "proved",
   "theorems": [
    "Olecf.Props.C40_boolean",
    "Olecf.Props.C40_16bit",
    "Olecf.Props.C40_32bit",
    "Olecf.Props.C40_64bit",
    "Olecf.Props.C40_filetime",
    "Olecf.Props.C40_string"
   ],
   "note": "For every property of every set that is read. libfvalue (integer decoding and string conversion) is a contract."
  },
  {
   "property": "C41",
   "status": "partial",
   "theorems": [
    "Olecf.Props.C41_low_offsets_rejected",
    "Olecf.Props.C41_value_in_stream_partial",
    "Olecf.Props.C41_offset_wrap_violated"
   ],
   "note": "The rejection of offsets up to 8 holds; the claim about 32-bit arithmetic is false (witness)."
  },
  {
   "property": "C42",
   "status": "partial",
   "theorems": [
    "Olecf.Props.C42_mounted_name_round_trip_partial",
    "Olecf.Props.C42_nul_violated",
    "Olecf.Props.C42_empty_name"
   ],
   "note": "Proved for all non-empty strings of Unicode scalar values without NUL, for every libuna that encodes and decodes UTF-8 (IsUtf8; Lean's own UTF-8 is proved to be one). Violated for names with an embedded NUL character: what follows it is lost."
  },
  {
   "property": "C43",
   "status": "partial",
   "theorems": [
    "Olecf.Props.C43_mounted_name_valid_partial",
    "Olecf.Props.C43_mounted_names_distinct_partial",
    "Olecf.Props.C43_nul_violated",
    "Olecf.Props.C43_dot_dot_violated"
   ],
   "note": "Proved for all non-empty strings of Unicode scalar values without NUL. Violated for names with an embedded NUL character: two of them can have the same mounted name; and for items named . and .., which keep these names."
  },
  {
   "property": "C44",
   "status": "partial",
   "theorems": [
    "Olecf.Props.C44_open_by_mounted_path_partial",
    "Olecf.Props.C44_root",
    "Olecf.Props.C44_backslash_violated"
   ],
   "note": "Proved for all hierarchies, depths and names that contain no backslash. Violated for names with a backslash: the mounted path of an item named ab\\c opens the item c of ab."
  },
  {
   "property": "C45",
   "status": "proved",
   "theorems": [
    "Olecf.Props.C45_export_writes_whole_stream",
    "Olecf.Props.C45_export_bytes",
    "Olecf.Props.C45_failed_read_reported"
   ],
   "note": "For every file system state and every pattern of failing file system operations. The content is what one read of the whole stream returns; C45_export_bytes gives it byte by byte where C23 does. Sanitizer contract: no separator in the result."
  },
  {
   "property": "C46",
   "status": "partial",
   "theorems": [
    "Olecf.Props.C46_fallback_name_partial",
    "Olecf.Props.C46_fallback_name_violated"
   ],
   "note": "The code violates it: the buffer of the sanitized name has exactly the size of that name, the fallback writes 10 characters to it. Proved: it happens exactly when the name exists and is shorter than 9 characters."
  },
  {
   "property": "C47",
   "status": "proved",
   "theorems": [
    "Olecf.Props.C47_load",
    "Olecf.Props.C47_document_shown"
   ],
   "note": "For every file that holds a document (FileHolds: any sector size from 128 to 32768, any placement and fragmentation, both byte orders, long and short streams, the limits of the library as hypotheses of the layout), from every reachable closed state of the file object. Spec/Layout.lean states the layout and the view independently of the readers. Short sectors larger than sectors are excluded (violated, see C23)."
  },
  {
   "property": "C48",
   "status": "proved",
   "theorems": [
    "Olecf.Props.C48_items_independent",
    "Olecf.Props.C48_same_entry_same_answers"
   ],
   "note": "For every history over any number of item handles of an open file. All device reads of the library are at explicit offsets, so the file position of the device is no shared state."
  },
  {
   "property": "C49",
   "status": "partial",
   "theorems": [
    "Olecf.Props.C49_ssat_truncated",
    "Olecf.Props.C10_ssat_outcome"
   ],
   "note": "False of the code: beyond 257 sectors the table is silently filled with zeros; exact outcome proved."
  },
  {
   "property": "C50",
   "status": "partial",
   "theorems": [
    "Olecf.Props.C50_read_defined_partial",
    "Olecf.Props.C50_counter_overflow_violated"
   ],
   "note": "Holds for sectors of at least 4 bytes; false for one-byte short sectors: the signed sector counter overflows on a cyclic chain (witness proved by induction, not by evaluation)."
  },
  {
   "property": "C51",
   "status": "proved",
   "theorems": [
    "Olecf.Props.C51_entries_owned_once"
   ],
   "note": ""
  },
  {
   "property": "C52",
   "status": "proved",
   "theorems": [
    "Olecf.Props.C52_open_safe",
    "Olecf.Props.C52_open_reads_bounded",
    "Olecf.Props.C52_opened_well_formed"
   ],
   "note": "Composition of the table, directory and tree results; gives the hypotheses that the stream theorems need."
  },
  {
   "property": "C53",
   "status": "proved",
   "theorems": [
    "Olecf.Props.C53_defined",
    "Olecf.Props.C53_mark_required"
   ],
   "note": ""
  },
  {
   "property": "C54",
   "status": "partial",
   "theorems": [
    "Olecf.Props.C54_mounted_time_partial",
    "Olecf.Props.C54_unset_time",
    "Olecf.Props.C54_overflow",
    "Olecf.Props.C54_early_time_violated",
    "Olecf.Props.C54_late_time_violated"
   ],
   "note": "Proved for all instants from 1677-09-21 to 2262-04-11 (and the unset value); for every other stored value the code overflows a signed 64-bit integer, which is proved as well."
  },
  {
   "property": "C55",
   "status": "partial",
   "theorems": [
    "Olecf.Props.C55_trailing_separator_violated"
   ],
   "note": "The property is false: it is proved that no path other than / that ends with a separator opens an entry (the length of the file name underflows and the entry is refused)."
  },
  {
   "property": "C56",
   "status": "proved",
   "theorems": [
    "Olecf.Props.C56_listing_is_sub_items",
    "Olecf.Props.C56_listing_succeeds",
    "Olecf.Props.C56_names_distinct"
   ],
   "note": "For all hierarchies and names; mountable names are the non-empty strings of Unicode scalar values without NUL."
  },
  {
   "property": "C57",
   "status": "proved",
   "theorems": [
    "Olecf.Props.C57_mounted_name_safe",
    "Olecf.Props.C57_item_path_safe",
    "Olecf.Props.C57_open_any_path"
   ],
   "note": "For all byte strings; assumed of libuna: decoding uses at least one byte and at most those given, a separator or NUL character uses one, encoding writes at most ten bytes."
  },
  {
   "property": "C58",
   "status": "proved",
   "theorems": [
    "Olecf.Props.C58_export_stays_inside",
    "Olecf.Props.C58_existing_directory_refused"
   ],
   "note": "Under the contract that a sanitized name has no separator; names . and .. are covered. No symbolic links."
  },
  {
   "property": "C59",
   "status": "partial",
   "theorems": [
    "Olecf.Props.C59_export_complete_partial",
    "Olecf.Props.C59_sized_storage_violated"
   ],
   "note": "Violated for storages with a size field that is not zero: they and everything below are not exported while the tool reports success. Proved for plain, distinct names and readable data."
  },
  {
   "property": "C60",
   "status": "proved",
   "theorems": [
    "Olecf.Props.C60_written_document_shown",
    "Olecf.Props.C60_shown_unique",
    "Olecf.Props.C60_held_unique",
    "Olecf.Props.C60_encode_injective",
    "Olecf.Props.C60_storable"
   ],
   "note": "Round trip with an explicit writer (Spec/Encode.lean, part of the specification): header, master table with further sectors, sector tables, directory, long and short streams. C60_storable gives simple sufficient bounds. The comparison with the summary information names (libuna) must not fail for names of 20 and 28 bytes, as in C47."
  },
  {
   "property": "C61",
   "status": "proved",
   "theorems": [
    "Olecf.Props.C61_export_is_image",
    "Olecf.Props.C61_written_document_exported"
   ],
   "note": "Under the conditions named in the property. Needs that no storage but the root has a size (see C59_sized_storage_violated) and short sectors of at least 4 bytes."
  },
  {
   "property": "C62",
   "status": "proved",
   "theorems": [
    "Olecf.Props.C62_mounted_document",
    "Olecf.Props.C62_written_document_mounted"
   ],
   "note": "Under the conditions named in the property (Spec/Fuse.lean, Mountable); where they do not hold see C43, C44, C54. Presents is the specification of the mounted view."
  },
  {
   "property": "C63",
   "status": "proved",
   "theorems": [
    "Olecf.Props.C63_read_history_independent",
    "Olecf.Props.C63_listing_history_independent"
   ],
   "note": "For every mount and every history. libfuse runs the requests one after the other."
  },
  {
   "property": "C64",
   "status": "partial",
   "theorems": [
    "Olecf.Props.C64_open_handles_partial",
    "Olecf.Props.C64_directory_leak_violated"
   ],
   "note": "Violated: releasing a directory clears the handle without freeing the file entry; n visits of the root directory leave n entries, for every n and every mount. Proved for histories in which no directory is released."
  },
  {
   "property": "C65",
   "status": "partial",
   "theorems": [
    "Olecf.Props.C65_attributes",
    "Olecf.Props.C65_modification_time_partial",
    "Olecf.Props.C65_unset",
    "Olecf.Props.C65_before_1970_violated"
   ],
   "note": "Violated for instants before 1970 that are not full seconds: negative nanoseconds, or a time later than the stored one. Proved for all other instants and all other attributes."
  },
  {
   "property": "C66",
   "status": "partial",
   "theorems": [
    "Olecf.Props.C66_requests_answered_partial",
    "Olecf.Props.C66_time_violated"
   ],
   "note": "Violated by modification times outside of 1678 to 2261 (signed overflow) and by short sectors of 1 and 2 bytes (C50). Proved for all other files."
  },
  {
   "property": "C67",
   "status": "proved",
   "theorems": [
    "Olecf.Props.C67_set_in_document",
    "Olecf.Props.C67_written_set_held",
    "Olecf.Props.C67_written_set_read",
    "Olecf.Props.C67_held_set_unique",
    "Olecf.Props.C67_encode_set_injective"
   ],
   "note": "With an explicit writer of property sets (Spec/EncodeSet.lean, part of the specification). Big-endian sets are written and held as well, but not read by the library (C38_big_endian_violated). Vectors of strings and unknown types are written without data: the library gives none."
  },
  {
   "property": "C68",
   "status": "partial",
   "theorems": [
    "Olecf.Props.C68_datetime_partial",
    "Olecf.Props.C68_instant_unique",
    "Olecf.Props.C68_never_wrong",
    "Olecf.Props.C68_late_refused",
    "Olecf.Props.C68_last_day_1699",
    "Olecf.Props.C68_datetime_violated"
   ],
   "note": "Violated for all instants of 31 December 1699: the comparison with the number of days to 1700 is off by one, the day 0 of January 1700 is asked for, and an exception is raised. Proved for all other instants; a wrong datetime is never given. Contract: Python's datetime constructor accepts exactly the existing dates."
  },
  {
   "property": "C69",
   "status": "partial",
   "theorems": [
    "Olecf.Props.C69_history",
    "Olecf.Props.C69_index",
    "Olecf.Props.C69_for_loop_partial",
    "Olecf.Props.C69_property_sets",
    "Olecf.Props.C69_sub_items",
    "Olecf.Props.C69_gets_defined",
    "Olecf.Props.C69_second_loop_violated"
   ],
   "note": "Violated for a second loop over the same sequence object, which sees nothing: iter() returns the sequence itself and the position is never reset. Everything else is proved for all histories."
  },
  {
   "property": "C70",
   "status": "partial",
   "theorems": [
    "Olecf.Props.C70_document_seen_partial",
    "Olecf.Props.C70_walk_partial",
    "Olecf.Props.C70_read_partial",
    "Olecf.Props.C70_refused",
    "Olecf.Props.C70_size_given",
    "Olecf.Props.C70_size_omitted",
    "Olecf.Props.C70_large_stream_violated"
   ],
   "note": "Violated for streams of 2 GiB and more: read() without size raises. Proved for all documents with smaller streams, and for all accepted sizes."
  },
  {
   "property": "C71",
   "status": "partial",
   "theorems": [
    "Olecf.Props.C71_class_of_item",
    "Olecf.Props.C71_same_class_partial",
    "Olecf.Props.C71_summary_violated"
   ],
   "note": "Violated for the two summary information streams: asked of the file by a path they are plain streams. Proved for all other items."
  },
  {
   "property": "C72",
   "status": "partial",
   "theorems": [
    "Olecf.Props.C72_integer",
    "Olecf.Props.C72_datetime_partial",
    "Olecf.Props.C72_boolean"
   ],
   "note": "Integers and booleans in full (both directions); dates with the exception of C68."
  },
  {
   "property": "C73",
   "status": "partial",
   "theorems": [
    "Olecf.Props.C73_format_version_partial",
    "Olecf.Props.C73_usual_version_violated"
   ],
   "note": "Violated for every file with the usual minor version 0x3e: numbers above 9 raise an exception. Proved for versions below 10."
  },
  {
   "property": "C74",
   "status": "partial",
   "theorems": [
    "Olecf.Props.C74_memory",
    "Olecf.Props.C74_no_item",
    "Olecf.Props.C74_no_close_partial",
    "Olecf.Props.C74_kept_partial",
    "Olecf.Props.C74_close_violated"
   ],
   "note": "Violated by close(): items hold pointers into what it frees, every use of an item after it is undefined. Proved for all programs: no double free, no leak, sets, sections and values stay usable also after close(); items stay usable as long as their file is not closed."
  },
  {
   "property": "C75",
   "status": "partial",
   "theorems": [
    "Olecf.Props.C75_reads",
    "Olecf.Props.C75_size",
    "Olecf.Props.C75_any_object_partial",
    "Olecf.Props.C75_long_read_violated",
    "Olecf.Props.C75_size_violated"
   ],
   "note": "Violated for objects whose read gives more bytes than asked for (they are written behind the buffer), and for the size of objects that cannot seek (success is reported without a size). Contract: libbfio reads at an offset by a seek and a read."
  },
  {
   "property": "C76",
   "status": "proved",
   "theorems": [
    "Olecf.Props.C76_unicode_paths"
   ],
   "note": "Paths start with a separator (a path of one character without one is the violation in C22). libuna is assumed to decode, compare and copy Unicode strings (IsLibuna), which plainUna is proved to do; nothing is assumed of names that are not Unicode strings or that start with a byte order mark."
  },
  {
   "property": "C77",
   "status": "partial",
   "theorems": [
    "Olecf.Props.C77_listing",
    "Olecf.Props.C77_safe",
    "Olecf.Props.C77_written_document_listed",
    "Olecf.Props.C77_readable_partial",
    "Olecf.Props.C77_indentation_violated",
    "Olecf.Props.C77_backslash_violated",
    "Olecf.Props.C77_non_ascii_violated",
    "Olecf.Props.C77_unnamed_violated"
   ],
   "note": "Violated: a name with leading spaces looks like a sub item, a backslash like an escape, non-ASCII names are printed in hexadecimal where char is signed, and one name that cannot be converted ends the listing with a failure. Proved for all files whose names can be converted; readable if no name is empty, starts with a space or has a backslash. Contract: libuna (IsLibuna for stored documents)."
  },
  {
   "property": "C78",
   "status": "partial",
   "theorems": [
    "Olecf.Props.C78_set_listed",
    "Olecf.Props.C78_success",
    "Olecf.Props.C78_safe",
    "Olecf.Props.C78_run",
    "Olecf.Props.C78_readable_partial",
    "Olecf.Props.C78_numbers",
    "Olecf.Props.C78_forged_violated",
    "Olecf.Props.C78_hidden_violated"
   ],
   "note": "Violated: a string with ends of lines looks like further properties, and one value that cannot be converted ends the program, so that the rest of the set and the document summary information are not shown. Proved for all sets: the text up to the first value that cannot be shown, success exactly if there is none; readable if no text has an end of line. Contracts: libuna, libfguid, libfole, libfdatetime, libfvalue (IsInfoLibs)."
  },
  {
   "property": "C79",
   "status": "partial",
   "theorems": [
    "Olecf.Props.C79_blocks_partial",
    "Olecf.Props.C79_listed",
    "Olecf.Props.C79_free_sector_violated"
   ],
   "note": "Violated: the list of unallocated blocks is never filled, so no block is ever reported. The partial theorem is exact: what is reported is right if and only if no sector in the file is free."
  },
  {
   "property": "C80",
   "status": "proved",
   "theorems": [
    "Olecf.Props.C80_appended_data",
    "Olecf.Props.C80_written_appended"
   ],
   "note": "For files that store a document as the specification of layouts says (FileHolds), and for the files of the model writer. Contract: libbfio reads the bytes of the range."
  },
  {
   "property": "C81",
   "status": "partial",
   "theorems": [
    "Olecf.Props.C81_harmless_partial",
    "Olecf.Props.C81_no_effect_violated"
   ],
   "note": "Violated: the flag is never read, so a signal has no effect on any activity. Proved: it is harmless in every history."
  },
  {
   "property": "C82",
   "status": "partial",
   "theorems": [
    "Olecf.Props.C82_command_line_partial",
    "Olecf.Props.C82_refused_partial",
    "Olecf.Props.C82_safe_partial",
    "Olecf.Props.C82_dash_violated",
    "Olecf.Props.C82_long_violated",
    "Olecf.Props.C82_shown_violated"
   ],
   "note": "Violated: the operand - is undefined behaviour, --word is taken for --, and for an unknown option with something behind it the message names the argument before. Proved for all other command lines. This code is compiled where the platform has no getopt; messages of olecftools_getopt itself are left out."
  },
  {
   "property": "C83",
   "status": "partial",
   "theorems": [
    "Olecf.Props.C83_document_partial",
    "Olecf.Props.C83_unopened",
    "Olecf.Props.C83_no_source",
    "Olecf.Props.C83_codepage_ignored",
    "Olecf.Props.C83_codepage_violated"
   ],
   "note": "Violated: the code page of -c is ignored. Proved for command lines that ask for windows-1252, the default; sources that cannot be opened in full. Contracts: libuna and the libraries of C78, libclocale for the names of code pages. Standard output without the version banner."
  },
  {
   "property": "C84",
   "status": "proved",
   "theorems": [
    "Olecf.Props.C84_document",
    "Olecf.Props.C84_stays_inside",
    "Olecf.Props.C84_refused",
    "Olecf.Props.C84_nothing_asked",
    "Olecf.Props.C84_path"
   ],
   "note": "The image under the conditions of C61 (Unicode names whose sanitized forms differ). The log file of -l, stdout and stderr are not modelled."
  },
  {
   "property": "C85",
   "status": "proved",
   "theorems": [
    "Olecf.Props.C85_document",
    "Olecf.Props.C85_refused",
    "Olecf.Props.C85_success",
    "Olecf.Props.C85_no_mount"
   ],
   "note": "Contracts: libuna (IsLibuna and UTF-8 encoding), libfuse calls fail or work, requests come one after the other (C63). Stored by the writer of the specification, with times that fit in 64 bits of nanoseconds (1678 to 2261); other times see C65, C66. Names with a backslash, . and .. are excluded: C43, C44."
  },
  {
   "property": "C86",
   "status": "partial",
   "theorems": [
    "Olecf.Props.C86_open_partial",
    "Olecf.Props.C86_open_object",
    "Olecf.Props.C86_close",
    "Olecf.Props.C86_two_states",
    "Olecf.Props.C86_free",
    "Olecf.Props.C86_shown",
    "Olecf.Props.C86_document",
    "Olecf.Props.C86_nul_violated",
    "Olecf.Props.C86_init_violated"
   ],
   "note": "Violated: a name with a null character opens the file of the part before it, and a second __init__ of an open object loses the file and its handle. Everything else is proved for all histories. Contracts: the UTF-8 codec of CPython (IsPyCodec, with an instance), libbfio by its failures."
  },
  {
   "property": "C87",
   "status": "partial",
   "theorems": [
    "Olecf.Props.C87_set",
    "Olecf.Props.C87_assign_partial",
    "Olecf.Props.C87_get",
    "Olecf.Props.C87_assign_read",
    "Olecf.Props.C87_history",
    "Olecf.Props.C87_delete_violated",
    "Olecf.Props.C87_nul_violated",
    "Olecf.Props.C87_set_read_violated"
   ],
   "note": "Violated: del file.ascii_codepage passes a null pointer on, an assignment ignores what follows a null character, and set_ascii_codepage refuses the bytes that get_ascii_codepage returns. Everything else is proved for all histories. Contract: libclocale knows the names of the supported pages (KnowsPages)."
  },
  {
   "property": "C88",
   "status": "partial",
   "theorems": [
    "Olecf.Props.C88_document_partial",
    "Olecf.Props.C88_from_object_partial"
   ],
   "note": "Streams below 2 GiB: larger ones cannot be read without a size (C70_large_stream_violated). Everything else is proved after every history of calls, for documents with Unicode names stored by the writer of the specification."
  },
  {
   "property": "C89",
   "status": "partial",
   "theorems": [
    "Olecf.Props.C89_set_at_path_partial",
    "Olecf.Props.C89_summary_partial",
    "Olecf.Props.C89_no_data_violated"
   ],
   "note": "Sets in little endian with less than 65536 sections (C38), times not on 31 December 1699 (C68). Violated: data of a property without data raises an exception instead of returning None. Contracts: texts of libfvalue and libfguid (IsInfoLibs), the datetime constructor (IsPython)."
  },
  {
   "property": "C90",
   "status": "partial",
   "theorems": [
    "Olecf.Props.C90_check_partial",
    "Olecf.Props.C90_check_object",
    "Olecf.Props.C90_opened_passes",
    "Olecf.Props.C90_nul_violated"
   ],
   "note": "Violated: of a name with a null byte the part before it is checked. Proved for all other names and all file objects."
  },
  {
   "property": "C91",
   "status": "partial",
   "theorems": [
    "Olecf.Props.C91_times",
    "Olecf.Props.C91_times_by_path",
    "Olecf.Props.C91_mounted_times",
    "Olecf.Props.C91_python_times_partial",
    "Olecf.Props.C85_document"
   ],
   "note": "Library: in full. Mounted: times from 1970 on (C65, C54), within the years that fit in 64 bits. Python: a datetime of 31 December 1699 is refused (C68). The writer of Spec/Encode.lean now takes all fields of header and entries that do not carry the hierarchy as parameters."
  },
  {
   "property": "C92",
   "status": "partial",
   "theorems": [
    "Olecf.Props.C92_no_bad_free",
    "Olecf.Props.C92_set_is_freed",
    "Olecf.Props.C92_same_outcome",
    "Olecf.Props.C92_failure_partial",
    "Olecf.Props.C92_failure_violated",
    "Olecf.Props.C92_unbounded_violated"
   ],
   "note": "Violated: every stream with the header of a property set that cannot be read as one loses the section at which the read failed, at each read. Proved: nothing is freed twice or used after it was freed, sets that were read are freed entirely, and a failed read keeps at most one section. Objects of libcdata and libfvalue count as one block each."
  },
  {
   "property": "C93",
   "status": "proved",
   "theorems": [
    "Olecf.Props.C93_history",
    "Olecf.Props.C93_only_new_fails",
    "Olecf.Props.C93_life",
    "Olecf.Props.C93_same_outcome"
   ],
   "note": "All histories of open (handle or name), close, set code page, signal abort and changes of handles by the caller. Objects of libcdata, libbfio and libcerror: a list element, tree node, range list and handle count as one block each; error objects are not counted. Items are not part of it."
  },
  {
   "property": "C94",
   "status": "partial",
   "theorems": [
    "Olecf.Props.C94_content_partial",
    "Olecf.Props.C94_name_partial",
    "Olecf.Props.C94_content_violated"
   ],
   "note": "Violated: the readers of the sector table and the short sector table report success when an allocation fails (on_error returns 1), so that a file opens with a table of zeros and the bytes of short streams are wrong. Proved: everything else an open loads is as with memory."
  },
  {
   "property": "C95",
   "status": "proved",
   "theorems": [
    "Olecf.Props.C95_safe",
    "Olecf.Props.C95_life",
    "Olecf.Props.C95_order",
    "Olecf.Props.C95_same_answers",
    "Olecf.Props.C95_use_after_close"
   ],
   "note": "All programs of file calls, look-ups, item and stream calls. Nodes of libcdata count as one block each. C95_order gives a syntactic condition for the rule; C95_use_after_close shows that it is needed."
  },
  {
   "property": "C96",
   "status": "proved",
   "theorems": [
    "Olecf.Props.C96_honest"
   ],
   "note": "Stated for any step after any careful program, so for every reply of it. Calls on the file object are C93 and C94."
  },
  {
   "property": "C97",
   "status": "partial",
   "theorems": [
    "Olecf.Props.C97_defined_partial"
   ],
   "note": "Conditions: reads need short sectors of at least 4 bytes, seeks a sum in the range of off64_t. Without them the claim is false: C50_counter_overflow_violated, C30_seek_overflow_violated."
  },
  {
   "property": "C98",
   "status": "partial",
   "theorems": [
    "Olecf.Props.C98_safe",
    "Olecf.Props.C98_life",
    "Olecf.Props.C98_order",
    "Olecf.Props.C98_same_answers",
    "Olecf.Props.C98_use_after_free",
    "Olecf.Props.C98_leak_violated",
    "Olecf.Props.C98_document_leak_violated"
   ],
   "note": "Violated: a set that cannot be read though its stream has the header of one loses a section, with memory for every request (C92); C98_document_leak_violated shows it from the bytes of a document to the end of the program. Proved: everything else, for all programs that follow the rule; C98_order gives a syntactic condition for it, C98_use_after_free shows that it is needed."
  },
  {
   "property": "C99",
   "status": "partial",
   "theorems": [
    "Olecf.Props.C99_honest",
    "Olecf.Props.C99_defined_partial"
   ],
   "note": "C99_honest in full. C99_defined_partial: requests for a set need short sectors of at least 4 bytes (C50_counter_overflow_violated). Calls on the file object are C93 and C94, those on items C96 and C97."
  }
 ]
}