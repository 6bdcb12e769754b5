{"id": "C01", "title": "Header acceptance is exact", "statement": "Opening a file gets past its 512-byte header if and only if 512 bytes can be read at offset 0, they start with one of the two known signatures, the byte order mark is FE FF or FF FE, and both the sector size and the short sector size exponents are at most 15. Every other input is rejected with an error.", "quantifier": "all byte strings of any length offered as a file header, and every I/O failure of the underlying handle", "why_tests_cant": "2^4096 headers; a test samples a handful of corruptions", "anchors": ["libolecf/libolecf_file_header.c: libolecf_file_header_read_data, libolecf_file_header_read_file_io_handle"]}
{"id": "C02", "title": "Header fields survive in either byte order", "statement": "For every choice of field values, a header serialised in little-endian or big-endian order is parsed back to exactly those field values (versions, exponents, counts, start sectors, cutoff, the 109 table sectors). The two serialisations of the same values give the same parse result apart from the recorded byte order.", "quantifier": "all field values, both byte orders", "why_tests_cant": "needs every field value, and the property that no field influences another", "anchors": ["libolecf/libolecf_file_header.c: libolecf_file_header_read_data", "libolecf/olecf_file_header.h"]}
{"id": "C03", "title": "Reported sector sizes are powers of two between 1 and 32768", "statement": "After any successful open the sector size and short sector size returned by the getters are 2^k with k<=15, so the divisions and chain arithmetic made with them never divide by zero and never overflow 64-bit file offsets.", "quantifier": "all files that open successfully", "why_tests_cant": "must hold for every accepted file", "anchors": ["libolecf/libolecf_file_header.c: libolecf_file_header_read_data", "libolecf/libolecf_file.c: libolecf_file_get_sector_size, libolecf_file_get_short_sector_size"]}
{"id": "C04", "title": "Signature check agrees with open", "statement": "libolecf_check_file_signature_file_io_handle returns 1 exactly for files whose first eight bytes are one of the two signatures, 0 for other files of at least eight bytes and -1 when eight bytes cannot be read. Every file that can be opened passes the check. The handle is left open if and only if it was open before the call.", "quantifier": "all file contents, both initial handle states, every open/read/close failure", "why_tests_cant": "quantifies over all contents and all failure points of the handle", "anchors": ["libolecf/libolecf_support.c: libolecf_check_file_signature_file_io_handle"]}
{"id": "C05", "title": "Allocation table resize keeps what it had", "statement": "Resizing an allocation table never changes an existing entry, makes new entries zero, never shrinks the table, and fails without changing it when the request is negative or above the allocation limit. A lookup succeeds exactly for indices 0..n-1 and returns the last value stored there, after every history of resizes and stores.", "quantifier": "all tables, all resize/store/lookup histories", "why_tests_cant": "histories of unbounded length", "anchors": ["libolecf/libolecf_allocation_table.c: libolecf_allocation_table_initialize, libolecf_allocation_table_resize, libolecf_allocation_table_get_sector_identifier_by_index"]}
{"id": "C06", "title": "Reading allocation tables never writes out of bounds", "statement": "Whatever the file contains and however reads fail, loading the master table, the sector table and the short sector table never stores outside the table arrays and never reads outside the sector buffer.", "quantifier": "all file contents, all header values, all I/O failures", "why_tests_cant": "absence of memory errors for adversarial input cannot be sampled", "anchors": ["libolecf/libolecf_io_handle.c: libolecf_io_handle_read_msat, libolecf_io_handle_read_sat, libolecf_io_handle_read_ssat"]}
{"id": "C07", "title": "Reading allocation tables terminates in a bounded number of reads", "statement": "Loading the master table performs at most 257 sector reads, the short sector table at most 257, and the sector table at most one per master table entry, even when the sector chains are cyclic.", "quantifier": "all file contents including cyclic chains", "why_tests_cant": "termination on all cyclic inputs", "anchors": ["libolecf/libolecf_io_handle.c: libolecf_io_handle_read_msat, libolecf_io_handle_read_ssat, libolecf_io_handle_read_sat"]}
{"id": "C08", "title": "Master table content is exact", "statement": "When the extra master table sectors form a readable chain, the loaded master table is the 109 header entries followed by, for each chain sector in order, all its entries except the last (the link).", "quantifier": "all well formed chains of any length within the supported depth", "why_tests_cant": "all chain lengths, all placements", "anchors": ["libolecf/libolecf_io_handle.c: libolecf_io_handle_read_msat"]}
{"id": "C09", "title": "Sector table content is exact", "statement": "When the listed table sectors can be read, the loaded sector table is the concatenation of the sectors named by the used master table entries in order, cut at the number of table sectors the header declares, zero beyond what is listed.", "quantifier": "all master tables, all file contents", "why_tests_cant": "all placements of table sectors", "anchors": ["libolecf/libolecf_io_handle.c: libolecf_io_handle_read_sat"]}
{"id": "C10", "title": "Short sector table content is exact", "statement": "When the chain of short sector table sectors is readable, the loaded short sector table is the concatenation of those sectors in chain order, cut at the declared number of sectors.", "quantifier": "all file contents, all chains within the supported depth of 257 sectors (see C49)", "why_tests_cant": "all placements", "anchors": ["libolecf/libolecf_io_handle.c: libolecf_io_handle_read_ssat"]}
{"id": "C11", "title": "An unreadable allocation table sector is reported", "statement": "Opening a file reports an error if one of the sectors of its sector allocation table (or short sector allocation table) cannot be read.", "quantifier": "all files, all read failures", "why_tests_cant": "every failing position", "anchors": ["libolecf/libolecf_io_handle.c: libolecf_io_handle_read_sat (on_error), libolecf_io_handle_read_ssat (on_error)"]}
{"id": "C12", "title": "Directory entry decoding is exact", "statement": "Decoding a 128-byte directory entry returns the values that were serialised in it (name bytes, type, links, times, start sector, size) in either byte order; entries of type empty are skipped; entries whose name size field exceeds 128 are rejected; decoding never reads outside the 128 bytes.", "quantifier": "all 128-byte entries, both byte orders", "why_tests_cant": "all field values", "anchors": ["libolecf/libolecf_directory_entry.c: libolecf_directory_entry_read_data"]}
{"id": "C13", "title": "Directory identifiers are positions", "statement": "After reading the directory, each item's identifier is its position counted over all 128-byte slots of the directory stream (empty ones included), no identifier occurs twice, identifiers appear in increasing order, and looking up an identifier finds the entry stored at that position or reports it as absent.", "quantifier": "all files, all directory lengths", "why_tests_cant": "all directory contents", "anchors": ["libolecf/libolecf_io_handle.c: libolecf_io_handle_read_directory_entries", "libolecf/libolecf_directory_list.c: libolecf_directory_list_get_element_by_identifier"]}
{"id": "C14", "title": "Directory reading terminates and reads no sector twice", "statement": "The directory chain is followed for at most 1025 sectors, no sector is read twice even when the chain is cyclic, and on any error the directory list is left empty.", "quantifier": "all files including cyclic directory chains, all read failures", "why_tests_cant": "termination and clean-up for all inputs and failure points", "anchors": ["libolecf/libolecf_io_handle.c: libolecf_io_handle_read_directory_entries"]}
{"id": "C15", "title": "Directory content is exact", "statement": "When the directory chain is readable and ends properly, the directory list is exactly the decoded non-empty 128-byte slots of the concatenated directory sectors, in order.", "quantifier": "all directory chains and contents", "why_tests_cant": "all sizes and placements", "anchors": ["libolecf/libolecf_io_handle.c: libolecf_io_handle_read_directory_entries"]}
{"id": "C16", "title": "No item appears twice in the hierarchy", "statement": "In the item hierarchy built by a successful open every directory entry occurs at most once, and all entries come from the directory.", "quantifier": "all directory lists, including cyclic and shared links", "why_tests_cant": "all graphs of links", "anchors": ["libolecf/libolecf_directory_tree.c: libolecf_directory_tree_create, libolecf_directory_tree_create_leaf_nodes_from_entry / process_entry"]}
{"id": "C17", "title": "Building the hierarchy terminates; cyclic or shared links are rejected", "statement": "Building the hierarchy always terminates, with recursion depth at most the number of directory entries plus one; if following the links would reach an entry a second time the file is rejected.", "quantifier": "all link graphs", "why_tests_cant": "termination on all graphs", "anchors": ["libolecf/libolecf_directory_tree.c"]}
{"id": "C18", "title": "The sub items of an item are exactly the entries linked under it", "statement": "After a successful open the sub items of a storage are exactly the entries reachable from its sub link by following sibling (previous/next) links, without going through another sub link.", "quantifier": "all directory lists that are accepted", "why_tests_cant": "all link structures", "anchors": ["libolecf/libolecf_directory_tree.c", "libolecf/libolecf_item.c: libolecf_item_get_number_of_sub_items, libolecf_item_get_sub_item"]}
{"id": "C19", "title": "Sub items are enumerated in increasing identifier order", "statement": "For every item the sub items enumerated by index come in strictly increasing directory identifier order, independent of the order of the links in the file.", "quantifier": "all accepted files", "why_tests_cant": "all link structures", "anchors": ["libolecf/libolecf_directory_tree.c", "libolecf/libolecf_directory_entry.c: libolecf_directory_entry_compare", "libolecf/libolecf_item.c: libolecf_item_get_sub_item"]}
{"id": "C20", "title": "A well formed directory is accepted", "statement": "If the links of the directory form a forest with all targets present (and a root storage exists), building the hierarchy succeeds.", "quantifier": "all well formed directories", "why_tests_cant": "all sizes and shapes", "anchors": ["libolecf/libolecf_directory_tree.c"]}
{"id": "C21", "title": "Lookup by name finds the first match or reports absence", "statement": "Looking up a sub item by name returns the first sub item in enumeration order whose name equals the given one, returns 0 if and only if no sub item has that name, and never returns an item of another parent.", "quantifier": "all items, all names", "why_tests_cant": "all names and hierarchies", "anchors": ["libolecf/libolecf_item.c: libolecf_item_get_sub_item_by_utf8_name, libolecf_item_get_sub_item_by_utf16_name", "libolecf/libolecf_directory_tree.c: libolecf_directory_tree_get_sub_node_by_utf8_name"]}
{"id": "C22", "title": "Lookup by path is iterated lookup by name", "statement": "Looking up a path gives the result of looking up its backslash separated components one after another from the starting item; an optional leading separator is ignored; a missing component gives 0.", "quantifier": "all hierarchies, all paths", "why_tests_cant": "all paths and depths", "anchors": ["libolecf/libolecf_file.c: libolecf_file_get_item_by_utf8_path", "libolecf/libolecf_item.c: libolecf_item_get_sub_item_by_utf8_path"]}
{"id": "C23", "title": "Stream reads return the stream's bytes", "statement": "A successful read on a stream returns exactly the bytes of the stream's content at the current offset, where the content is the concatenation of the (short) sectors of its chain.", "quantifier": "all files, streams, offsets and sizes", "why_tests_cant": "all chains, offsets and sizes", "anchors": ["libolecf/libolecf_stream.c: libolecf_stream_read_buffer", "libolecf/libolecf_io_handle.c: libolecf_io_handle_read_stream"]}
{"id": "C24", "title": "A readable stream can be read", "statement": "If the chain of a stream covers the declared size and its sectors (and those of the short stream container) are readable, then every read succeeds.", "quantifier": "all well formed streams, offsets and sizes", "why_tests_cant": "all chains", "anchors": ["libolecf/libolecf_io_handle.c: libolecf_io_handle_read_stream"]}
{"id": "C25", "title": "Read counts are clamped to what is left", "statement": "A successful read returns min(requested, size - offset) bytes, 0 at or beyond the end, and never more than requested; it never writes more than the returned number of bytes into the buffer.", "quantifier": "all items, offsets and sizes", "why_tests_cant": "all offsets and sizes incl. extremes of the integer types", "anchors": ["libolecf/libolecf_stream.c: libolecf_stream_read_buffer"]}
{"id": "C26", "title": "The offset advances by exactly the bytes read, and not at all on error", "statement": "After a successful read the current offset is increased by the returned count; after a failed read it is unchanged (for a read at a given offset: it is the requested offset).", "quantifier": "all operation histories", "why_tests_cant": "every failure point in every history", "anchors": ["libolecf/libolecf_stream.c", "libolecf/libolecf_io_handle.c: libolecf_io_handle_read_stream"]}
{"id": "C27", "title": "Reading in pieces equals reading at once", "statement": "Any sequence of successful reads, whatever their sizes, returns data whose concatenation is what a single read of the total size returns.", "quantifier": "all sequences of read sizes", "why_tests_cant": "unbounded sequences", "anchors": ["libolecf/libolecf_stream.c: libolecf_stream_read_buffer"]}
{"id": "C28", "title": "Reads at an offset do not depend on history", "statement": "The result of a read at a given offset is the same after every history of seeks and reads on that item and on other items of the same file.", "quantifier": "all histories of operations on any number of items", "why_tests_cant": "unbounded histories and interleavings", "anchors": ["libolecf/libolecf_stream.c: libolecf_stream_read_buffer_at_offset"]}
{"id": "C29", "title": "Seek semantics", "statement": "Seeking sets the offset to the requested position relative to start, current position or end and returns it; a negative result or unknown origin fails and leaves the offset unchanged. The current offset is never negative in any reachable state.", "quantifier": "all offsets, origins and histories", "why_tests_cant": "all histories; 64-bit extremes", "anchors": ["libolecf/libolecf_stream.c: libolecf_stream_seek_offset, libolecf_stream_get_offset"]}
{"id": "C30", "title": "Seek never overflows", "statement": "Seeking never makes a signed 64-bit overflow.", "quantifier": "all offsets and states", "why_tests_cant": "extremes of the integer type in every reachable state", "anchors": ["libolecf/libolecf_stream.c: libolecf_stream_seek_offset"]}
{"id": "C31", "title": "Only streams can be read", "statement": "Reading, seeking or asking the offset of an item that is not a stream fails and changes nothing.", "quantifier": "all items and operations", "why_tests_cant": "all types", "anchors": ["libolecf/libolecf_stream.c"]}
{"id": "C32", "title": "Reads stay inside the stream's own sectors", "statement": "Every byte returned by a read comes from a position of the file that lies in a sector of that stream's chain (or, for a small stream, in a short sector of its chain inside the short stream container).", "quantifier": "all files, streams and reads", "why_tests_cant": "information-flow property over all inputs", "anchors": ["libolecf/libolecf_io_handle.c: libolecf_io_handle_read_stream"]}
{"id": "C33", "title": "Stream reads terminate on cyclic chains", "statement": "A read of n bytes terminates and performs at most n+1 device reads, even if the chain is cyclic; for a small stream the walk along the container chain is bounded by the short sector position.", "quantifier": "all chains, including cyclic", "why_tests_cant": "termination on all inputs", "anchors": ["libolecf/libolecf_io_handle.c: libolecf_io_handle_read_stream"]}
{"id": "C34", "title": "Open and close form a two-state machine", "statement": "A file object is open after a successful open and closed after a close or failed open; opening an open file and closing a closed file fail and change nothing; after close the file can be opened again and behaves as a new object.", "quantifier": "all histories of initialize/open/close", "why_tests_cant": "unbounded histories", "anchors": ["libolecf/libolecf_file.c: libolecf_file_open_file_io_handle, libolecf_file_close, libolecf_file_open_read"]}
{"id": "C35", "title": "File handles are closed exactly when the library opened them", "statement": "Over every history, the library closes a handle exactly as often as it opened it, never closes a handle the caller had opened, and after a close or failed open holds no handle it opened.", "quantifier": "all histories, all failure points inside open", "why_tests_cant": "resource balance over all histories and failures", "anchors": ["libolecf/libolecf_file.c: libolecf_file_open_file_io_handle, libolecf_file_close"]}
{"id": "C36", "title": "A failed open leaves the file object as if it had not been tried", "statement": "After a failed open all getters answer as before the attempt and a later open behaves like on a new object.", "quantifier": "all failing files and failure points", "why_tests_cant": "every failure point", "anchors": ["libolecf/libolecf_file.c: libolecf_file_open_read"]}
{"id": "C37", "title": "Code page setting", "statement": "Setting the code page succeeds exactly for the 15 supported values, a failed set changes nothing, the getter returns the last value set, and closing resets it to windows-1252.", "quantifier": "all integers, all histories", "why_tests_cant": "all histories", "anchors": ["libolecf/libolecf_file.c: libolecf_file_set_ascii_codepage, libolecf_file_get_ascii_codepage, libolecf_file_close", "libolecf/libolecf_io_handle.c: libolecf_io_handle_clear"]}
{"id": "C38", "title": "Property set reading is exact", "statement": "Reading a property set from a stream gives the class identifier and, for each section listed, its class identifier and its properties (identifier, type, data) as serialised, in either byte order.", "quantifier": "all property sets", "why_tests_cant": "all contents", "anchors": ["libolecf/libolecf_property_set.c", "libolecf/libolecf_property_section.c", "libolecf/libolecf_property_value.c"]}
{"id": "C39", "title": "Property values have the size of their type", "statement": "A property of a fixed size type carries exactly that number of data bytes following its type; a string property is cut after its first terminator; a variable size property carries the number of bytes it declares.", "quantifier": "all property streams", "why_tests_cant": "all types and contents", "anchors": ["libolecf/libolecf_property_value.c: libolecf_property_value_read_data"]}
{"id": "C40", "title": "Typed property getters check the type", "statement": "A typed getter succeeds only for a value of the corresponding type and returns the decoded bytes.", "quantifier": "all values and getters", "why_tests_cant": "all types and contents", "anchors": ["libolecf/libolecf_property_value.c: libolecf_property_value_get_data_as_*"]}
{"id": "C41", "title": "Property offsets stay inside the section", "statement": "Property data offsets of 8 or less are rejected and 32-bit offset arithmetic never wraps for an accepted property.", "quantifier": "all offsets", "why_tests_cant": "extremes of 32-bit arithmetic", "anchors": ["libolecf/libolecf_property_section.c: libolecf_property_section_read", "libolecf/libolecf_property_value.c: libolecf_property_value_read_data"]}
{"id": "C42", "title": "Mounted names round trip", "statement": "Converting the name of an item to a mounted file name and the path made of it back to an item path gives the original name.", "quantifier": "all names", "why_tests_cant": "all code point sequences", "anchors": ["olecftools/mount_path_string.c: mount_path_string_copy_from_item_path, mount_path_string_copy_to_item_path"]}
{"id": "C43", "title": "Mounted names are valid and distinct file names", "statement": "The mounted file name of an item contains no path separator, no NUL and no control character, is not . or .., and different item names give different mounted names.", "quantifier": "all names", "why_tests_cant": "all code point sequences; injectivity is a property of pairs", "anchors": ["olecftools/mount_path_string.c: mount_path_string_copy_from_item_path"]}
{"id": "C44", "title": "Every mounted item can be opened by its mounted path", "statement": "Looking up the path made of the mounted names from the root to an item gives that item (if no sibling has the same name).", "quantifier": "all hierarchies", "why_tests_cant": "all hierarchies and names", "anchors": ["olecftools/mount_file_system.c: mount_file_system_get_item_by_path, mount_file_system_get_filename_from_item"]}
{"id": "C45", "title": "Export writes the whole stream", "statement": "Exporting a stream writes exactly its content to the data file; if a read fails the export of that item reports an error.", "quantifier": "all streams", "why_tests_cant": "all sizes relative to the buffer size, all failure points", "anchors": ["olecftools/export_handle.c: export_handle_export_item"]}
{"id": "C46", "title": "Export fallback name stays inside its buffer", "statement": "When the export path exists already the tool writes the fallback name ItemNNNNN without writing outside the name buffer.", "quantifier": "all item names and indices", "why_tests_cant": "all name lengths", "anchors": ["olecftools/export_handle.c: export_handle_export_item"]}
{"id": "C47", "title": "Well formed files open to the hierarchy they encode", "statement": "A file laid out according to the format (header, tables, directory, streams, at any sector placement and size) opens successfully, and the hierarchy, the names, and the stream contents obtained through the API are those that were laid out.", "quantifier": "all logical file systems and all layouts of them", "why_tests_cant": "end-to-end correctness over all files", "anchors": ["libolecf/libolecf_file.c: libolecf_file_open_read", "libolecf/libolecf_io_handle.c", "libolecf/libolecf_directory_tree.c", "libolecf/libolecf_stream.c"]}
{"id": "C48", "title": "Opening and reading never changes the file", "statement": "Results of operations are a function of the file's bytes: two item handles on the same entry return the same data, and operations on one item never change what another returns.", "quantifier": "all histories of operations over any number of items", "why_tests_cant": "interleavings", "anchors": ["libolecf/libolecf_item.c", "libolecf/libolecf_stream.c"]}
{"id": "C49", "title": "Short sector tables of any length are loaded whole", "statement": "When the chain of short sector table sectors is readable and as long as declared, every entry of every sector of the chain is loaded, however long the chain, or opening reports an error.", "quantifier": "all chain lengths", "why_tests_cant": "needs files with more than 257 short sector table sectors, all placements", "anchors": ["libolecf/libolecf_io_handle.c: libolecf_io_handle_read_ssat"]}
{"id": "C50", "title": "Reading a stream has no undefined behaviour", "statement": "Reading from a stream of an opened file, at any offset and with any size, never makes a signed overflow, a division by zero or an access outside of the user's buffer.", "quantifier": "all files that can be opened, streams, offsets and sizes", "why_tests_cant": "undefined behaviour shows only for extreme sizes and cyclic chains, and is silent", "anchors": ["libolecf/libolecf_io_handle.c: libolecf_io_handle_read_stream", "libolecf/libolecf_stream.c: libolecf_stream_read_buffer"]}
{"id": "C51", "title": "Every directory entry has exactly one owner", "statement": "When a hierarchy was made, the directory entries marked as part of it are exactly the entries of items that can be reached from the root item, and no entry belongs to two items; so every entry is freed exactly once: the unmarked ones at the end of the open, the others when the file is closed.", "quantifier": "all directories, however damaged", "why_tests_cant": "double frees and leaks depend on every possible link structure", "anchors": ["libolecf/libolecf_directory_tree.c: libolecf_directory_tree_create, libolecf_directory_tree_create_leaf_node", "libolecf/libolecf_directory_entry.c: libolecf_directory_entry_free_not_in_tree"]}
{"id": "C52", "title": "Opening any file is safe", "statement": "For every content of the file and every behaviour of the device, opening ends with success or a reported error after a bounded number of reads: no undefined behaviour and no endless loop. When it succeeds, the sector sizes, tables and directory entries are in the ranges that later calls rely on.", "quantifier": "all file contents, all devices", "why_tests_cant": "all inputs", "anchors": ["libolecf/libolecf_file.c: libolecf_file_open_read, libolecf_file_open_file_io_handle"]}
{"id": "C53", "title": "Reading a property set is safe for every stream", "statement": "Whatever bytes a stream contains and whatever the device does, reading a property set from it ends with a set or a reported error, without undefined behaviour; the result does not depend on the offset the stream had before; a stream that does not start with a byte order mark is refused.", "quantifier": "all stream contents, all devices, all previous offsets", "why_tests_cant": "all inputs: nested offsets and counts taken from the stream", "anchors": ["libolecf/libolecf_property_set.c: libolecf_property_set_read", "libolecf/libolecf_property_section.c: libolecf_property_section_read", "libolecf/libolecf_property_value.c: libolecf_property_value_read_data"]}
{"id": "C54", "title": "Mounted timestamps are those of the items", "statement": "The modification time that a mounted entry reports is the instant that the item's stored timestamp denotes.", "quantifier": "all 64-bit timestamps", "why_tests_cant": "all 2^64 values; wrong results only for early, late or negative ones", "anchors": ["olecftools/mount_file_entry.c: mount_file_entry_get_modification_time, mount_file_entry_get_creation_time"]}
{"id": "C55", "title": "A trailing separator does not change what a mounted path opens", "statement": "If a mounted path opens an entry, then the path followed by one separator opens the same entry.", "quantifier": "all paths", "why_tests_cant": "all paths and hierarchies", "anchors": ["olecftools/mount_handle.c: mount_handle_get_file_entry_by_path"]}
{"id": "C56", "title": "A mounted directory lists exactly the sub items", "statement": "A successful listing has one entry per sub item, in the order of enumeration, each with the mounted name of the item; the listing succeeds if every sub item has a mountable name; distinct item names are listed under distinct names.", "quantifier": "all hierarchies and all names", "why_tests_cant": "all numbers of sub items and all names", "anchors": ["olecftools/mount_fuse.c: mount_fuse_readdir", "olecftools/mount_file_entry.c: mount_file_entry_get_sub_file_entry_by_index", "olecftools/mount_file_system.c: mount_file_system_get_filename_from_item"]}
{"id": "C57", "title": "Mounted names and paths are converted safely", "statement": "Whatever the bytes of a name or of a requested path are, converting it, and looking the path up, ends with a result or a reported error, without reading or writing outside of the buffers.", "quantifier": "all byte strings", "why_tests_cant": "all inputs: buffer sizes are computed from the length of the input", "anchors": ["olecftools/mount_path_string.c: mount_path_string_copy_from_item_path, mount_path_string_copy_to_item_path", "olecftools/mount_handle.c: mount_handle_get_file_entry_by_path"]}
{"id": "C58", "title": "Export only adds, and only inside its directory", "statement": "Whatever the file contains and however the export ends, every file and directory that existed before is left as it was, and everything new is at or below the export directory (no item name leads out of it); an existing export directory is refused.", "quantifier": "all files, item names, file systems and failures of file system operations", "why_tests_cant": "all names (including . and ..), all hierarchies and all failure points", "anchors": ["olecftools/export_handle.c: export_handle_export_file", "olecftools/export_handle.c: export_handle_export_item"]}
{"id": "C59", "title": "Export is complete", "statement": "If the export succeeds every item of the hierarchy has a data file with its whole data, at the path made of the names of the item and its parents.", "quantifier": "all hierarchies", "why_tests_cant": "unbounded breadth and depth", "anchors": ["olecftools/export_handle.c: export_handle_export_item", "olecftools/export_handle.c: export_handle_export_sub_items"]}
{"id": "C60", "title": "Every document can be stored and read back", "statement": "Every hierarchy of named storages and streams within the limits of the format, written to a file as the format describes, is what the library shows: the file opens, and its root item has exactly this hierarchy with exactly this content. A file shows one document only, so two different documents never have the same file.", "quantifier": "all documents within the limits, both byte orders, all sector sizes from 512 to 32768 bytes, all limits between short and long streams, all states of the file object", "why_tests_cant": "a test suite has a finite number of files; nothing says that the reader understands every file the format allows for a document", "anchors": ["libolecf/libolecf_file.c: libolecf_file_open_file_io_handle", "libolecf/libolecf_io_handle.c: libolecf_io_handle_read_msat, libolecf_io_handle_read_sat, libolecf_io_handle_read_directory_entries, libolecf_io_handle_read_stream", "libolecf/libolecf_item.c: libolecf_item_get_sub_item", "documentation: OLE Compound File format"]}
{"id": "C61", "title": "An export is an image of the document", "statement": "Exporting a file that holds a document makes a directory hierarchy that is the document: for every storage and stream a directory at the path of its names, in it a data file with exactly the data of the stream (nothing for a storage), and nothing else; what was on the disk before is unchanged. Writing a document as the format describes and exporting it is the identity.", "quantifier": "all documents and all files that hold them, all previous states of the file object and of the disk; names that become distinct plain file names, no failing operation on the target", "why_tests_cant": "unbounded breadth, depth and sizes; composes all parts of the library with the tool", "anchors": ["olecftools/export_handle.c: export_handle_export_file, export_handle_export_item", "libolecf/libolecf_file.c: libolecf_file_open_file_io_handle", "libolecf/libolecf_stream.c: libolecf_stream_read_buffer"]}
{"id": "C62", "title": "A mounted file system is the document", "statement": "Mounting a file that holds a document presents the document: every storage is a directory, its listing has exactly the mounted names of its parts, each with the attributes that the path of the part has; every stream is a file of its size that opens for reading and gives exactly its data at every offset; whatever path can be opened, the data is that of a part; nothing opens for writing. Writing a document as the format describes and mounting it is the identity.", "quantifier": "all documents and all files that hold them, all previous states of the file object, all paths, sizes and offsets; names without NUL and backslash that are not . or .. and that libuna can convert and tell apart, modification times from 1678 to 2261", "why_tests_cant": "unbounded breadth, depth and sizes, all paths; composes all parts of the library with the tool", "anchors": ["olecftools/mount_fuse.c: mount_fuse_open, mount_fuse_read, mount_fuse_opendir, mount_fuse_readdir, mount_fuse_getattr", "olecftools/mount_file_system.c: mount_file_system_get_item_by_path", "olecftools/mount_file_entry.c"]}
{"id": "C63", "title": "Requests to a mount do not influence each other", "statement": "A read from an open file, and the listing of an open directory, gives the same answer whatever happened before it was opened and whatever was done afterwards with this and other files, up to its release.", "quantifier": "all histories of requests, any number of open files", "why_tests_cant": "histories are unbounded; state is shared through the item's current offset", "anchors": ["olecftools/mount_fuse.c: mount_fuse_open, mount_fuse_read, mount_fuse_release, mount_fuse_opendir, mount_fuse_readdir, mount_fuse_releasedir", "olecftools/mount_file_entry.c: mount_file_entry_read_buffer_at_offset"]}
{"id": "C64", "title": "A mount keeps in memory only what is open", "statement": "After every history of requests the file entries in memory are those of the open files and directories: what was opened and released is freed.", "quantifier": "all histories of requests", "why_tests_cant": "leaks show only over unbounded histories", "anchors": ["olecftools/mount_fuse.c: mount_fuse_open, mount_fuse_release, mount_fuse_opendir, mount_fuse_releasedir"]}
{"id": "C65", "title": "The attributes of mounted files are those of the items", "statement": "The attributes of a path are those of the item it leads to: size, directory or file, no write permission, the mount time as time of access and change, and the time of modification as a valid time (nanoseconds from 0 to 999999999) that is the stored instant, or its full second where the platform has no fractions.", "quantifier": "all paths, items and stored times", "why_tests_cant": "all 64-bit times; boundary at 1970", "anchors": ["olecftools/mount_fuse.c: mount_fuse_set_stat_info, mount_fuse_getattr", "olecftools/mount_file_entry.c: mount_file_entry_get_modification_time, mount_file_entry_get_file_mode, mount_file_entry_get_size"]}
{"id": "C66", "title": "Every request to a mount is answered", "statement": "Whatever file could be opened and mounted and whatever requests came before, each request on any path or handle, with any size and offset, ends with a result or an error number: no undefined behaviour and no endless loop.", "quantifier": "all files that can be opened, all histories, all paths, sizes and offsets", "why_tests_cant": "adversarial files and request sequences", "anchors": ["olecftools/mount_fuse.c: mount_fuse_open, mount_fuse_read, mount_fuse_readdir, mount_fuse_getattr", "olecftools/mount_file_entry.c: mount_file_entry_get_modification_time"]}
{"id": "C67", "title": "A stored property set is the one read", "statement": "If a property set (little endian, less than 65536 sections) is written into a stream of a document, as the format describes, and the document into a file, then opening the file, finding the item by the names on the path to the stream and reading the property set from it gives the same class identifier, sections, property identifiers, types and data; two different property sets never have the same bytes.", "quantifier": "all property sets and documents within the limits of the format, all paths, all earlier uses of the file object", "why_tests_cant": "all sets, all value types, all placements and fragmentations of the stream", "anchors": ["libolecf/libolecf_property_set.c: libolecf_property_set_read", "libolecf/libolecf_property_section.c: libolecf_property_section_read_list_entry", "libolecf/libolecf_property_value.c: libolecf_property_value_read_list_entry, libolecf_property_value_read_data", "libolecf/libolecf_property_set_stream.c: libolecf_property_set_stream_get_set", "libolecf/libolecf_file.c: libolecf_file_open_file_io_handle"]}
{"id": "C68", "title": "A FILETIME becomes the right Python datetime", "statement": "The datetime object that the Python bindings make of a FILETIME (item times, property values) is the existing calendar date and time of the same instant to the microsecond; instants from the year 10000 on raise an exception; no FILETIME gives a datetime of another instant, and none hangs. In full the property says that every FILETIME before the year 10000 has a datetime.", "quantifier": "all 2^64 FILETIME values", "why_tests_cant": "the result depends on century, leap year and month boundaries over 58000 years of values", "anchors": ["pyolecf/pyolecf_datetime.c: pyolecf_datetime_new_from_filetime, pyolecf_datetime_new_from_time_elements"]}
{"id": "C69", "title": "Python sequences show every element once and stay usable", "statement": "The sequences of sub items, sections and properties answer len, indexing and next() according to the elements of the underlying object in order, after every history of calls: an index in range gives that element, an index out of range raises, a loop over a sequence sees each element once and ends. In full the property says that this holds for every loop over the sequence.", "quantifier": "all sequences, all histories of len, index, next and loops on one sequence object", "why_tests_cant": "the answers depend on the whole history of calls on a stateful object", "anchors": ["pyolecf/pyolecf_items.c: pyolecf_items_getitem, pyolecf_items_iternext", "pyolecf/pyolecf_property_sections.c", "pyolecf/pyolecf_property_values.c"]}
{"id": "C70", "title": "A Python program sees the document", "statement": "A program that walks an opened file with loops over sub items and reads each stream with one read() sees exactly the stored document; read(n) gives the next n bytes (fewer at the end), read without size all remaining bytes; sizes that are negative, 2 GiB or more or no integers raise and move nothing.", "quantifier": "all stored documents, all offsets, all sizes and kinds of arguments", "why_tests_cant": "all documents and all argument values; large streams are not in test corpora", "anchors": ["pyolecf/pyolecf_stream.c: pyolecf_stream_read_buffer, pyolecf_stream_read_buffer_at_offset", "pyolecf/pyolecf_integer.c: pyolecf_integer_unsigned_copy_to_64bit", "pyolecf/pyolecf_item.c: pyolecf_item_get_sub_item_by_index", "pyolecf/pyolecf_file.c: pyolecf_file_get_root_item"]}
{"id": "C71", "title": "The class of a Python item does not depend on the way to it", "statement": "The same item of the file is an object of the same class (item, stream, property set stream) whether it was asked of the file by a path or of another item by index, name or path; summary information streams offer the property set.", "quantifier": "all items, all names, all ways to an item", "why_tests_cant": "all combinations of item and route", "anchors": ["pyolecf/pyolecf_file.c: pyolecf_file_get_item_type_object, pyolecf_file_get_item_by_path", "pyolecf/pyolecf_item.c: pyolecf_item_get_item_type_object, pyolecf_item_get_sub_item_by_name"]}
{"id": "C72", "title": "Integer, date and boolean values in Python are the stored ones", "statement": "get_data_as_integer() of a property gives the number whose bytes (two's complement for signed types, in the byte order of the set) are the stored data, for every 16, 32 and 64-bit value and FILETIME, and raises for other types; get_data_as_datetime() gives the instant of the stored FILETIME; get_data_as_boolean() whether the stored byte is not zero.", "quantifier": "all properties of all property sets, all values of the integer types", "why_tests_cant": "2^64 values per type; sign and width conversions go wrong at boundaries", "anchors": ["pyolecf/pyolecf_property_value.c: pyolecf_property_value_get_data_as_integer, pyolecf_property_value_get_data_as_datetime, pyolecf_property_value_get_data_as_boolean", "pyolecf/pyolecf_integer.c"]}
{"id": "C73", "title": "The format version is that of the header", "statement": "get_format_version() of an opened file gives the major and minor version number of its header as a string.", "quantifier": "all files that can be opened, all version numbers", "why_tests_cant": "all version numbers and headers", "anchors": ["pyolecf/pyolecf_file.c: pyolecf_file_get_format_version", "libolecf/libolecf_file.c: libolecf_file_get_format_version"]}
{"id": "C74", "title": "Python objects stay valid while they are held", "statement": "A Python program may drop its variables in any order: an item, sequence, property set, section or value it still holds stays usable, no memory is freed twice or used after it is freed, and once no variable holds an object, all memory of the library is freed.", "quantifier": "all programs: all sequences of opening, closing, obtaining objects from objects, copying and dropping references, and calls", "why_tests_cant": "the orders in which references die are unbounded in number; a use of freed memory usually looks right in a test", "anchors": ["pyolecf/pyolecf_item.c: pyolecf_item_new, pyolecf_item_free", "pyolecf/pyolecf_file.c: pyolecf_file_free, pyolecf_file_close", "pyolecf/pyolecf_property_set.c", "pyolecf/pyolecf_property_section.c", "pyolecf/pyolecf_property_value.c", "libolecf/libolecf_item.c: libolecf_item_initialize, libolecf_item_free"]}
{"id": "C75", "title": "A file object is read like a file", "statement": "A file opened with open_file_object() gives the same bytes for every read as a file with the content of the object, whatever position the object had, and asking for its size leaves the position as it was; an object that misbehaves leads to an exception, not to memory corruption.", "quantifier": "all file objects: all behaviours of read, seek, tell, get_offset and get_size; all sequences of reads", "why_tests_cant": "the behaviour of the object is code of the user; the position is state shared with it", "anchors": ["pyolecf/pyolecf_file_object_io_handle.c: pyolecf_file_object_read_buffer, pyolecf_file_object_seek_offset, pyolecf_file_object_get_offset, pyolecf_file_object_io_handle_get_size"]}
{"id": "C76", "title": "Names and paths are Unicode strings", "statement": "In a file that stores a document whose names are Unicode strings, every part is found by its path, given in UTF-8 or in UTF-16, and it is the part stored there, with its data; its name is given back in UTF-8 and UTF-16 exactly, with the size announced, or an error when the buffer is too small; a path that leads to no part finds nothing.", "quantifier": "all documents within the limits of the format, all names (strings of Unicode characters, including those outside the basic plane), both byte orders, all paths of any depth, all buffer sizes, any earlier use of the file object", "why_tests_cant": "unbounded documents, names and depths; byte order and surrogates interact with the length arithmetic of the path loop", "anchors": ["libolecf/libolecf_file.c: libolecf_file_get_item_by_utf8_path, libolecf_file_get_item_by_utf16_path", "libolecf/libolecf_item.c: libolecf_item_get_utf8_name_size, libolecf_item_get_utf8_name, libolecf_item_get_utf16_name_size, libolecf_item_get_utf16_name", "libolecf/libolecf_directory_tree.c: libolecf_directory_tree_get_sub_node_by_utf8_name"]}
{"id": "C77", "title": "olecfinfo lists the hierarchy", "statement": "The list of storage and stream items that olecfinfo prints is the hierarchy of the file: one line per item, indented by its level, with its name and its size in bytes, sub items following their parent in their order; for a file that stores a document it is the document. The list can be read back: different hierarchies give different lists. The tool ends without undefined behaviour for every file, and fails only if it cannot print.", "quantifier": "all opened files, all hierarchies of any depth and width, all names and sizes, signed and unsigned char", "why_tests_cant": "unbounded hierarchies and names; that no two hierarchies share a list is a statement about pairs of files", "anchors": ["olecftools/info_handle.c: info_handle_items_fprint, info_handle_item_fprint", "libolecf/libolecf_item.c: libolecf_item_get_utf8_name_size, libolecf_item_get_utf8_name, libolecf_item_get_size, libolecf_item_get_number_of_sub_items, libolecf_item_get_sub_item"]}
{"id": "C78", "title": "olecfinfo shows the summary information", "statement": "For a file that stores a document, olecfinfo prints the version and the sector sizes of the file, the list of items, and the property sets of the summary information and the document summary information if the document has them: the class identifiers, the numbers of sections and properties, and for every property its identifier with its name, its type and its value, in the order of the set. Integers are shown in decimal with the sign of their type, booleans, strings in the encoding of their type and the code page of the file, times. What is printed can be read back: sets that differ in what is shown have different texts. A property that cannot be shown does not hide others. Whatever a stream contains, the printing is defined.", "quantifier": "all stored documents, all property sets with any number of sections and properties, all values, both byte orders of the set, all code pages, all conversions of strings", "why_tests_cant": "unbounded sets and values; that no two sets share a text is a statement about pairs of sets", "anchors": ["olecftools/info_handle.c: info_handle_file_fprint, info_handle_property_value_fprint, info_handle_property_section_fprint, info_handle_property_set_fprint, info_handle_property_set_stream_fprint, info_handle_summary_information_fprint, info_handle_document_summary_information_fprint", "olecftools/olecfinfo.c: main"]}
{"id": "C79", "title": "Unallocated blocks are the free sectors", "statement": "The unallocated blocks that the library reports of an opened file, which olecfinfo -a prints, cover exactly the bytes of the sectors in the file that the sector allocation table marks as free.", "quantifier": "all opened files, all sector tables, all byte positions", "why_tests_cant": "ranges over all files and positions; the blocks have to cover every free sector and nothing else", "anchors": ["libolecf/libolecf_file.c: libolecf_file_get_number_of_unallocated_blocks, libolecf_file_get_unallocated_block, libolecf_file_open_read", "olecftools/info_handle.c: info_handle_unallocated_blocks_fprint"]}
{"id": "C80", "title": "Data behind the last sector is ignored", "statement": "Data that is appended to a file does not change what the library shows: the file with it opens, and the items, their names, sizes, times and data are those of the document that the file stored before, byte for byte.", "quantifier": "all files that store a document, all appended data of any length", "why_tests_cant": "all documents and all appended byte sequences", "anchors": ["libolecf/libolecf_io_handle.c: libolecf_io_handle_read_msat, libolecf_io_handle_read_sat, libolecf_io_handle_read_ssat, libolecf_io_handle_read_directory_entries, libolecf_io_handle_read_stream", "libolecf/libolecf_file.c: libolecf_file_open_read"]}
{"id": "C81", "title": "Signalling an abort ends the activity and is harmless otherwise", "statement": "An abort that is signalled to a file object makes the activity that follows or is going on end with an error. It does no other harm: in every history of calls the outcomes of the calls, the file object and the handles are otherwise those of the history without the signals, and the file object can be closed and opened again.", "quantifier": "all histories of open, close, set code page and signals, with all failures of the handles", "why_tests_cant": "the signal can come at any point of any history", "anchors": ["libolecf/libolecf_file.c: libolecf_file_signal_abort, libolecf_file_open_file_io_handle, libolecf_file_close", "libolecf/libolecf_io_handle.h: abort"]}
{"id": "C82", "title": "The tools read their command line as the utility syntax says", "statement": "On platforms without getopt the tools take the options and operands of every command line as the POSIX utility syntax says: single letters behind a dash, grouped or not, option arguments attached or as the next argument, the last one of an option counts, -- ends the options, - is an operand. -h and -V take effect at once. A letter that is not an option, a missing option argument, a missing source or mount point is refused with a failure, and the message names the argument at fault. Nothing undefined happens and the program goes on or ends for every command line.", "quantifier": "all command lines: any number of arguments with any characters, for olecfexport, olecfinfo and olecfmount", "why_tests_cant": "unbounded command lines; all groupings and orders of options", "anchors": ["olecftools/olecftools_getopt.c: olecftools_getopt", "olecftools/olecfexport.c: main", "olecftools/olecfinfo.c: main", "olecftools/olecfmount.c: main"]}
{"id": "C83", "title": "olecfinfo shows the document from the command line on", "statement": "olecfinfo, called with a command line that names a source which stores a document, prints the information on the file, the tree of its items and the property sets in the code page that the command line asks for, and exits with success. For a source that cannot be opened it prints nothing on standard output and exits with failure.", "quantifier": "all command lines that ask for a source, all stored documents with all names and property sets, all other sources and failures of opening", "why_tests_cant": "all combinations of command lines, documents, code pages and failures", "anchors": ["olecftools/olecfinfo.c: main", "olecftools/info_handle.c: info_handle_initialize, info_handle_set_ascii_codepage, info_handle_open_input, info_handle_close_input"]}
{"id": "C84", "title": "olecfexport leaves an image of the document, and nothing else", "statement": "olecfexport, called with a command line that names a source which stores a document, makes the directory <target>.export with an image of the document and exits with success. The target is that of -t, or the last component of the source. Whatever the source contains and whichever operations fail, nothing outside of that directory is changed (but for the log file of -l) and nothing that existed is overwritten. An export to something that exists, without a target, or from a source that cannot be opened is refused and changes nothing.", "quantifier": "all command lines, all sources, all states of the file system, all failures of its operations", "why_tests_cant": "all sources including malicious ones, all file systems, all points of failure", "anchors": ["olecftools/olecfexport.c: main", "olecftools/export_handle.c: export_handle_initialize, export_handle_set_target_path, export_handle_create_items_export_path, export_handle_open_input, export_handle_export_file, export_handle_close"]}
{"id": "C85", "title": "olecfmount presents the document at the mount point", "statement": "olecfmount, called with a command line that names a source which stores a document and a mount point, mounts at that point a read-only file system that presents the document: directories for storages, files with the data for streams, under the names of the document in UTF-8 with control and other special characters escaped. It ends with success after the unmount. If the source cannot be opened or libfuse fails nothing is mounted and it ends with failure.", "quantifier": "all command lines with a source and a mount point, all stored documents whose names have no backslash and are not . or .., all other sources, all failures of libfuse", "why_tests_cant": "all combinations of command lines, documents with Unicode names and failures", "anchors": ["olecftools/olecfmount.c: main", "olecftools/mount_handle.c: mount_handle_initialize, mount_handle_open", "olecftools/mount_file_system.c: mount_file_system_set_file, mount_file_system_get_filename_from_item", "olecftools/mount_fuse.c"]}
{"id": "C86", "title": "A Python file object is open or closed, and shows what it was opened with", "statement": "A Python file object is in one of two states, whatever was called before: open after a successful open or open_file_object, closed after close. An open succeeds exactly if the object is closed, the mode is one for reading, the name is a str or bytes (the file object has read and seek), nothing below fails and the content can be loaded; the object then has the content of the file that was named. Otherwise there is an exception and the state is as before. After close, and when the object is freed, no handle is left open and no reference to a Python object is left. A stored document opened by name or as file object is shown.", "quantifier": "all histories of calls on a file object, all names, modes, file objects, contents and failures of libbfio", "why_tests_cant": "all histories and failures, every content", "anchors": ["pyolecf/pyolecf_file.c: pyolecf_file_init, pyolecf_file_free, pyolecf_file_open, pyolecf_file_open_file_object, pyolecf_file_close, pyolecf_file_signal_abort"]}
{"id": "C87", "title": "The code page of a Python file object is the one last set", "statement": "The attribute ascii_codepage gives the name of the code page that was last set successfully, by set_ascii_codepage or by assignment, or cp1252 if none was set since the file was last closed. A text that names no supported code page is refused and changes nothing. What was read can be assigned and changes nothing, and the name of every supported page can be set and is read back.", "quantifier": "all histories of calls on a file object, all texts and other objects", "why_tests_cant": "all histories, all arguments", "anchors": ["pyolecf/pyolecf_file.c: pyolecf_file_get_ascii_codepage, pyolecf_file_set_ascii_codepage_from_string, pyolecf_file_set_ascii_codepage, pyolecf_file_set_ascii_codepage_setter", "pyolecf/pyolecf_codepage.c: pyolecf_codepage_to_string"]}
{"id": "C88", "title": "A Python program sees the stored document", "statement": "After any history of calls, a program that has a file object open on a stored document and asks for its root item sees the document from there: a loop over the sub items gives one object per part, of the class for its kind (item, stream, property set stream), with its name as string; asking for a sub item by this name gives the same object, by any other name None; a stream object tells the size and one read without arguments gives all its data. A path from the file or from an item object leads to the part at this path, a path to nothing to None.", "quantifier": "all documents with Unicode names within the limits of the format, all histories of calls on the file object, all paths and names", "why_tests_cant": "all documents, all paths and all histories", "anchors": ["pyolecf/pyolecf_item.c: pyolecf_item_get_name, pyolecf_item_get_size, pyolecf_item_get_item_type_object, pyolecf_item_get_sub_item_by_index, pyolecf_item_get_sub_item_by_name, pyolecf_item_get_sub_item_by_path", "pyolecf/pyolecf_file.c: pyolecf_file_get_root_item, pyolecf_file_get_item_by_path", "pyolecf/pyolecf_stream.c: pyolecf_stream_read_buffer"]}
{"id": "C89", "title": "A Python program sees the stored property sets", "statement": "After any history of calls, a program that asks an open file object for the summary information or document summary information stream of a stored document and for its property set, wherever the stream was read before, sees the set that was stored: class identifiers as text, with loops all sections and all properties in their order, and of each property the identifier, the type, the data (None if there is none), the integer, boolean or datetime exactly for the types that have one, and the string in the code page of the file object or from UTF-16.", "quantifier": "all property sets, all documents and paths, all histories of calls, all positions of the stream", "why_tests_cant": "all property sets, documents and histories", "anchors": ["pyolecf/pyolecf_property_set_stream.c: pyolecf_property_set_stream_get_set", "pyolecf/pyolecf_property_set.c", "pyolecf/pyolecf_property_section.c", "pyolecf/pyolecf_property_value.c", "pyolecf/pyolecf_guid.c"]}
{"id": "C90", "title": "The signature checks of the Python module", "statement": "check_file_signature and check_file_signature_file_object tell whether the content starts with one of the two signatures; there is an exception if the name is empty or no text, the file cannot be opened, or has less than 8 bytes. No handle stays open and no reference is kept. Everything that can be opened passes the check.", "quantifier": "all names, all file objects, all contents, all failures of libbfio", "why_tests_cant": "all contents and failures", "anchors": ["pyolecf/pyolecf.c: pyolecf_check_file_signature, pyolecf_check_file_signature_file_object", "libolecf/libolecf_support.c: libolecf_check_file_signature, libolecf_check_file_signature_file_io_handle"]}
{"id": "C91", "title": "The times of items are those stored", "statement": "For every document that was written with arbitrary times of creation and modification (and arbitrary class identifiers, state flags and versions), the item found for a part of the document has the times stored for that part: by navigation from the root, by path in UTF-8 and UTF-16, in Python as integers and as datetime objects, and the modification time in the attributes of the mounted file, with the time of the mount as the other times. A time that is not set is 1970-01-01 in the mounted file system.", "quantifier": "all documents, all times and other marks of entries, all parts, all histories before, both byte orders", "why_tests_cant": "all hierarchies and all times; a swap of two entries or of two times shows up for some of them only", "anchors": ["libolecf/libolecf_item.c: libolecf_item_get_creation_time, libolecf_item_get_modification_time", "libolecf/libolecf_directory_entry.c: libolecf_directory_entry_read_data", "pyolecf/pyolecf_item.c: pyolecf_item_get_creation_time(_as_integer), pyolecf_item_get_modification_time(_as_integer)", "olecftools/mount_file_entry.c: mount_file_entry_get_modification_time", "olecftools/mount_fuse.c: mount_fuse_set_stat_info"]}
{"id": "C92", "title": "What is allocated for a property set is freed", "statement": "Whatever a stream contains and whichever allocations fail while a property set is read from it, no block of memory is freed twice, freed without being in use, or used after it was freed. A call that fails keeps no block of memory. The set that a successful call returns holds its own blocks only, and libolecf_property_set_free gives all of them back.", "quantifier": "all streams of all open files, all patterns of failing allocations, all states of the heap before, any number of reads", "why_tests_cant": "all contents of streams and all points at which an allocation can fail", "anchors": ["libolecf/libolecf_property_set_stream.c: libolecf_property_set_stream_get_set", "libolecf/libolecf_property_set.c: libolecf_property_set_initialize, libolecf_property_set_free, libolecf_property_set_read", "libolecf/libolecf_property_section.c: libolecf_property_section_initialize, libolecf_property_section_free, libolecf_internal_property_section_free, libolecf_property_section_read", "libolecf/libolecf_property_value.c: libolecf_internal_property_value_free, libolecf_property_value_read_data"]}
{"id": "C93", "title": "What is allocated for a file object is freed", "statement": "Whatever the files contain, whichever calls of the file IO layer and whichever allocations fail: every call of a history on a file object returns, no block of memory is freed twice, freed without being in use, or used after it was freed, and after each call the object holds its own blocks only. A call that fails to open, and a close, leave the object with the blocks it had when it was made. libolecf_file_free gives everything back, whether the object is open or not; a file object that cannot be made keeps nothing. If no allocation fails, memory changes no return value.", "quantifier": "all histories of calls on a file object, all contents of files, all patterns of failing allocations and failing IO calls, all states of the heap before", "why_tests_cant": "all contents of files, all histories, and all points at which an allocation can fail", "anchors": ["libolecf/libolecf_file.c: libolecf_file_initialize, libolecf_file_free, libolecf_file_open, libolecf_file_open_file_io_handle, libolecf_file_close, libolecf_file_open_read", "libolecf/libolecf_io_handle.c: libolecf_io_handle_read_msat, libolecf_io_handle_read_sat, libolecf_io_handle_read_ssat, libolecf_io_handle_read_directory_entries", "libolecf/libolecf_directory_tree.c: libolecf_directory_tree_create", "libolecf/libolecf_directory_entry.c: libolecf_directory_entry_free, libolecf_directory_entry_free_not_in_tree", "libolecf/libolecf_allocation_table.c: libolecf_allocation_table_initialize, libolecf_allocation_table_free, libolecf_allocation_table_resize"]}
{"id": "C94", "title": "A file that opens when memory is short shows what it stores", "statement": "If opening a file succeeds although allocations failed during it, the file object shows the same item hierarchy and the same stream data as it would if no allocation had failed; an open that cannot load the file fails.", "quantifier": "all files, all patterns of failing allocations", "why_tests_cant": "all contents of files and all points at which an allocation can fail", "anchors": ["libolecf/libolecf_file.c: libolecf_file_open_read", "libolecf/libolecf_io_handle.c: libolecf_io_handle_read_sat, libolecf_io_handle_read_ssat"]}
{"id": "C95", "title": "Items may be used while their file is open, and have to be freed only", "statement": "A program gets items from a file object (root item, by path, by index or name from other items), asks them for their type, size, times, name, number of sub items and data, and frees them. If it uses no item that it got before it closed the file for anything but to free it, then, whatever the file contains, whichever allocations and IO calls fail: no block of memory is freed twice or used after it was freed, every call returns, and the memory in use is that of the file object and one block for each item that was not freed. Items can be freed before or after the file object is closed or freed; when all is freed all memory is given back. Opening a file object that is open, changing its code page and signalling abort leave the items usable. With memory for every request, the answers are those of the properties on items and streams. An item that is used after the file was closed reads memory that was freed.", "quantifier": "all programs of file and item calls that follow the rule, all contents of files, all patterns of failing allocations and IO calls, all states of the heap before", "why_tests_cant": "all programs, all contents of files, and all points at which an allocation can fail", "anchors": ["libolecf/libolecf_item.c: libolecf_item_initialize, libolecf_item_free, libolecf_item_get_type, libolecf_item_get_utf8_name, libolecf_item_get_size, libolecf_item_get_number_of_sub_items, libolecf_item_get_sub_item, libolecf_item_get_sub_item_by_utf8_name, libolecf_item_get_sub_item_by_utf8_path", "libolecf/libolecf_file.c: libolecf_file_get_root_item, libolecf_file_get_item_by_utf8_path, libolecf_file_close, libolecf_file_free", "libolecf/libolecf_directory_tree.c: libolecf_directory_tree_get_sub_node_by_utf8_name", "libolecf/libolecf_stream.c: libolecf_stream_read_buffer, libolecf_stream_seek_offset, libolecf_stream_get_offset"]}
{"id": "C96", "title": "When memory is short, calls on items fail or tell the truth", "statement": "A program opens, closes and reopens a file object, looks up items and uses them as the rule of C95 allows, while any of its requests for memory are refused. Each look-up of an item (root item, by index, by name, by path), each query of a name, a field, the number of sub items or the position, each seek, each read of a stream and each free of an item then replies exactly what the contents loaded in the file object and the state of the items say, and changes the state in that way only; or it is a look-up, it returns an error because its request for memory is refused, and nothing has changed. No call reports an item as missing, or a wrong number or content, because memory was short.", "quantifier": "all programs of calls that follow the rule, all files, all failures of the IO library, all ways in which requests for memory are refused", "why_tests_cant": "Tests run with memory for every request; which request is refused and what is held at that point have no bound.", "anchors": ["libolecf/libolecf_item.c: libolecf_item_initialize, libolecf_item_get_sub_item, libolecf_item_get_sub_item_by_utf8_path", "libolecf/libolecf_file.c: libolecf_file_get_root_item, libolecf_file_get_item_by_utf8_path", "libolecf/libolecf_stream.c: libolecf_stream_read_buffer, libolecf_stream_seek_offset"]}
{"id": "C97", "title": "No call on an item has undefined behaviour, with or without memory", "statement": "In a program as in C96 every call returns, and no call computes out of the range of its integer types, reads outside its tables and buffers or goes on for ever, whatever the file contains and whichever requests for memory were refused while it was opened; what is assumed of the Unicode library is that its decoder moves on and that it converts names without fault.", "quantifier": "all programs of calls that follow the rule, all files, all failures of the IO library, all ways in which requests for memory are refused", "why_tests_cant": "The tables that an open with too little memory leaves behind have contents that no test file gives; the calls and the files have no bound.", "anchors": ["libolecf/libolecf_item.c", "libolecf/libolecf_stream.c", "libolecf/libolecf_io_handle.c: libolecf_io_handle_read_stream", "libolecf/libolecf_file.c: libolecf_file_open_read", "libolecf/libolecf_allocation_table.c"]}
{"id": "C98", "title": "Programs that hold property sets have no memory errors and lose at most one section per failed read", "statement": "A program opens and closes files, looks up items, reads property sets from them, takes sections and values of these sets, uses and frees all of them in any order, while any request for memory and any call of the IO library may fail. If it uses items only while the file they come from is open, and sections and values only until their set is freed, no block is freed twice and none is used that is not in use; sets may be used after the file was closed and the item freed. What is in use at any time is the file object, the items, the sets it did not free, and at most one section for each set that could not be read. After the program freed the file object, its items and its sets, only those sections remain, and nothing if no read of a set failed. (The last part, that nothing remains, should hold also if reads of sets fail.)", "quantifier": "all programs of calls on files, items, property sets, sections and values, all files, all failures of the IO library, all ways in which requests for memory are refused", "why_tests_cant": "Which request is refused, the order of the calls, the number of sets held and the contents of the streams have no bound.", "anchors": ["libolecf/libolecf_item.c: libolecf_item_get_property_set (libolecf_property_set_stream.c: libolecf_property_set_stream_get_set)", "libolecf/libolecf_property_set.c", "libolecf/libolecf_property_section.c", "libolecf/libolecf_property_value.c", "libolecf/libolecf_stream.c"]}
{"id": "C99", "title": "When memory is short, calls on property sets fail or tell the truth, and all return", "statement": "In a program as in C98 each request for a property set and each call on sets, sections and values replies exactly what the stream, the sets, sections and values it holds say, and changes what it holds accordingly; or it is a request for a set that returns an error because a request for memory was refused during it, and nothing has changed but the position in the stream. Every call returns; no call computes out of the range of its integer types, reads outside its buffers or goes on for ever.", "quantifier": "all programs of calls as in C98, all files, all failures of the IO library, all ways in which requests for memory are refused", "why_tests_cant": "Tests run with memory for every request; which of the requests of a read is refused has no bound, nor have the contents of the streams.", "anchors": ["libolecf/libolecf_property_set_stream.c: libolecf_property_set_stream_get_set", "libolecf/libolecf_property_set.c: libolecf_property_set_read", "libolecf/libolecf_property_section.c: libolecf_property_section_read", "libolecf/libolecf_property_value.c: libolecf_property_value_read"]}
{"id": "C100", "title": "The property set of a document reaches the program, and leaves no memory behind", "statement": "A document is stored as the format describes, with a property set serialised as the format describes in one of its streams, at any depth. A program makes a file object, opens the file, gets the root item, goes down by sub item indices, asks for the property set of the item and at the end frees everything. There are indices such that, with memory for every request, the program gets a set with exactly the class identifiers, sections, properties and data of the document, and at the end all memory is given back.", "quantifier": "all documents, all serialised sets (little endian, less than 65536 sections, streams below 2 GiB) at all paths, all states of the heap", "why_tests_cant": "The documents, their depth and the property sets have no bound; a leak shows for no single input.", "anchors": ["libolecf/libolecf_file.c", "libolecf/libolecf_item.c", "libolecf/libolecf_property_set_stream.c", "libolecf/libolecf_property_set.c", "libolecf/libolecf_property_section.c", "libolecf/libolecf_property_value.c"]}
{"id": "C101", "title": "The compound object stream is read as the format describes, and leaves no memory behind", "statement": "A read of the compound object stream of an item succeeds exactly if, from the position of the item on, the bytes of the stream are a header, a user type string, clipboard data, a reserved string and, if there is more behind the marker of Unicode strings, the three of these again; the item is then behind it. Whichever requests for memory are refused, a success means that the bytes are there, no block is freed twice or used after it was freed, and all memory is given back when the call returns. The call returns and computes in range.", "quantifier": "all files and streams of any content, both byte orders, all positions of the item, all ways in which requests for memory are refused", "why_tests_cant": "The strings have any size up to the limit of a request, the streams any content; which request is refused, and what is freed at which of the many error exits, has no finite list of cases.", "anchors": ["libolecf/libolecf_compound_object_stream.c: libolecf_compound_object_stream_read", "libolecf/libolecf_io_handle.c: libolecf_io_handle_read_stream"]}
{"id": "C102", "title": "A fixed amount of stack is enough to open a file", "statement": "Opening a file takes a fixed small number of nested calls, whatever the file contains. In any case the number of nested calls that is enough for a file is known: one more than the longest path of links between directory entries, and never more than 262401.", "quantifier": "all files, all documents stored as the format describes, all amounts of stack", "why_tests_cant": "Tests run with small directories and the stack of the platform; the depth depends on how the entries of a directory of any size are linked.", "anchors": ["libolecf/libolecf_directory_tree.c: libolecf_directory_tree_create, libolecf_directory_tree_create_process_entry", "libolecf/libolecf_file.c: libolecf_file_open_read"]}
{"id": "C103", "title": "On Windows a mounted name is valid, distinct, and opens the item it was listed for", "statement": "In the build for Windows, an item is shown under a file name that Windows allows and that no other name gives; the path made of the names that the listings give opens that item. Whatever the name or path, making a file name and opening a path return and stay within the buffers.", "quantifier": "all names of Unicode characters, all trees of items, all paths of UTF-16 code units", "why_tests_cant": "Names are strings over all Unicode characters with a dozen classes of escapes in two encodings; the bound of the buffer depends on all of them together.", "anchors": ["olecftools/mount_path_string.c: mount_path_string_copy_from_item_path, mount_path_string_copy_to_item_path", "olecftools/mount_file_system.c: mount_file_system_get_item_by_path, mount_file_system_get_filename_from_item", "olecftools/mount_handle.c: mount_handle_get_file_entry_by_path", "olecftools/mount_file_entry.c: mount_file_entry_get_sub_file_entry_by_index"]}
{"id": "C104", "title": "A drive shows the document that was written", "statement": "A document stored as the format describes, mounted as a drive on Windows, has a directory for each storage and a file for each stream, under the names of the document, and nothing else: listings give every part once with its kind, size and times, files open read-only and give the bytes of the stream, and what does not exist is not found.", "quantifier": "all documents and ways to store them, all states of the file object before it is opened, all names, paths, sizes and offsets", "why_tests_cant": "Documents have any shape and any names; the operations take any path, access mask, disposition, offset and size.", "anchors": ["olecftools/mount_dokan.c: mount_dokan_CreateFile, mount_dokan_ZwCreateFile, mount_dokan_OpenDirectory, mount_dokan_ReadFile, mount_dokan_FindFiles, mount_dokan_GetFileInformation, mount_dokan_filldir, mount_dokan_set_file_information", "olecftools/mount_file_entry.c"]}
{"id": "C105", "title": "A drive answers every operation, the same in every history, and keeps nothing that was closed", "statement": "Whatever operations were made before, every operation on a drive is answered with a result or an error; a read from an open file gives what it gives right after the file was opened on a new drive; listings and attributes do not depend on the history; the entries in memory are those of the open files and directories.", "quantifier": "all opened files, all histories of operations with any arguments", "why_tests_cant": "Histories are unbounded and interleave any number of open files; every operation takes any path, offset and size.", "anchors": ["olecftools/mount_dokan.c: mount_dokan_CreateFile, mount_dokan_ZwCreateFile, mount_dokan_OpenDirectory, mount_dokan_CloseFile, mount_dokan_ReadFile, mount_dokan_FindFiles, mount_dokan_GetFileInformation, mount_dokan_GetVolumeInformation"]}
{"id": "C106", "title": "Threads may use the streams of one file at the same time", "statement": "Threads that read and seek in streams of one open file at the same time get, each, the replies that they get alone; calls end whatever other threads do; no memory is accessed by two threads at the same time of which one changes it, and nothing is written outside of the buffers.", "quantifier": "all opened files, any number of threads and programs whose calls may depend on earlier replies, all orders of the single accesses to memory and to the file", "why_tests_cant": "A test sees a few schedules; the number of orders of steps is unbounded and the bad ones are rare.", "anchors": ["libolecf/libolecf_stream.c: libolecf_stream_read_buffer, libolecf_stream_read_buffer_at_offset, libolecf_stream_seek_offset, libolecf_stream_get_offset", "libolecf/libolecf_io_handle.c: libolecf_io_handle_read_stream", "pyolecf/pyolecf_stream.c: pyolecf_stream_read_buffer, pyolecf_stream_read_buffer_at_offset, pyolecf_stream_seek_offset, pyolecf_stream_get_offset"]}
{"id": "C107", "title": "The resources for opening a file are bounded", "statement": "Whatever a file contains, opening it reads at most 177 MiB, successful or not, and afterwards the tables have at most 2^25 entries each and there are at most 262400 items, by whatever path they are reached. The memory is in proportion to the size of the file.", "quantifier": "all contents of files and all failures of reads, all states of the file object", "why_tests_cant": "The counts that are declared in a file are free 32-bit values and chains may have loops; a test shows the cost of the files it has, not of the most expensive one.", "anchors": ["libolecf/libolecf_file.c: libolecf_file_open_read", "libolecf/libolecf_allocation_table.c: libolecf_allocation_table_resize", "libolecf/libolecf_io_handle.c: libolecf_io_handle_read_msat, libolecf_io_handle_read_sat, libolecf_io_handle_read_ssat, libolecf_io_handle_read_directory_entries"]}
{"id": "C108", "title": "An interrupted or failing export leaves a part of the document and is reported", "statement": "At every moment of an export of a file that holds a document, and however it ends (the program is killed after any operation, the disk is full, any operations fail, writes are cut short), what it has made is a part of the image of the document: every new directory is the directory of a part, every new file is a data file with an initial segment of the data of its part, and what was there before is unchanged. If the result of the export is success, the image is complete.", "quantifier": "all documents within the limits of the format, all target file systems, every set of failing operations, every cut of a failing write and every number of operations after which the program is killed", "why_tests_cant": "The failures and crash points are as many as the operations, in all combinations; tests inject a few.", "anchors": ["olecftools/export_handle.c: export_handle_export_file, export_handle_export_sub_items, export_handle_export_item", "olecftools/olecfexport.c: main"]}
{"id": "C109", "title": "An export keeps the document and nothing of the layout", "statement": "If two files are exported with olecfexport to the same place of the same file system, the results are the same exactly if the files hold the same document: the same names, nesting, kinds of parts and data. The sizes of sectors, the byte order, where the streams are and what is in unused space have no influence.", "quantifier": "all pairs of documents with names of Unicode text whose file names can be told apart, all layouts and byte orders of the two files, all file systems and targets", "why_tests_cant": "A relation between two arbitrary documents and two arbitrary layouts of them; tests compare a few files.", "anchors": ["olecftools/olecfexport.c: main", "olecftools/export_handle.c: export_handle_export_file, export_handle_export_sub_items, export_handle_export_item"]}
{"id": "C110", "title": "The messages of an export tell what it did", "statement": "The directories that the log of olecfexport names as created are the directories that the run has made, each named once. When a document is exported and any operations of the file system fail, the export ends with success and without a message that an item could not be exported exactly if no operation failed; then the whole document is in the export directory.", "quantifier": "all files, all names of items, all starting states of the file system and all choices of operations that fail; for the second part all stored documents", "why_tests_cant": "A relation between messages, file system and failures at every operation; tests let no operations fail and do not read the log.", "anchors": ["olecftools/export_handle.c: export_handle_export_file, export_handle_export_sub_items, export_handle_export_item", "olecftools/log_handle.c: log_handle_printf"]}
{"id": "C111", "title": "A damaged file shows the stored data or an error", "statement": "If parts of a file cannot be read or its end is missing, an open fails, or it succeeds with the hierarchy of the stored document; then every read of every stream gives the stored bytes or fails, and it fails only if something that it has to read is damaged. Data that is not in the document is never shown.", "quantifier": "all files that hold a document, all choices of parts that cannot be read and all lengths to which the file is cut, all streams, positions and sizes of reads", "why_tests_cant": "Every combination of unreadable parts of every layout; a wrong result is not an error, so a test on a few damaged files does not see it.", "anchors": ["libolecf/libolecf_io_handle.c: libolecf_io_handle_read_msat, libolecf_io_handle_read_sat, libolecf_io_handle_read_ssat, libolecf_io_handle_read_directory_entries, libolecf_io_handle_read_stream", "libolecf/libolecf_file.c: libolecf_file_open_read", "libolecf/libolecf_stream.c: libolecf_stream_read_buffer"]}
{"id": "C112", "title": "An export of a damaged file saves what can be read and invents nothing", "statement": "If parts of a file cannot be read, its export leaves only parts of the stored document: directories of its items and data files with the stored data or an initial segment of it, whatever else fails and wherever the program is killed. An export that tells of no failure is complete. Every item has its directory, and every stream that can be read is exported with all its data, whatever happened to the others.", "quantifier": "all files that hold a document, all choices of parts that cannot be read, all choices of failing operations on the target, all points at which the program is killed", "why_tests_cant": "Unreadable parts and failing writes combine freely, and the effect on every other stream has to be known.", "anchors": ["olecftools/export_handle.c: export_handle_export_item, export_handle_export_sub_items, export_handle_export_file", "libolecf/libolecf_io_handle.c: libolecf_io_handle_read_stream", "libolecf/libolecf_stream.c: libolecf_stream_read_buffer"]}
{"id": "C113", "title": "Bytes that are not in use do not matter", "statement": "A file shows the same document whatever is in the bytes that are not in use, that is, outside of the header and of the sectors to which the header, the tables or a directory entry refer; also when such bytes are missing at the end or more follow. In particular, if nothing refers to a sector that the sector table marks as free, the free sectors can be wiped or overwritten without any effect.", "quantifier": "all files that hold a document, all contents of the unused bytes, all lengths of the file beyond the used bytes", "why_tests_cant": "The unused bytes can have any content, and a reader that looks at a stale sector is noticed only with the content that misleads it.", "anchors": ["libolecf/libolecf_io_handle.c: libolecf_io_handle_read_msat, libolecf_io_handle_read_sat, libolecf_io_handle_read_ssat, libolecf_io_handle_read_directory_entries, libolecf_io_handle_read_stream", "libolecf/libolecf_file.c: libolecf_internal_file_open_read", "libolecf/libolecf_stream.c: libolecf_stream_read_buffer"]}
{"id": "C114", "title": "Replacing the data of a stream in place changes this stream only", "statement": "If the data of one stream is overwritten in place with data of the same size, and the header, the tables, the directory and the sectors of the other streams keep their bytes, the file opens and shows the same hierarchy, the new data in this stream and the old data in all others. For streams in sectors and for streams in short sectors.", "quantifier": "all files that hold a document, all of their streams, all new data, all contents of the rest of the file", "why_tests_cant": "Where the sectors of the stream are, and what lies between them and around them, is arbitrary; a test has one arrangement.", "anchors": ["libolecf/libolecf_io_handle.c: libolecf_io_handle_read_stream, libolecf_io_handle_read_directory_entries", "libolecf/libolecf_stream.c: libolecf_stream_read_buffer", "libolecf/libolecf_file.c: libolecf_internal_file_open_read"]}
{"id": "C115", "title": "File objects do not influence each other", "statement": "A program that uses any number of file objects, in any order, gets from each call (open with a handle, open by name, close, free and initialize, set the code page, signal an abort, check a signature) the reply it would get if it used only the object of this call, and each object, its file handle and the handles the program gave it are afterwards as they would be then; provided that no handle of the program is given to two objects. If two objects share a handle, the one that opened it closes it under the other.", "quantifier": "all numbers of objects, all interleavings of calls of any length, all faults of the file IO layer, all contents of the files", "why_tests_cant": "The interleavings of calls on several objects are unlimited; a test has one.", "anchors": ["libolecf/libolecf_file.c: libolecf_file_initialize, libolecf_file_free, libolecf_file_open, libolecf_file_open_file_io_handle, libolecf_file_close, libolecf_file_set_ascii_codepage, libolecf_file_signal_abort", "libolecf/libolecf_support.c: libolecf_check_file_signature, libolecf_check_file_signature_file_io_handle"]}
{"id": "C116", "title": "A drive answers reads of several threads", "statement": "libdokan before version 2.0 calls the operations of a drive from several threads. Every request to read from an open file is answered as it is when there is no other request (with the data of the stream), whatever is read at the same time by other threads, and no memory is accessed out of bounds.", "quantifier": "all files, all numbers of threads, open files and requests, all orders of their steps", "why_tests_cant": "Which answers are wrong depends on the order in which the threads take their steps, which a test does not control.", "anchors": ["olecftools/olecfmount.c: main (ThreadCount)", "olecftools/mount_dokan.c: mount_dokan_ReadFile", "olecftools/mount_file_entry.c: mount_file_entry_read_buffer_at_offset", "libolecf/libolecf_stream.c: libolecf_stream_read_buffer_at_offset, libolecf_stream_seek_offset, libolecf_stream_read_buffer"]}
{"id": "C117", "title": "A stream object of Python is used like a file", "statement": "A Python program that calls read, read_buffer_at_offset, seek and tell of a stream object, in any order and with any arguments, gets the answers of a file opened for reading in binary mode that has the content of the stream: read gives the next bytes, fewer at the end, and moves the position by what it gave; read_buffer_at_offset moves the position behind what it gave; a seek from the begin, the position or the end moves the position, also behind the end; arguments that are refused raise an exception and move nothing; tell gives the position. A loop that reads pieces until one is empty has the whole content and ends.", "quantifier": "all stored documents, all streams, all histories of calls, all sizes, offsets and values of whence", "why_tests_cant": "The answer to a call depends on all calls before it and on arguments up to 64 bits and beyond; tests call the methods for a few values.", "anchors": ["pyolecf/pyolecf_stream.c: pyolecf_stream_read_buffer, pyolecf_stream_read_buffer_at_offset, pyolecf_stream_seek_offset, pyolecf_stream_get_offset", "libolecf/libolecf_stream.c: libolecf_stream_read_buffer, libolecf_stream_seek_offset, libolecf_stream_get_offset"]}
{"id": "C118", "title": "Threads of a Python program may use stream objects at the same time", "statement": "Threads of a Python program that call methods of stream objects of one open file, each with programs that may depend on the answers, get the answers that files with the content of the streams give when nobody else uses them, and no call has undefined behaviour, whatever the order of the steps is.", "quantifier": "all stored documents, all numbers of threads and stream objects (also several of one stream), all programs, all orders of the steps", "why_tests_cant": "The bindings release the lock of the interpreter during each call of the library; which interleaving takes place is not under the control of a test.", "anchors": ["pyolecf/pyolecf_stream.c: pyolecf_stream_read_buffer, pyolecf_stream_read_buffer_at_offset, pyolecf_stream_seek_offset, pyolecf_stream_get_offset (Py_BEGIN_ALLOW_THREADS)", "libolecf/libolecf_stream.c: libolecf_stream_read_buffer, libolecf_stream_seek_offset", "libolecf/libolecf_io_handle.c: libolecf_io_handle_read_stream"]}
{"id": "C119", "title": "Errors of Python code and of the library are told as Python exceptions", "statement": "If Python code that the module calls raises, for instance a method of a file-like object, the program gets an exception of the module whose message has the text of the exception; whatever was raised, and nothing of it is kept in memory afterwards. An error of the library is raised with the backtrace on one line, within the buffers.", "quantifier": "all exceptions with all results of their repr, all texts, all contents of the buffer of the backtrace, all numbers of failing calls", "why_tests_cant": "The exceptions come from arbitrary Python code; a reference that is kept shows only as memory that is never freed.", "anchors": ["pyolecf/pyolecf_error.c: pyolecf_error_fetch, pyolecf_error_fetch_and_raise, pyolecf_error_raise", "pyolecf/pyolecf_file_object_io_handle.c: pyolecf_file_object_read_buffer, pyolecf_file_object_seek_offset"]}
{"id": "C120", "title": "pyolecf.open returns an open file object or raises and leaves nothing", "statement": "pyolecf.open(name, mode) and pyolecf.open_file_object(obj, mode) return a file object that is open, has the content of the file that was named (of the object that was given) and is in every respect like one that was made with pyolecf.file() and opened. They do so exactly if there is memory, the mode is one for reading, the name is a str or bytes (the object has read and seek), nothing below fails and the content can be loaded. Otherwise they raise an exception, and then no handle is left open, no handle of the library is left, and no reference to the Python object is kept. A stored document that is opened in this way is shown.", "quantifier": "all names, modes, file objects, contents, failures of libbfio and of requests for memory", "why_tests_cant": "every content and every failure at every point", "anchors": ["pyolecf/pyolecf.c: pyolecf_open_new_file, pyolecf_open_new_file_with_file_object", "pyolecf/pyolecf_file.c: pyolecf_file_init, pyolecf_file_open, pyolecf_file_open_file_object, pyolecf_file_free"]}
{"id": "C121", "title": "The hierarchy of a damaged file is listed whole", "statement": "Of a file of which data can no longer be read, or of which the end of the sector table is lost, the program olecfinfo prints the same list of items, with the same names and sizes, as of the intact file, and opening reports success, as long as the header, the master table, the directory and the part of the sector table that describes the directory can be read. The same is true of everything a program asks of the items without reading their data: the loaded hierarchy is the same.", "quantifier": "all files with a document in any layout, all sets of reads that fail, all lengths at which a file is cut, all code pages and conversions of names", "why_tests_cant": "every file with every part of it lost", "anchors": ["libolecf/libolecf_file.c: libolecf_file_open_read", "libolecf/libolecf_io_handle.c: libolecf_io_handle_read_sat", "olecftools/info_handle.c: info_handle_items_fprint, info_handle_item_fprint"]}
{"id": "C122", "title": "A mount of a damaged file answers like that of the whole file, or with an I/O error", "statement": "If a file of which parts cannot be read is mounted, and none of the reads that opening needs failed, then every request to the mount (looking up, listing, attributes, opening, reading, closing) is answered exactly as by a mount of the undamaged file after the same requests, except that a read may be answered with EIO. In particular a failed read has no effect on later requests, and no read gives other bytes than the stored.", "quantifier": "all files that open, all sets of reads that fail, all histories of requests", "why_tests_cant": "every file, every place of a damage and every order of requests", "anchors": ["olecftools/mount_fuse.c: mount_fuse_read, mount_fuse_readdir, mount_fuse_getattr, mount_fuse_open, mount_fuse_opendir, mount_fuse_release", "olecftools/mount_file_entry.c: mount_file_entry_read_buffer_at_offset", "libolecf/libolecf_stream.c: libolecf_stream_read_buffer_at_offset"]}
