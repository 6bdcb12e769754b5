# Formal model of libolecf

## Layout

- `properties.jsonl`: the properties (C01 ...).
- `lean/Verif/Model/*.lean`: executable model, one definition per C function (or per loop of a C
  function), each citing file and lines in /repo.
- `lean/Verif/Spec/*.lean`: specifications, written without reference to the model's helpers.
- `lean/Verif/Lemmas/*.lean`: helper lemmas.
- `lean/Verif/Props/*.lean`: the property theorems, with non-vacuity examples.
- `MANIFEST.json`: property -> theorems and status.
- `seeded/LOG.jsonl`: record of the wrong programs the theorems were tried against.

A theorem that ends in `_partial` proves the property under a restriction, and the restriction is
named in its comment. A theorem that ends in `_violated` proves that the code does not have the
property in full: it exhibits a concrete input, or a whole class of inputs.

## Trusted base

- Lean 4.33.0 kernel. Every theorem depends on at most `propext`, `Classical.choice` and
  `Quot.sound` (checked with `#print axioms`). No added axioms, no `sorry`, no `native_decide`, no
  `bv_decide`. Concrete witnesses are evaluated by the kernel (`decide +kernel` or `rfl`).
- The reading of the C code. The code was never compiled or run here: the tie between model and
  code is the citation in the comment of each definition.
- Platform: LP64 (`size_t`, `ssize_t`, `off64_t` 64 bits, `int` 32 bits), two's complement
  narrowing conversions (`size_t` to `int`). `malloc` never fails, but for C92 to C101, where every
  single allocation may fail (Model/Memory, MemSet, MemFile, MemItem, MemSetItem); the explicit 128 MiB limits of the code are modelled. POSIX build of the tools with narrow characters.
- The argument checks against `NULL` and the error objects are not modelled: the same pattern in
  each function. A failed call is the outcome `err`.
- Dependencies outside of /repo are modelled by contract:

| library | contract |
|---------|----------|
| libbfio | A handle is a device: a read of n bytes at an offset fails or gives at most n bytes. Open, close, free and the other calls fail at will (`Faults`); a call that fails does not change the handle. Theorems about content use the device of a byte list: a read gives the bytes of the range, short at the end of the file. |
| libcdata | Lists, arrays; tree nodes with sorted insertion of unique values by the compare callback; the range list as a set of sectors. |
| libuna | Comparison of a name with an entry's name and decoding of one character are parameters that may fail; theorems state what they need (progress, separators of one unit). For names and paths of the mount tool `IsUtf8`: encoding and decoding are inverse on scalar values; Lean's own UTF-8 functions are proved to satisfy it. For names that are Unicode strings `IsLibuna`: comparison, size and copy are those of the strings; an implementation that decodes is proved to satisfy it. |
| libfvalue | A value keeps encoding and data as set; integers are decoded in the byte order given with the data; getters fail for values without data. |
| libcfile, libcpath | The export writes to an abstract file system in which any operation may fail; `libcpath_path_get_sanitized_filename` is a parameter with the contract that the result has no separator. |
| FUSE | The callback of a listing accepts every entry. Requests come one after the other; a handle is passed back unchanged until it is released. |
| Python C API | `PyLong_AsUnsignedLongLong` and `PyArg_ParseTuple` refuse integers outside of their range; the datetime constructor accepts exactly the existing dates and times from the year 1 to 9999 (`IsPython`, with an instance); the UTF-8 codec encodes strings of characters, refuses those with surrogates, and decodes encodings (`IsPyCodec`, with an instance); the format `s` takes a `str` without null characters. A `for` loop calls `__iter__` once and then `__next__` until it stops. |

Undefined behaviour (access outside of a buffer, signed overflow, division by zero) is the distinct
outcome `ub` of the result type, an exhausted iteration budget the outcome `hang`. Safety theorems
say that neither is reachable. Iteration budgets are proved sufficient (C07, C14, C17, C22, C33).

## What is modelled

| code | model | left out |
|------|-------|----------|
| libolecf_allocation_table.c | Model/AllocTable: all functions | |
| libolecf_file_header.c | Model/Header: all of the parsing | debug output |
| libolecf_io_handle.c | Model/Tables, Model/Directory, Model/Stream: read_msat, read_sat, read_ssat, read_directory_entries, read_stream, clear | debug output |
| libolecf_directory_entry.c, _directory_list.c | Model/Directory: read_data, compare, lookup by identifier | debug output |
| libolecf_directory_tree.c | Model/Tree, Model/Item | the two summary information pointers (never read) |
| libolecf_stream.c | Model/Stream: all functions | |
| libolecf_file.c | Model/File, Model/Item: all public functions | wide character variants of open (the same code with another libbfio call) |
| libolecf_support.c | Model/File: signature checks | version, code page and notify functions |
| libolecf_item.c | Model/Item: sub items, lookup by name and by path; Model/ItemName: names; Model/Stream for the data | conversion of names (libuna, by the contract `IsLibuna`) |
| libolecf_property_set*.c, _property_section.c, _property_value.c | Model/PropSet: reading, getters | libfvalue, debug output |
| the same, with allocation and `on_error` | Model/MemSet over Model/Memory | objects of libcdata and libfvalue count as one block each |
| making, opening, closing and freeing file objects, with allocation and `on_error` | Model/MemFile over Model/Memory | objects of libcdata and libbfio count as one block each |
| items with their pointers, look-ups and reads of streams, with allocation | Model/MemItem | nodes are found by the identifier of their entry, not by links |
| libolecf_directory_tree.c and libolecf_file_open_read with a stack of limited size | Model/Stack | the size of a frame; the recursions of libcdata |
| libolecf_compound_object_stream.c | Model/CompObj: the read, with allocation and `on_error` | debug output; the function has no caller |
| olecftools/info_handle.c, olecfinfo.c (order of the calls) | Model/Info: the list of items; Model/InfoSet: file information, unallocated blocks, property sets | signals, set-up of the handle |
| olecftools/olecftools_getopt.c, the option loops of olecfexport.c, olecfinfo.c and olecfmount.c | Model/Getopt | messages on stderr, wide character build; only compiled where the platform has no getopt |
| main of olecfinfo.c and olecfexport.c, set-up of the handles in info_handle.c and export_handle.c | Model/Programs | messages on stderr, version banner, progress lines on stdout, the log file of -l, signals |
| main of olecfmount.c, set-up in mount_handle.c and mount_file_system.c | Model/MountProgram | messages, extended options, signals, the kernel side of the mount; set-up of the Dokan build |
| olecftools/mount_path_string.c, mount_handle.c, mount_file_system.c, mount_file_entry.c, mount_fuse.c | Model/Mount: names, paths, lookup, listing, reads, times; Model/Fuse: the operations open, read, release, opendir, readdir, releasedir, getattr with their handles | Windows (dokan) build, FUSE registration, owner fields, destroy |
| libolecf_stream.c and libolecf_io_handle_read_stream, one shared access at a time | Model/Threads | threads in other calls: getting items and sub items, closing |
| the same as built for Windows, olecftools/mount_dokan.c | Model/MountWide: names, paths, lookup; Model/Dokan: the operations; Model/DokanThreads: read requests of several threads | other requests of several threads, Unmount (which does nothing), messages, the kernel side |
| olecftools/export_handle.c | Model/Export: export of the file, items, data files, fallback names; Model/ExportLog: its messages | texts of the formats |
| pyolecf/pyolecf_datetime.c | Model/PyTime: FILETIME to datetime | HFS, FAT and POSIX times (not used by the bindings) |
| pyolecf/pyolecf_items.c, _property_sections.c, _property_values.c, _stream.c, _integer.c, _property_value.c, _file.c, _item.c | Model/Py: sequences, reads and seeks with their arguments, classes of item objects, integer, date and boolean values, format version; Model/PyStream: histories of calls on a stream object; Model/PyThreads: threads that use stream objects; Model/PyLife: reference counts, parents and memory of all objects | keyword parsing, Python 2 variants, getters that pass a field on |
| pyolecf/pyolecf_file.c (init, free, open, open_file_object, close, signal_abort, code page), pyolecf_codepage.c, pyolecf.c (signature checks; open, open_file_object: Model/PyModule), pyolecf_guid.c, lookups by name and path of _file.c and _item.c, _property_set_stream.c, class identifiers, string, bytes and integer getters of _item.c and _property_value.c | Model/PyApi | file names of the Windows build, reference counts of temporaries |
| pyolecf/pyolecf_file_object_io_handle.c | Model/PyFile: read, seek, offset, size over an object with arbitrary methods | write, clone, access flags |
| olecftools/olecf*.c (but for the above), common/*, pyolecf/pyolecf.c | | not modelled: printing, module setup |

## Properties

| id | model | proof | status |
|----|-------|-------|--------|
| C01 C02 C03 | header parse | case analysis; the specification is a serialiser with a field table; round trip | proved |
| C04 | signature check with handle state | all device outcomes and all failing calls | proved |
| C05 | allocation table | list lemmas; induction over histories | proved |
| C06 C07 | table loops with the log of device reads | loop invariants by induction | proved |
| C08 C09 C10 | same loops | refinement to the concatenation of the sectors of a chain | proved |
| C11 | same | false in the code for two of the three tables: witness and general theorem; true for the master table | partial |
| C12 | directory entry decode | round trip with a serialiser | proved |
| C13 C14 C15 | directory loop | invariants; refinement to slots of the concatenated sectors | proved |
| C16 - C20 | tree building | invariant over the marks; link graph specification; measure: entries without mark | proved |
| C21 C22 | lookup by name and by path | induction over the path; specification: split, then iterated lookup | C21 proved, C22 partial (paths of one character) |
| C23 - C33 | stream reads, stream API as state machine | refinement to the bytes along a chain; induction over histories | proved, except C23 (short sectors larger than sectors), C30 (seek overflow), C32 (identifier 0xffffffff) |
| C34 - C37 | file object as state machine, events on handles | invariants and bisimulation over histories | proved, except C36 (getters after a failed open) |
| C38 - C41, C53 | property set readers | specification by positions in the stream; both directions | C40, C53 proved; C38 (big-endian sets), C39 (2^31 units), C41 (32-bit offsets) partial |
| C42 - C44, C54 - C57 | mount tool | round trip, injectivity, induction over the path | C56, C57 proved; others partial, each with the violating input |
| C45 C46 C58 C59 | export tool over an abstract file system | induction over the recursion; frame | C45, C58 proved; C46, C59 partial |
| C60 | a writer of files (specification; times, class identifiers, flags, versions and reserved fields are its parameters) | the file of the writer meets the layout of C47; what an item shows is determined | proved |
| C61 | export of a file that holds a document | bridge between paths in the document and in the items; C47 composed with C59 and C58 | proved |
| C62 | FUSE operations on a file that holds a document | C47 composed with C44 and C43: the mounted path of a part leads to its item | proved |
| C67 | a writer of property sets (specification) | the bytes of the writer meet Spec/PropSet.lean piece by piece; composed with C38, C47 and C60 | proved |
| C63 C64 C66 | FUSE operations as a state machine of open handles | invariants over histories | C63 proved; C64 (directories are never freed), C66 (times) partial |
| C65 | attributes | case analysis; integer division of C | partial (before 1970) |
| C68 | FILETIME to datetime | loop invariants; calendar specified by counting days | partial (31 December 1699) |
| C69 | Python sequences as state machines | induction over histories | partial (second loop) |
| C70 | Python reads and walks | composition with C60; case analysis of the arguments | partial (streams of 2 GiB and more) |
| C71 | class of item objects | case analysis | partial (summary information streams) |
| C72 | values of properties | two's complement by induction over the bytes; composed with C39 and C68 | partial (dates of C68) |
| C73 | format version | composition with C02 and the open of C34 | partial (numbers above 9) |
| C74 | objects, reference counts, memory cells of the bindings | invariant over all programs | partial (close() with live items) |
| C75 | file objects with arbitrary methods | composition of the calls; induction over the reads | partial (reads longer than asked for, size) |
| C76 | names of items; libuna by a contract on names that are Unicode strings (`IsLibuna`) | induction over the path on top of C22 and C60; a decoder of UTF-16 shows that the contract can be met | proved |
| C77 | the item list of olecfinfo, with what is printed before a failure | induction over the hierarchy; the text is decodable: induction over lines and levels; composed with C60 | partial (leading spaces, backslashes, unnamed items) |
| C78 | the printing of property sets by olecfinfo, with what is printed before a failure | the text is specified by pieces of which some cannot be shown; composed with C38, C52, C60, C67, C77; decodable: induction over sections and properties | partial (ends of lines, values that cannot be shown) |
| C79 | number and list of unallocated blocks, olecfinfo -a | the blocks as a set of bytes; no block is ever reported, so exact iff no sector is free | partial (files with free sectors) |
| C80 | all of the open and of the reads | a layout stays one when data is appended; then C47 | proved |
| C81 | the abort flag in histories of calls | two histories that differ in the signals run in step, equal up to the flag | partial (the signal has no effect) |
| C82 | olecftools_getopt and the option loops of the three tools | the syntax as an inductive relation, total; induction over it | partial (-, --word, the argument that is named) |
| C83 | main of olecfinfo from the command line on | composition of C82, openInput, C78_run; negation with a title in windows-1251 | partial (-c is ignored) |
| C84 | main of olecfexport from the command line on | composition of C82, openInput, C61; every operation on the file system may fail | proved |
| C85 | main of olecfmount from the command line on; libfuse by its failures | composition of C82, openInput, C62; Unicode names meet the conditions of C62 | proved |
| C86 | file objects of the Python bindings with their handles | invariant over all histories of calls; exact outcomes from C34; stored documents from C47 and C76 | partial (null characters in names, a second `__init__`) |
| C87 | the code page of a Python file object | induction over histories | partial (deletion, null characters, what is read is refused by the method) |
| C88 | items, names, classes, loops and lookups by name and path of the Python bindings | induction on the document, from C70, C71, C76 and C86 | partial (streams of 2 GiB and more) |
| C89 | property sets, sections and values of the Python bindings | from C38, C40, C69, C72 and C86 | partial (limits of C38 and C68; data of properties without data) |
| C90 | the signature checks of the Python module | from C04 | partial (null characters in names) |
| C91 | times of items in the library, the bindings and the mounted file system | the position of a part in the document is the number of its directory slot: induction over the path; then C60, C65, C68, C85 | partial (31 December 1699 in Python, before 1970 when mounted) |
| C92 | heap of numbered blocks, every request may be refused; the functions on property sets with their `on_error` paths | separation-style triples per function, induction over the loops; refinement to the model without failures if there is memory | partial (the section at which a read fails is lost) |
| C93 | the same heap; making, opening, closing and freeing file objects with the tables, the list of entries and the tree | triples per function, ownership of the entries by list or tree from the marks of the tree builder; induction over histories; refinement to the model of C34 to C37 if there is memory | proved |
| C94 | as C93 | what a successful open has loaded, from the same triples | partial (tables without contents) |
| C95 | as C93, and the items of a program with the pointers they hold (Model/MemItem); programs as lists of calls | invariant of programs: fresh items point into the tree of the open file; each call touches only blocks of the program; a freed block that is used marks the heap for good | proved |
| C96 | as C95 | each call is compared with the models without memory, started from what the program holds; an item needs one block, and only its request can be refused | proved |
| C97 | as C95, with the ranges of what an open leaves behind | invariant: tables, sector sizes and entries of an open file are in range, also if tables were left blank for lack of memory; then C22 and C50 | partial: reads with short sectors of 1 or 2 bytes (C50) and seeks out of range (C30) are undefined |
| C98 | as C95, and the property sets, sections and values a program holds (Model/MemSetItem); a set owns its blocks and points to neither file nor item | invariant of programs: sections and values belong to their sets; per step a frame, with at most one lost section for a failed read (C92); a freed block that is used marks the heap for good | partial (the lost sections) |
| C99 | as C98 | the read of a set under refusal follows the read without memory up to the first refused request (Lemmas/MemFollow); the other calls do not ask for memory | partial: sets with short sectors of 1 or 2 bytes (C50) |
| C100 | as C98 | C47 and C52 for the way down to the item, C38 for the set, C98 for the memory | proved |
| C101 | compound object stream over the heap of C92, reads by the stream reader of C22 (Model/CompObj); specification: a serialiser | each step is compared with the bytes at its position (`Does`), pieces in sequence (`Run`); composed with C47 and C52 for documents | partial: standard clipboard formats, reserved strings above 0x28, slack, second call and far positions are violations |
| C102 | opening with room for a given number of nested calls of the recursion that makes the tree (Model/Stack) | induction over the room; exact by the paths of links; documents of nested storages by the writer of C60 | partial: no fixed amount is enough |
| C103 | names and paths of the build for Windows (Model/MountWide): `^` as escape character, UTF-16 | as C44: induction over the characters; specification by characters and classes of escapes | partial: names with NUL or `\`, reserved names |
| C104 | the operations of mount_dokan.c (Model/Dokan) on a written document | as C63: documents of C60 refined to the listing and reads of a drive | partial: long names, `..`, empty files, OPEN_ALWAYS |
| C105 | histories of operations of mount_dokan.c | invariants of the open contexts by induction | partial: answered but for long names in builds for long paths and short sectors below 4 bytes |
| C106 | threads that make the calls on streams one access to `current_offset` or the file at a time, in any order (Model/Threads) | steps of a thread commute with those on other items, by induction over the schedule; refinement to ordinary files | partial: an item object that two threads use |
| C107 | the reads and the tables of an open (models of C08-C16, C52) | sizes of the reads by induction over the loops, sums over the phases of the open; items injected into the directory entries | partial: not in proportion to the file |
| C108 | the export with any failing operations, writes that are cut short and a crash after any operation (Model/Export, `cut`, `killedAt`) | induction over the recursion with what was made so far as invariant; the export as a sequence of operations that commutes with a crash | partial: the result does not tell of failures |
| C109 | runs of olecfexport on two files (models of C60, C61, C84) | an image determines the file system and is determined by the parts; injectivity of the names | partial: the kind of an empty part is lost |
| C110 | the export with its messages (`exportFileLog`) | refinement to `exportFile`; a predicate kept by every step (messages, new directories, failures); induction on the nesting for exports without failures | proved |
| C111 | the whole open and stream reads on two devices, one damaged (`Damaged`) | simulation through every loop of the readers; exact condition of failing reads; witnesses for lost sector tables: all written documents with a small directory; for a lost short sector table: all files; for a sector table of which the end is lost: reads follow the entries of their chains only | partial |
| C112 | the export of C45/C59/C108/C110 with a source of which reads fail (`Damaged`) | runs that are told to be clean are equal on both sources; induction over the items for what is saved, also for a sector table of which a part is lost (`C112_export_table_partial`); witness for lost sector tables | partial |
| C113 | `Referenced`/`InUse` of Spec/Unused over the layouts of C47: the sectors to which the header, tables or directory entries refer | every sector of a chain is its start or an entry of the table, so the layout carries over to the other file; C47 for what is shown; free sectors are disjoint from used ones | proved; needs that nothing refers to a free sector, which the library does not check (`C113_free_sectors_violated`) |
| C114 | Spec/InPlace: the sectors that the tables, the directory and the other streams reach; `Replaced`: the same document but for the data of one entry | layout and the data of the others carry over as for C113; induction over what the entries hold; C47 for what is shown | proved |
| C115 | Spec/Objects: any number of file objects in one world of handles; the calls of C34 - C37 and C51, freeing, and the signature checks | simulation of each object in the world of all by the object alone, with the handles that the library made renamed; frame lemma per call; induction over the calls | proved; with a handle of the caller in two objects violated |
| C116 | Model/DokanThreads: the threads of libdokan before 2.0 with requests to read, in the steps of Model/Threads | invariant of C106 for threads on separate contexts; the answers alone are those of the drive of C104 and C105; explicit schedules for the violations | partial: violated for two requests for one open file |
| C117 | Model/PyStream: histories of calls on a stream object of Python, and a program that copies a stream | refinement to a file of Spec/PyStream, by induction over the history (C29, C70); opened documents with C47 | partial: a seek to 2^63 or beyond is undefined (C30) |
| C118 | Model/PyThreads: threads with adaptive programs of calls on stream objects, each call split at the release of the lock of the interpreter, in the steps of Model/Threads | invariant of C106 for threads on separate objects; the parts of a call are those of Model/Py (`run_parts`); the answers alone are those of C117; explicit schedules for the violations | partial: violated for an object that two threads use |
| C119 | Model/PyError: the three functions of pyolecf_error.c, with the exception that is set and the references that the bindings own; `repr` and the formatted texts are parameters | case analysis; induction over the buffer and over the failing calls | partial: violated for exceptions of which `repr` fails, and for the release |
| C120 | Model/PyModule: pyolecf.open and pyolecf.open_file_object on top of Model/PyApi | the new object is the initial state of C86: its theorems on open and free are composed | partial: names with a null byte, as in C86 |
| C121 | the loading of C111 with a part of the sector table, the list of C77 | both loads end with the same list of entries, so with the same tree and the same handle; the text of C77 | proved |
| C122 | the mount of C62 to C66 on a source of which reads fail (`Damaged`) | simulation of the two mounts over the history: the same files are open, offsets may differ and do not matter; C111 for one read, C66 for an answer | partial: files that are opened though a read failed (C111), what C66 assumes |
| C47 | composition: layout predicate to what the API shows | refinement | proved |
| C48 | any number of items of one open file | frame: induction over histories | proved |
| C49 | short sector table | exact outcome; the table is cut after 257 sectors | partial |
| C50 | stream reads | undefined behaviour unreachable for sectors of at least 4 bytes; witness for 1-byte sectors | partial |
| C51 | tree | each entry is owned once: from the invariant of C16 | proved |
| C52 | open | composition of the safety theorems | proved |

## Findings in the code

Where a property is false of the code, or the code does something that a reader would not expect.
Those with a theorem are marked with its name.

Library:

- `libolecf_io_handle_read_sat` and `_read_ssat` return 1 from `on_error`: no failure while loading
  these tables is reported (`C11_violated`, `C11_never_reported`).
- A short sector table of more than 257 sectors is silently cut and filled with zeros
  (`C49_ssat_truncated`). A master table of more than 257 sectors is an error (`C08_msat_outcome`).
- Unused entries of the master table that are zero instead of 0xffffffff make the reader read
  sector 0 as a part of the table, as often as there are such entries.
- The bounds check of the SAT loop is made once per sector; the writes of a sector are in bounds only
  because the table size is a multiple of the entries per sector (`C06_sat_size_is_needed`).
- The identifier 0xffffffff as a sector of a chain is the file offset 0 because of the 32-bit wrap: a
  short stream can expose the file header (`C32_header_leak_violated`).
- `read_stream` needs a successor of the last sector of a read in the table, even if it is not used
  (part of `C24_read_succeeds_iff`).
- Short sectors that are larger than sectors are read from consecutive file positions instead of the
  sectors of the container (`C23_large_short_sectors_violated`).
- The sector counter of `read_stream` is an `int`: with short sectors of one byte and a cyclic chain
  it overflows (`C50_counter_overflow_violated`).
- `libolecf_stream_seek_offset` adds without overflow check (`C30_seek_overflow_violated`); a Python program reaches it
  with `seek(2**63 - 1)` and `seek(1, 1)` on any stream (`C117_seek_overflow_violated`).
- A cyclic stream chain may be readable in one read but not in several, because the start index is
  compared with the size of the table (`C24_read_succeeds_iff`).
- Lookup by path returns the start item for every path of one character
  (`C22_one_character_violated`).
- The names of the summary information streams are never recognised: 28 and 20 are numbers of
  characters, compared with sizes in bytes. The comparison can fail, and then the open fails
  (`C20_accepted_iff`, `NameComparable`).
- A missing "next" entry is an error, a missing "previous" or "sub" entry is ignored
  (`C20_accepted_iff`). Sub entries are only followed if the root storage is the first entry.
- If the root storage has no sub entry the start of the short stream container is not set.
- Names of up to 128 bytes are accepted, although the field has 64 (`C12_slot_outcome`).
- A failed open leaves the sector sizes and the version of the rejected file visible in the getters
  (`C36_failed_open_changes_getters_violated`).
- The abort flag is never read: `libolecf_file_signal_abort` has no effect (`C81_no_effect_violated`).
- The list of unallocated blocks is never filled: no file has unallocated blocks
  (`C79_free_sector_violated`).
- Recursion depth of the tree builder is as large as the number of entries; the walk through the short
  stream container takes up to 2^47 steps per sector.
- The section count of a property set is read as 16 bits of a 32-bit field: big-endian sets have no
  sections (`C38_big_endian_violated`), and little-endian ones at most 65535
  (`C38_little_endian_sections`).
- The size of a 16-bit string is doubled in 32 bits (`C39_unit_count_wrap_violated`). Section offset
  and property offset are added in 32 bits (`C41_offset_wrap_violated`).
- A property set that cannot be read loses memory: `on_error` of `libolecf_property_set_read` calls
  `libolecf_property_section_free`, which frees nothing (`C92_failure_violated`,
  `C92_unbounded_violated`).
- `libolecf_io_handle_read_sat` and `libolecf_io_handle_read_ssat` return 1 from `on_error`: when an
  allocation fails in them, the file opens with tables of zeros, and short streams have wrong data
  (`C94_content_violated`).
- BOOLEAN values are read as one byte. The 32-bit getter refuses the INT, UINT and ERROR types.
  Multi-values are read and discarded. UTF-16 strings of big-endian sets are kept as little-endian.

Mount tool:

- A backslash in a name is unescaped to the path separator of the library: the mounted path opens
  another item (`C44_backslash_violated`).
- A name with an embedded NUL character is cut there, so that two items can have the same name
  (`C42_nul_violated`, `C43_nul_violated`); an empty name makes the listing fail (`C42_empty_name`).
- A path with a trailing separator never opens (`C55_trailing_separator_violated`).
- FILETIMEs outside of 1677 - 2262 overflow a signed 64-bit integer (`C54_overflow`).
- Items named `.` and `..` are listed with these names, beside the entries of the directory and of its
  parent (`C43_dot_dot_violated`).
- `mount_fuse_releasedir` does not free the file entry (`C64_directory_leak_violated`).
  `mount_fuse_destroy` frees the mount handle, not the file in it.
- Times before 1970 with a fraction of a second have negative nanoseconds, or are rounded to a later
  second (`C65_before_1970_violated`). `STAT_HAVE_NSEC` is never defined by the project, so the fraction
  of every time is lost.
- A modification time that overflows makes `getattr` of the root directory undefined
  (`C66_time_violated`).
- `opendir` accepts streams. The parent of a directory is always missing, so `..` is listed with mode 0.
  Items of other types (lock bytes, property) are shown as files that cannot be read. The size of the root
  directory is that of the short stream container.
- `mount_file_entry_initialize` copies as many characters as the worst case of the escaped name, also
  those that were not written.

Export tool:

- The fallback name `Item%05d` is written to a buffer of the size of the first name
  (`C46_fallback_name_violated`); the condition is exact (`C46_fallback_name_partial`). Items named
  `.` or `..` suffice.
- A storage with a size other than zero is not exported with its sub items, while the tool reports
  success (`C59_sized_storage_violated`).
- Failures of single items do not change the overall result. A partial data file stays behind. From
  index 99999 on the fallback name is cut and can collide.

Info tool:

- Names are printed without delimiters or an escape of the backslash: a name that starts with spaces looks
  like a sub item (`C77_indentation_violated`), a name like `\x01` like a control character
  (`C77_backslash_violated`).
- Where `char` is signed the bytes of all non-ASCII characters are printed in hexadecimal
  (`C77_non_ascii_violated`).
- One name that cannot be converted, such as that of an unnamed item, ends the whole listing with a failure
  (`C77_unnamed_violated`).
- Strings of property sets are printed as they are: a string with ends of lines looks like further
  properties (`C78_forged_violated`).
- One string or time that cannot be converted, or a property of such a type without data, ends the program:
  the rest of the set and the other set are not shown (`C78_hidden_violated`).
- `olecfinfo -a` prints no blocks for any file (`C79_free_sector_violated`).
- `PIDSI_EDITTIME` is a duration by its specification, it is printed as a date and time.

Programs:

- The option `-c` has no effect in olecfinfo, olecfexport and olecfmount: `*_handle_set_ascii_codepage` stores the
  value in the handle, which nothing reads; the library keeps windows-1252 (`C83_codepage_ignored`,
  `C83_codepage_violated`).
- The code page that a property set declares (`PIDSI_CODEPAGE`) is not used either.
- olecfmount never closes the file (`mount_handle_close` has no caller), and sets no signal handlers of libfuse.
- `olecfexport -t ""` and a source that ends in `/` have an empty target and are refused.
- `libolecf_compound_object_stream_read` has no caller; its markers are compared with `0xffffffe` and
  `0xfffffff` (seven digits), which 32-bit markers of the format never equal.

Command line (platforms without getopt):

- The argument `-` makes `olecftools_getopt` read behind the end of the argument (`C82_dash_violated`).
- An argument that begins with `--` is taken for `--`: it is skipped and ends the options
  (`C82_long_violated`).
- An unknown option with something behind it, as in `-xv`, does not advance `optind`: the message names the
  argument before, or the program itself (`C82_shown_violated`).
- With no arguments at all, not even the name of the program, `argv[ 1 ]` is used.

Python bindings:

- `pyolecf_datetime_new_from_filetime` compares with 36159 after it has added one day: all of 31 December
  1699 raises an exception (`C68_last_day_1699`). The POSIX and HFS variants have the same fault, but are
  not used.
- A sequence object is its own iterator and is never rewound: a second loop sees nothing
  (`C69_second_loop_violated`).
- `read()` without size raises for streams of 2 GiB and more (`C70_large_stream_violated`).
- `pyolecf_file_get_item_type_object` has no property set streams, `pyolecf_item_get_item_type_object` has:
  the class depends on the way to the item (`C71_summary_violated`).
- `get_format_version` refuses numbers above 9; the usual minor version is 62
  (`C73_usual_version_violated`).
- The file object functions copy as many bytes as the `read` method of the Python object returns, which may
  be more than were asked for (`C75_long_read_violated`). `pyolecf_file_object_io_handle_get_size` returns 1
  after an error (`C75_size_violated`).
- `close()` frees what the items of the library point to while Python item objects still refer to them: every
  use of an item after it is undefined (`C74_close_violated`).
- `open("a\0b")` opens the file `a`, `check_file_signature` checks it: `PyBytes_AsString` does not refuse null
  bytes (`C86_nul_violated`, `C90_nul_violated`). The setter of `ascii_codepage` has the same fault
  (`C87_nul_violated`).
- A second `__init__` of an open file object overwrites the pointers to the file and to the handle
  (`C86_init_violated`).
- `del file.ascii_codepage` calls the setter with a null pointer, which is passed on to
  `PyObject_IsInstance` (`C87_delete_violated`). The setter also loses a reference to the UTF-8 string.
- `data` of a property without data (type VT_EMPTY, an array) raises an exception; it is documented to return
  None (`C89_no_data_violated`).
- `get_ascii_codepage` returns `bytes`, which `set_ascii_codepage` refuses (`C87_set_read_violated`).
- Of the mode only the first character is looked at: `rw` and `r+` are accepted and open read-only.
- `pyolecf_open_new_file` loses a reference to None. `check_file_signature_file_object` does not look for the
  methods `read` and `seek`. The names of the ISO 8859 and KOI8 pages are never returned: the library does
  not support these pages.
- `libolecf_compound_object_stream_read` compares the size of the clipboard data with 0x0ffffffe and 0x0fffffff
  (seven digits f), where the format has 0xfffffffe and 0xffffffff: objects with a standard clipboard format
  are refused (`C101_standard_clipboard_violated`, `C101_clipboard_general_violated`).
- It does not leave out reserved strings of more than 0x28 bytes (`C101_reserved_violated`), reads what is
  behind the end of the stream in its last sector (`C101_slack_violated`), starts where the last read ended
  (`C101_again_violated`), and overflows at positions far behind the end (`C101_position_violated`).
- The tree of items is made by a recursion with one nested call for each link, without a limit: a file of
  33 MB with 262000 nested (or chained) entries needs as many stack frames, more than the stack of common
  platforms holds (`C102_deep_document_violated`; the exact depth is `C102_depth_exact`).
- Drives on Windows: the array of a listed name has room for 260 characters, and the buffer of a name 10 times its
  length and one more. Without long paths, a directory with a name of 26 code units or more, such as
  `\005DocumentSummaryInformation` of almost every document of Office, is listed only up to that name and then
  with an error; with long paths the name is written past the end of the array (`C104_long_name_violated`).
- `..` of every directory is shown as a file with no times (`C104_parent_violated`), the size of an empty file is
  not set (`C104_empty_size_violated`), a file is listed as an empty directory (`C104_file_listed_violated`), and
  OPEN_ALWAYS of the older interface does not find existing files (`C104_open_always_violated`).
- Names that Windows reserves are mounted unchanged (`C103_ordinary_violated`); a name with a backslash opens
  another item (`C103_backslash_violated`), a path that ends with a backslash nothing
  (`C103_trailing_separator_violated`). Unlike FUSE (C64), directories are freed when they are closed.
- A stream object that two threads use (the Python bindings release the lock of the interpreter around every call):
  `libolecf_stream_read_buffer` loads `current_offset` four times. A seek between the check in line 131 and the
  computation in line 133 of libolecf_stream.c makes it read the whole stream into a smaller buffer
  (`C106_shared_overflow_violated`); two reads at offsets may return the bytes of each other
  (`C106_shared_bytes_violated`). Objects of their own, even for the same stream, are enough to be safe
  (`C106_document_partial`). The Windows build of `olecfmount` asks for several threads if the version of Dokan is
  older than 2.0 (`ThreadCount = 0`, olecfmount.c:492-496): there two reads from one open file are such a pair;
  C105 is for one request at a time, which is what newer versions and libfuse (`fuse_loop`) do; C116 is for several.
- The tables get the size that the header declares before anything of them is read, and missing sectors are no
  error: a file of 1536 bytes is opened and takes 256 MiB (`C107_proportional_violated`). Everything an open
  does is bounded for all files, though (`C107_reads`, `C107_memory`).
- `olecfexport` prints a message for an item that fails but goes on, and ends with success: the exit status is
  success exactly if the export directory could be made (`C108_part_of_image`). With a disk that is full from
  then on, it succeeds with an empty directory (`C108_success_violated`). What is left behind is a part of the
  document at every moment, though.
- The export makes a directory with a data file for every item, whatever its type. An empty storage and an
  empty stream give the same export (`C109_kind_violated`); everything else of a document is kept
  (`C109_export_faithful`).
- The messages of an export tell every failure (`C110_failures_told`), the exit status does not
  (`C108_success_violated`). The log counts items from 0 in `Processing item` (export_handle.c:807-812) and from 1 in
  `Unable to export sub item` (export_handle.c:1485-1489).
- A file of which the sector table cannot be read, e.g. because its end is missing, opens: `read_sat` returns 1 from
  `on_error` (libolecf_io_handle.c:714-720) and the table has zeros. If the directory is the first sector of the
  file, as in the files of the writer of C60, all names and sizes are shown, and the second sector of a long stream
  is shown as the directory instead of its data, without any error (`C111_open_violated`,
  `C111_written_violated`). Damage outside of the tables is noticed (`C111_document_partial`, `C111_truncated`).
  A lost short sector table is not noticed either: then the hierarchy, the sizes and all streams that are not short
  are still right (`C111_short_table_partial`), but short streams of more than one short sector show data of other
  streams (`C111_short_violated`). If the end of the sector table is lost, streams whose sectors the rest describes are
  still right (`C111_table_partial`, `C111_table_cut`).
  The export tool exports such a file with success, without any message of a failure, and with other data than
  the stored (`C112_export_damaged_violated`).
- A stream may have its data in sectors that the sector table marks as free: the library does not compare the marks with
  the chains.  A tool that wipes the free sectors of such a file destroys the stream, and the file still opens
  (`C113_free_sectors_violated`).
- Two file objects on one handle of the caller that was not open: the first one opens it and remembers that; when it is
  closed, it closes the handle, and the second object, which is still open, has a closed handle
  (`C115_shared_handle_violated`).
- olecfmount leaves the number of threads of libdokan before 2.0 at its default (olecfmount.c:495), but the requests for
  one open file share the offset of its item.  Of two at the same time one may be answered with bytes from the offset of
  the other (`C116_same_handle_bytes_violated`), or write the whole stream to a buffer of a few bytes
  (`C116_same_handle_overflow_violated`).
- The Python bindings release the lock of the interpreter around the calls of the library and have no lock of their own:
  two threads that read from one stream object get each other's bytes (`C118_shared_bytes_violated`) or write behind the
  end of a bytes object (`C118_shared_overflow_violated`).
- An exception of a file-like object that the bindings fetch is never released: PyErr_Fetch passes three references, of
  which none is given back, so each failing read keeps the exception and the frames of its traceback for good, and
  `pyolecf_error_fetch_and_raise` keeps a bytes object in addition (`C119_kept_violated`). If `repr` of the exception
  raises, PyUnicode_AsUTF8String is called with a null pointer (`C119_repr_violated`): Python code of a file-like
  object can crash the interpreter.
- `pyolecf.open` and `pyolecf.open_file_object` do not release the reference to `None` that the inner open returns
  (pyolecf.c:472-478 and 523-529): before Python 3.12 its count grows with each call. Not modelled (C120).

## Wrong programs

`seeded/LOG.jsonl` has one line per wrong program: the definition of the model that was edited, the
edit, the claim it breaks, the first lemmas or theorems that do not check any more
(`first_failing`), the property theorems that rest on them (`theorems_failed`), and the theorems that
were strengthened because of it (`theorems_tightened`).
