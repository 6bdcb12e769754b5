import Verif.Model.Info
import Verif.Model.PropSet
import Verif.Model.File

/-
  olecftools/info_handle.c (file information, unallocated blocks, property sets) and the order of the
  calls in olecftools/olecfinfo.c, on a platform where `system_character_t` is `char`.
-/

namespace Olecf

/-- What the tool uses of libfguid, libfole, libfdatetime and libfvalue, which are not part of the
  repository. -/
structure InfoLibs where
  /-- `libfguid_identifier_copy_from_byte_stream` (little-endian) and
    `libfguid_identifier_copy_to_utf8_string` (lower case): the text of the 16 bytes without its end of
    string character (`none`: return value -1). -/
  guid : Bytes → Option Bytes
  /-- `libfole_value_type_get_identifier`: a string constant, without the end of string character. -/
  typeName : Nat → Bytes
  /-- `libfdatetime_filetime_copy_to_utf8_string`, without the end of string character. -/
  date : Nat → Option Bytes
  /-- `libfvalue_value_get_utf8_string_size` for data in an encoding. -/
  textSize : Encoding → Bytes → Option Nat
  /-- `libfvalue_value_copy_to_utf8_string` for data in an encoding and a string of the given size: what
    is written from the start of the string on. -/
  textCopy : Encoding → Bytes → Nat → Option Bytes

/-- `info_handle_class_identifier_summary_information`, info_handle.c:40-41. -/
def summaryClass : Bytes :=
  [0xe0, 0x85, 0x9f, 0xf2, 0xf9, 0x4f, 0x68, 0x10, 0xab, 0x91, 0x08, 0x00, 0x2b, 0x27, 0xb3, 0xd9]

/-- `info_handle_class_identifier_document_summary_information`, info_handle.c:43-44. -/
def documentSummaryClass : Bytes :=
  [0x02, 0xd5, 0xcd, 0xd5, 0x9c, 0x2e, 0x1b, 0x10, 0x93, 0x97, 0x08, 0x00, 0x2b, 0x2c, 0xf9, 0xae]

/-- The inner `switch` statements for the document summary information, info_handle.c:992-1109, with the
  constants of include/libolecf/definitions.h.in:103-121. -/
def documentSummaryProperty (type id : Nat) : Option String :=
  match type with
  | 0x0002 => match id with
    | 0x1 => some "PIDDSI_CODEPAGE"
    | _ => none
  | 0x0003 => match id with
    | 0x4 => some "PIDDSI_BYTECOUNT"
    | 0x5 => some "PIDDSI_LINECOUNT"
    | 0x6 => some "PIDDSI_PARCOUNT"
    | 0x7 => some "PIDDSI_SLIDECOUNT"
    | 0x8 => some "PIDDSI_NOTECOUNT"
    | 0x9 => some "PIDDSI_HIDDENCOUNT"
    | 0xa => some "PIDDSI_MMCLIPCOUNT"
    | _ => none
  | 0x000b => match id with
    | 0xb => some "PIDDSI_SCALE"
    | 0x10 => some "PIDDSI_LINKSDIRTY"
    | _ => none
  | 0x001e | 0x001f => match id with
    | 0x2 => some "PIDDSI_CATEGORY"
    | 0x3 => some "PIDDSI_PRESFORMAT"
    | 0xe => some "PIDDSI_MANAGER"
    | 0xf => some "PIDDSI_COMPANY"
    | _ => none
  | 0x100c => match id with
    | 0xc => some "PIDDSI_HEADINGPAIR"
    | _ => none
  | 0x101e | 0x101f => match id with
    | 0xd => some "PIDDSI_DOCPARTS"
    | _ => none
  | _ => none

/-- The inner `switch` statements for the summary information, info_handle.c:1117-1239, with the constants
  of include/libolecf/definitions.h.in:77-98. -/
def summaryProperty (type id : Nat) : Option String :=
  match type with
  | 0x0002 => match id with
    | 0x1 => some "PIDSI_CODEPAGE"
    | _ => none
  | 0x0003 => match id with
    | 0xe => some "PIDSI_PAGECOUNT"
    | 0xf => some "PIDSI_WORDCOUNT"
    | 0x10 => some "PIDSI_CHARCOUNT"
    | 0x13 => some "PIDSI_SECURITY"
    | _ => none
  | 0x001e | 0x001f => match id with
    | 0x2 => some "PIDSI_TITLE"
    | 0x3 => some "PIDSI_SUBJECT"
    | 0x4 => some "PIDSI_AUTHOR"
    | 0x5 => some "PIDSI_KEYWORDS"
    | 0x6 => some "PIDSI_COMMENTS"
    | 0x7 => some "PIDSI_TEMPLATE"
    | 0x8 => some "PIDSI_LASTAUTHOR"
    | 0x9 => some "PIDSI_REVNUMBER"
    | 0x12 => some "PIDSI_APPNAME"
    | _ => none
  | 0x0040 => match id with
    | 0xa => some "PIDSI_EDITTIME"
    | 0xb => some "PIDSI_LASTPRINTED"
    | 0xc => some "PIDSI_CREATE_DTM"
    | 0xd => some "PIDSI_LASTSAVE_DTM"
    | _ => none
  | 0x0047 => match id with
    | 0x11 => some "PIDSI_THUMBNAIL"
    | _ => none
  | _ => none

/-- `property_value_identifier_string`, info_handle.c:985-1240: 16 bytes are compared. -/
def identifierName (cls : Bytes) (type id : Nat) : Option String :=
  if cls.take 16 = documentSummaryClass then documentSummaryProperty type id
  else if cls.take 16 = summaryClass then summaryProperty type id
  else none

/-- `"\tValue identifier\t: "` and what follows up to the end of the line, info_handle.c:1241-1267. -/
def infoIdentifier (name : Option String) (id : Nat) : Bytes :=
  ascii "\tValue identifier\t: " ++
    (match name with
    | some n => ascii n ++ ascii " ("
    | none => []) ++ ascii "0x" ++ hexFixed 8 id ++
    (match name with
    | some _ => ascii ")"
    | none => []) ++ ascii "\n"

/-- The line with the type, info_handle.c:1269-1274. -/
def infoType (libs : InfoLibs) (type : Nat) : Bytes :=
  ascii "\tValue type\t\t: " ++ libs.typeName type ++ ascii " (0x" ++ hexFixed 8 type ++ ascii ")\n"

/-- `"\tValue data\t\t: ...\n"`. -/
def infoData (text : Bytes) : Bytes := ascii "\tValue data\t\t: " ++ text ++ ascii "\n"

/-- The line with the data; nothing for types whose data is not printed. -/
def infoDataLine : Option Bytes → Bytes
  | some s => infoData s
  | none => []

/-- `%" PRIi16 "` etc.: the decimal text of an unsigned integer cast to the signed type of the same
  width. -/
def signedText (bits v : Nat) : Bytes :=
  if v < 2 ^ (bits - 1) then decimal v else 0x2d :: decimal (2 ^ bits - v)

/-- `%s`: the bytes up to the first end of string character; without one, bytes are read that were not
  written. -/
def printString : Bytes → Res Bytes
  | [] => .ub
  | c :: r => if c = 0 then .ok [] else do
      let s ← printString r
      pure (c :: s)

/-- The two calls and the print for a string, info_handle.c:1393-1482: `libolecf_property_value_get_data_as_utf8_string_size`
  and `libolecf_property_value_get_data_as_utf8_string` return 1 or -1 only, a size beyond `SSIZE_MAX` is
  refused. -/
def infoString (libs : InfoLibs) (p : PropValue) : Res Bytes := do
  let size ← p.asString fun enc b => ofUna (libs.textSize enc b)
  if size > SSIZE_MAX then .err
  else do
    let text ← p.asString fun enc b => ofUna (libs.textCopy enc b size)
    printString text

/-- The `switch` for the value data, info_handle.c:1276-1569: the text to print, if there is one. -/
def infoValueData (libs : InfoLibs) (p : PropValue) : Res (Option Bytes) :=
  match p.type with
  | 0x000b => do
    let v ← p.asBoolean
    pure (some (if v ≠ 0 then ascii "true" else ascii "false"))
  | 0x0002 => do
    let v ← p.as16
    pure (some (signedText 16 v))
  | 0x0012 => do
    let v ← p.as16
    pure (some (decimal v))
  | 0x0003 => do
    let v ← p.as32
    pure (some (signedText 32 v))
  | 0x0013 => do
    let v ← p.as32
    pure (some (decimal v))
  | 0x0014 => do
    let v ← p.as64
    pure (some (signedText 64 v))
  | 0x0015 => do
    let v ← p.as64
    pure (some (decimal v))
  | 0x001e | 0x001f => do
    let s ← infoString libs p
    pure (some s)
  | 0x0040 => do
    let v ← p.asFiletime
    let s ← ofUna (libs.date v)
    pure (some (s ++ ascii " UTC"))
  | _ => pure none

/-- `info_handle_property_value_fprint`, info_handle.c:925-1593. -/
def infoValue (libs : InfoLibs) (cls : Bytes) (p : PropValue) : Printed Unit :=
  printThen (printed (infoIdentifier (identifierName cls p.type p.identifier) p.identifier)) fun _ =>
    printThen (printed (infoType libs p.type)) fun _ =>
      printThen (quiet (infoValueData libs p)) fun data =>
        printThen (printed (infoDataLine data)) fun _ => printed (ascii "\n")

/-- The loops over the properties of a section, info_handle.c:1732-1784, and over the sections of a set,
  info_handle.c:1944-1996: `n` iterations from `index` on.  `title` is the text before the number, `get`
  the function that gives the element. -/
def infoElements (title : Bytes) (get : Int → Res α) (f : α → Printed Unit) :
    Nat → Nat → Printed Unit
  | 0, _ => printed []
  | n + 1, index =>
    printThen (printed (title ++ decimal (index + 1) ++ ascii "\n")) fun _ =>
      printThen (quiet (get index)) fun a =>
        printThen (f a) fun _ => infoElements title get f n (index + 1)

/-- The lines with the class identifier and the number of elements, info_handle.c:1623-1730 and
  :1835-1942. -/
def infoHead (libs : InfoLibs) (cls : Bytes) (label : Bytes) (n : Int) : Printed Bytes :=
  printThen (quiet (copyClassId cls 16)) fun data =>
    printThen (quiet (ofUna (libs.guid data))) fun text =>
      printThen (printed (ascii "\tClass identifier\t: " ++ text ++ ascii "\n")) fun _ =>
        printThen (printed (label ++ decimal n.toNat ++ ascii "\n" ++ ascii "\n")) fun _ =>
          quiet (.ok data)

/-- `info_handle_property_section_fprint`, info_handle.c:1598-1807. -/
def infoSection (libs : InfoLibs) (s : PropSection) : Printed Unit :=
  printThen (infoHead libs s.classId (ascii "\tNumber of properties\t: ") s.numberOfProperties)
    fun cls => infoElements (ascii "\tProperty: ") s.property (infoValue libs cls)
      s.numberOfProperties.toNat 0

/-- `info_handle_property_set_fprint`, info_handle.c:1812-2019. -/
def infoSet (libs : InfoLibs) (s : PropSet) : Printed Unit :=
  printThen (infoHead libs s.classId (ascii "\tNumber of sections\t: ") s.numberOfSections)
    fun _ => infoElements (ascii "\tSection: ") s.section_ (infoSection libs)
      s.numberOfSections.toNat 0

/-- `info_handle_property_set_stream_fprint`, info_handle.c:2024-2094.  The item was just looked up, its
  stream is at offset 0. -/
def infoSetStream (libs : InfoLibs) (f : FileCtx) (it : Item) : Printed Unit :=
  printThen (quiet (readSet f it.entry 0).1) fun s => infoSet libs s

/-- The names the tool looks for, info_handle.c:2144-2149 and :2252-2257. -/
def summaryStream : Bytes := 5 :: ascii "SummaryInformation"
def documentSummaryStream : Bytes := 5 :: ascii "DocumentSummaryInformation"

/-- `info_handle_document_summary_information_fprint`, info_handle.c:2099-2205, and
  `info_handle_summary_information_fprint`, info_handle.c:2210-2314: they differ in the name and the
  title.  `root` is what `libolecf_file_get_root_item` gives. -/
def infoSummary (env : InfoEnv) (libs : InfoLibs) (f : FileCtx) (name title : Bytes)
    (root : Option Item) : Printed Unit :=
  match root with
  | none => printed []
  | some it =>
    printThen (quiet (getSubItemByName (env.u.cmp8 env.io.byteOrder) env.tree it name)) fun found =>
      match found with
      | none => printed []
      | some s => printThen (printed title) fun _ => infoSetStream libs f s

/-- `libolecf_file_get_number_of_unallocated_blocks`, libolecf_file.c:1498-1552.  The field
  `unallocated_block_list` is `NULL` after `libolecf_file_initialize` (`memory_set`, libolecf_file.c:91-94)
  and is not assigned by any other function, so that the list is absent for every file. -/
def numberOfUnallocatedBlocks (_ : OleFile) : Res Nat := .ok 0

/-- `libolecf_file_get_unallocated_block`, libolecf_file.c:1557-1600: the list is absent (see
  `numberOfUnallocatedBlocks`), and libcdata is taken to refuse `NULL`. -/
def unallocatedBlock (_ : OleFile) (_ : Int) : Res (Nat × Nat) := .err

/-- `info_handle_file_fprint`, info_handle.c:382-471. -/
def infoFile (file : OleFile) : Printed Unit :=
  printThen (quiet (getSectorSize file)) fun sector =>
    printThen (quiet (getShortSectorSize file)) fun short =>
      printed (ascii "OLE Compound File information:\n" ++
        (ascii "\tVersion\t\t\t: " ++ decimal (getFormatVersion file).1 ++ ascii "." ++
          decimal (getFormatVersion file).2 ++ ascii "\n") ++
        (ascii "\tSector size\t\t: " ++ decimal sector ++ ascii "\n") ++
        (ascii "\tShort sector size\t: " ++ decimal short ++ ascii "\n") ++ ascii "\n")

/-- `%08" PRIi64 "` of an offset that is not negative. -/
def decimal8 (n : Nat) : Bytes := List.replicate (8 - (decimal n).length) 0x30 ++ decimal n

/-- `%08" PRIx64 "`: at least eight digits, more if the number has more. -/
def hex8 (n : Nat) : Bytes := hexFixed (max 8 (Nat.log2 n / 4 + 1)) n

/-- The loop over the blocks, info_handle.c:829-854. -/
def infoBlocksLoop (get : Int → Res (Nat × Nat)) : Nat → Nat → Printed Unit
  | 0, _ => printed []
  | n + 1, index =>
    printThen (quiet (get index)) fun (offset, size) =>
      printThen (printed (ascii "\t" ++ decimal8 offset ++ ascii " (0x" ++ hex8 offset ++ ascii ") - " ++
          decimal8 (offset + size) ++ ascii " (0x" ++ hex8 (offset + size) ++ ascii ") size: " ++
          decimal size ++ ascii "\n")) fun _ =>
        infoBlocksLoop get n (index + 1)

/-- `info_handle_unallocated_blocks_fprint`, info_handle.c:787-861. -/
def infoBlocks (file : OleFile) : Printed Unit :=
  printThen (quiet (numberOfUnallocatedBlocks file)) fun n =>
    printThen (printed (ascii "Unallocated blocks:\n")) fun _ =>
      printThen (infoBlocksLoop (unallocatedBlock file) n 0) fun _ => printed (ascii "\n")

/-- What `main` prints of an opened file, olecfinfo.c:281-333: a call that fails ends the program.
  `blocks` is `show_allocation_information`.  `file` was opened: it has a directory tree and allocation
  tables, or the functions that need them are not reached. -/
def infoMain (env : InfoEnv) (libs : InfoLibs) (file : OleFile) (f : FileCtx) (fuel : Nat)
    (blocks : Bool) (root : Option Item) : Printed Unit :=
  printThen (infoFile file) fun _ =>
    printThen (infoItems env fuel root) fun _ =>
      printThen (if blocks then infoBlocks file else printed []) fun _ =>
        printThen (infoSummary env libs f summaryStream (ascii "Summary information:\n") root) fun _ =>
          infoSummary env libs f documentSummaryStream (ascii "Document summary information:\n") root

end Olecf
