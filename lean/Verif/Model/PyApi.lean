import Verif.Model.Py
import Verif.Model.Programs
import Verif.Model.InfoSet

/-
  Model of the calls of the Python bindings on a file object (opening, closing, the code page, the
  signature check), and of the attributes of items, property sets and property values that are strings,
  bytes or integers.  An exception of Python is `err`.
-/

namespace Olecf

/-! ### Text -/

/-- A Python object given where a text is expected: a `str` (its code points, which need not be
  characters), a `bytes` object, or something else. -/
inductive PyText where
  | str (cs : List Nat)
  | bytes (b : Bytes)
  | other
  deriving Repr, DecidableEq

/-- The conversions of CPython: `PyUnicode_AsUTF8String` and `PyUnicode_DecodeUTF8` without error
  handler (`none`: an exception). -/
structure PyCodec where
  encode : List Nat → Option Bytes
  decode : Bytes → Option (List Nat)

/-- The name of a file as the library gets it: pyolecf_file.c:489-649 (in pyolecf_file_open) and
  pyolecf.c:175-338 (in pyolecf_check_file_signature).  `PyBytes_AsString` returns a pointer to the buffer of
  the object, and does not refuse null bytes in it; the library takes the string up to the first one. -/
def pyFileName (py : PyCodec) : PyText → Res Bytes
  | .str cs =>
    match py.encode cs with
    | some b => .ok (cString b)
    | none => .err
  | .bytes b => .ok (cString b)
  | .other => .err

/-- The format `s` of `PyArg_ParseTupleAndKeywords`: a `str`, encoded in UTF-8, without null
  characters. -/
def pyFormatS (py : PyCodec) : PyText → Res Bytes
  | .str cs =>
    match py.encode cs with
    | some b => if b.contains 0 then .err else .ok b
    | none => .err
  | _ => .err

/-- The argument `mode` of `open` and `open_file_object`, pyolecf_file.c:467-488 and 676-697: `none` if it
  is not given.  Only the first character is looked at. -/
def pyMode (py : PyCodec) : Option PyText → Res Unit
  | none => .ok ()
  | some t => do
    let b ← pyFormatS py t
    if b.head? = some 114 then pure () else .err

/-- What the bindings use: CPython; libuna; libclocale (`libclocale_codepage_copy_from_string` for the code
  pages of Windows, `none`: a return value other than 1). -/
structure PyEnv where
  py : PyCodec
  u : Libuna
  codepageOf : Bytes → Option Int

/-! ### File objects -/

/-- `pyolecf_file_t`, pyolecf_file.h:38-51: the file of the library with the handles, the number of the
  handle in `file_io_handle`; further the number of handles that were made for Python objects, and the
  handles among them that exist.  Each of these holds a reference to its Python object
  (pyolecf_file_object_io_handle.c:98-101, 226-229). -/
structure PyFile where
  lib : FileState
  ioHandle : Option Nat
  made : Nat
  live : List Nat

/-- pyolecf_file.c:272-308 (pyolecf_file_init), on an object with what it had before. -/
def pyInit (st : PyFile) : PyFile :=
  { st with lib := ⟨OleFile.new, st.lib.world⟩, ioHandle := none }

/-- A new file object; there are no handles. -/
def PyFile.new : PyFile := ⟨⟨OleFile.new, .fresh⟩, none, 0, []⟩

/-- pyolecf_file.c:437-649 (pyolecf_file_open).  `files`: what the file of a name delivers, and which calls
  of libbfio fail while it is opened. -/
def pyOpen (env : PyEnv) (files : Bytes → Dev × Faults) (name : PyText) (mode : Option PyText)
    (st : PyFile) : Res Unit × PyFile :=
  match pyMode env.py mode with
  | .ok _ =>
    match pyFileName env.py name with
    | .ok b =>
      let r := openName (env.u.cmp8 (fileOrder (files b).1)) (files b).1 1 (files b).2 st.lib
      (match r.1 with
        | .ok _ => .ok ()
        | e => e.failed, { st with lib := r.2 })
    | e => (e.failed, st)
  | e => (e.failed, st)

/-- A Python object given as a file object: the methods that are looked for, and what reading from it
  delivers (see `fobjReadAt`). -/
structure PyFileArg where
  hasRead : Bool
  hasSeek : Bool
  dev : Dev

/-- pyolecf_file_object_io_handle.c:118-205 (pyolecf_file_object_initialize): a handle for a Python object.
  It is open (pyolecf_file_object_io_handle.c:1228-1260). -/
def World.addObject (w : World) (n : Nat) (dev : Dev) : World :=
  { w with isOpen := fun k => if k = .user n then true else w.isOpen k
           dev := fun k => if k = .user n then dev else w.dev k }

/-- pyolecf_file.c:654-788 (pyolecf_file_open_file_object).  `free` frees the handle: the reference to the
  Python object is given up. -/
def pyOpenObject (env : PyEnv) (obj : PyFileArg) (mode : Option PyText) (st : PyFile) :
    Res Unit × PyFile :=
  match pyMode env.py mode with
  | .ok _ =>
    if !obj.hasRead then (.err, st)
    else if !obj.hasSeek then (.err, st)
    else if st.ioHandle.isSome then (.err, st)
    else
      let r := openHandle (env.u.cmp8 (fileOrder obj.dev)) (.user st.made) 1 {}
        ⟨st.lib.file, st.lib.world.addObject st.made obj.dev⟩
      match r.1 with
      | .ok _ => (.ok (), ⟨r.2, some st.made, st.made + 1, st.made :: st.live⟩)
      | e => (e.failed, ⟨r.2, none, st.made + 1, st.live⟩)
  | e => (e.failed, st)

/-- pyolecf_file.c:793-861 (pyolecf_file_close). -/
def pyClose (flt : Faults) (st : PyFile) : Res Unit × PyFile :=
  match (closeFile flt st.lib).1 with
  | .ok _ =>
    match st.ioHandle with
    | none => (.ok (), { st with lib := (closeFile flt st.lib).2 })
    | some n =>
      (if flt.free then .err else .ok (),
        { st with lib := (closeFile flt st.lib).2, ioHandle := none, live := st.live.erase n })
  | e => (e.failed, { st with lib := (closeFile flt st.lib).2 })

/-- pyolecf_file.c:312-383 (pyolecf_file_free): the handles afterwards.  When the file cannot be closed,
  nothing else is done. -/
def pyFree (flt : Faults) (st : PyFile) : World × List Nat :=
  if st.ioHandle.isSome then
    match (pyClose flt st).1 with
    | .ok _ => ((freeFile flt (pyClose flt st).2.lib).2, (pyClose flt st).2.live)
    | _ => ((pyClose flt st).2.lib.world, (pyClose flt st).2.live)
  else ((freeFile flt st.lib).2, st.live)

/-- pyolecf_file.c:388-432 (pyolecf_file_signal_abort). -/
def pySignalAbort (st : PyFile) : PyFile := { st with lib := ⟨signalAbort st.lib.file, st.lib.world⟩ }

/-- pyolecf_codepage.c:32-137 (pyolecf_codepage_to_string), with the constants of
  include/libolecf/codepage.h. -/
def pyCodepageName (cp : Int) : Option Bytes :=
  if cp = 20127 then some (ascii "ascii")
  else if cp = 28591 then some (ascii "iso-8859-1")
  else if cp = 28592 then some (ascii "iso-8859-2")
  else if cp = 28593 then some (ascii "iso-8859-3")
  else if cp = 28594 then some (ascii "iso-8859-4")
  else if cp = 28595 then some (ascii "iso-8859-5")
  else if cp = 28596 then some (ascii "iso-8859-6")
  else if cp = 28597 then some (ascii "iso-8859-7")
  else if cp = 28598 then some (ascii "iso-8859-8")
  else if cp = 28599 then some (ascii "iso-8859-9")
  else if cp = 28600 then some (ascii "iso-8859-10")
  else if cp = 28601 then some (ascii "iso-8859-11")
  else if cp = 28603 then some (ascii "iso-8859-13")
  else if cp = 28604 then some (ascii "iso-8859-14")
  else if cp = 28605 then some (ascii "iso-8859-15")
  else if cp = 28606 then some (ascii "iso-8859-16")
  else if cp = 20866 then some (ascii "koi8_r")
  else if cp = 21866 then some (ascii "koi8_u")
  else if cp = 874 then some (ascii "cp874")
  else if cp = 932 then some (ascii "cp932")
  else if cp = 936 then some (ascii "cp936")
  else if cp = 949 then some (ascii "cp949")
  else if cp = 950 then some (ascii "cp950")
  else if cp = 1250 then some (ascii "cp1250")
  else if cp = 1251 then some (ascii "cp1251")
  else if cp = 1252 then some (ascii "cp1252")
  else if cp = 1253 then some (ascii "cp1253")
  else if cp = 1254 then some (ascii "cp1254")
  else if cp = 1255 then some (ascii "cp1255")
  else if cp = 1256 then some (ascii "cp1256")
  else if cp = 1257 then some (ascii "cp1257")
  else if cp = 1258 then some (ascii "cp1258")
  else none

/-- pyolecf_file.c:970-1044 (pyolecf_file_get_ascii_codepage): a `bytes` object. -/
def pyGetCodepage (st : PyFile) : Res Bytes :=
  match pyCodepageName (getCodepage st.lib.file) with
  | some s => .ok s
  | none => .err

/-- pyolecf_file.c:1049-1124 (pyolecf_file_set_ascii_codepage_from_string). -/
def pySetCodepageFrom (env : PyEnv) (s : Bytes) (st : PyFile) : Res Unit × PyFile :=
  match env.codepageOf s with
  | none => (.err, st)
  | some cp =>
    ((setCodepage st.lib.file cp).1,
      { st with lib := ⟨(setCodepage st.lib.file cp).2, st.lib.world⟩ })

/-- pyolecf_file.c:1129-1159 (pyolecf_file_set_ascii_codepage): the method. -/
def pySetCodepage (env : PyEnv) (arg : PyText) (st : PyFile) : Res Unit × PyFile :=
  match pyFormatS env.py arg with
  | .ok s => pySetCodepageFrom env s st
  | e => (e.failed, st)

/-- pyolecf_file.c:1164-1277 (pyolecf_file_set_ascii_codepage_setter): an assignment to the attribute.
  `none` is a deletion of the attribute: the setter is called with a null pointer, which
  `PyObject_IsInstance` uses. -/
def pyAssignCodepage (env : PyEnv) (arg : Option PyText) (st : PyFile) : Res Unit × PyFile :=
  match arg with
  | none => (.ub, st)
  | some (.str cs) =>
    match env.py.encode cs with
    | some b => pySetCodepageFrom env (cString b) st
    | none => (.err, st)
  | some (.bytes b) => pySetCodepageFrom env (cString b) st
  | some .other => (.err, st)

/-! ### The signature check -/

/-- pyolecf.c:137-339 (pyolecf_check_file_signature), with the handles of the library, which refuses an
  empty name (libolecf_support.c:128-141). -/
def pyCheckSignature (env : PyEnv) (files : Bytes → Dev × Faults) (name : PyText) (w : World) :
    Res Bool × World :=
  match pyFileName env.py name with
  | .ok b => if b.isEmpty then (.err, w) else checkSignatureName (files b).1 (files b).2 w
  | e => (e.failed, w)

/-- pyolecf.c:344-439 (pyolecf_check_file_signature_file_object): the outcome, and whether the reference to
  the Python object is given up.  The methods of the object are not looked for.  `freeFails`: what
  `libbfio_handle_free` returns. -/
def pyCheckSignatureObject (obj : PyFileArg) (freeFails : Bool) : Res Bool × Bool :=
  match (checkSignature (.user 0) {} (World.fresh.addObject 0 obj.dev)).1 with
  | .ok b => (if freeFails then .err else .ok b, true)
  | e => (e.failed, true)

/-! ### Items -/

/-- `PyUnicode_DecodeUTF8` of the first `size - 1` bytes of a buffer of `size` bytes of which `b` were
  written.  Undefined if not all of them were written. -/
def pyDecode (py : PyCodec) (b : Bytes) (size : Nat) : Res (Option (List Nat)) :=
  if b.length < size - 1 then .ub
  else match py.decode (b.take (size - 1)) with
    | some cs => .ok (some cs)
    | none => .err

/-- pyolecf_item.c:413-531 (pyolecf_item_get_name): `none` is `None`. -/
def pyItemName (env : PyEnv) (io : IoHandle) (it : Item) : Res (Option (List Nat)) := do
  let size ← itemUtf8NameSize env.u io it
  if size = 0 then pure none
  else do
    let b ← itemUtf8Name env.u io it (some size)
    pyDecode env.py b size

/-- The name that is looked at for the class of an item object (see `itemClass`), pyolecf_item.c:927-964:
  without the end of string character.  A name of another size is not asked for. -/
def pyUtf8Name (u : Libuna) (io : IoHandle) (d : DirEntry) : Option Bytes :=
  match itemUtf8NameSize u io (.ofEntry d) with
  | .ok size =>
    if size = 20 ∨ size = 28 then
      match itemUtf8Name u io (.ofEntry d) (some size) with
      | .ok b => some (b.take (size - 1))
      | _ => none
    else some []
  | _ => none

/-- pyolecf_item.c:534-588 (pyolecf_item_get_size), with libolecf_item.c:543-589
  (`libolecf_item_get_size`). -/
def pyItemSize (it : Item) : Nat := it.entry.size

/-- pyolecf_item.c:652-706 (pyolecf_item_get_creation_time_as_integer). -/
def pyItemCreation (it : Item) : Nat := itemCreationTime it

/-- pyolecf_item.c:770-824 (pyolecf_item_get_modification_time_as_integer). -/
def pyItemModification (it : Item) : Nat := itemModificationTime it

/-- pyolecf_item.c:593-647 (pyolecf_item_get_creation_time). -/
def pyItemCreationTime (api : DateTimeApi) (it : Item) : Res PyDateTime :=
  datetimeFromFiletime api (itemCreationTime it)

/-- pyolecf_item.c:711-765 (pyolecf_item_get_modification_time). -/
def pyItemModificationTime (api : DateTimeApi) (it : Item) : Res PyDateTime :=
  datetimeFromFiletime api (itemModificationTime it)

/-- pyolecf_file.c:1516-1620 (pyolecf_file_get_item_by_path), with its argument (see
  `pyItemByPath`). -/
def pyFileByPath (env : PyEnv) (io : IoHandle) (t : Option Tree) (path : PyText) :
    Res (Option PyItem) := do
  let b ← pyFormatS env.py path
  pyItemByPath (itemByPath env.u.dec8 (env.u.cmp8 io.byteOrder) t (rootItem t)) b

/-- pyolecf_item.c:1291-1394 (pyolecf_item_get_sub_item_by_path), with its argument (see
  `pySubItemBy`). -/
def pySubItemByPath (env : PyEnv) (io : IoHandle) (t : Tree) (p : PyItem) (path : PyText) :
    Res (Option PyItem) := do
  let b ← pyFormatS env.py path
  pySubItemBy (pyUtf8Name env.u io)
    (itemByPath env.u.dec8 (env.u.cmp8 io.byteOrder) (some t) (some p.item)) b

/-- pyolecf_item.c:1183-1286 (pyolecf_item_get_sub_item_by_name), with its argument. -/
def pySubItemByName (env : PyEnv) (io : IoHandle) (t : Tree) (p : PyItem) (name : PyText) :
    Res (Option PyItem) := do
  let b ← pyFormatS env.py name
  pySubItemBy (pyUtf8Name env.u io) (getSubItemByName (env.u.cmp8 io.byteOrder) t p.item) b

/-! ### Property sets -/

/-- pyolecf_property_set_stream.c:163-230 (pyolecf_property_set_stream_get_set), at a position of the
  stream.  Objects of the other classes have no such method. -/
def pyGetSet (f : FileCtx) (p : PyItem) (cur : Nat) : Res PropSet :=
  if p.cls = .propertySetStream then (readSet f p.item.entry cur).1 else .err

/-- pyolecf_guid.c:34-127 (pyolecf_string_new_from_guid): the first 36 bytes of the text are decoded. -/
def pyGuid (py : PyCodec) (libs : InfoLibs) (b : Bytes) : Res (Option (List Nat)) :=
  match libs.guid b with
  | none => .err
  | some s => pyDecode py s 37

/-- pyolecf_property_set.c:341-397 (pyolecf_property_set_get_class_identifier) and
  pyolecf_property_section.c:341-397 (pyolecf_property_section_get_class_identifier).  The library copies
  the 16 bytes of the class identifier. -/
def pySetClass (py : PyCodec) (libs : InfoLibs) (s : PropSet) : Res (Option (List Nat)) :=
  pyGuid py libs s.classId

def pySectionClass (py : PyCodec) (libs : InfoLibs) (s : PropSection) : Res (Option (List Nat)) :=
  pyGuid py libs s.classId

/-- pyolecf_property_value.c:527-646 (pyolecf_property_value_get_data), with
  libolecf_property_value.c:1132-1211: `none` is `None`.  The size is that of the data. -/
def pyData (p : PropValue) : Res (Option Bytes) := do
  let b ← p.data
  if b.length = 0 then pure none else pure (some b)

/-- pyolecf_property_value.c:972-1086 (pyolecf_property_value_get_data_as_string). -/
def pyString (py : PyCodec) (libs : InfoLibs) (p : PropValue) : Res (Option (List Nat)) := do
  let size ← p.asString fun enc b => ofUna (libs.textSize enc b)
  if size = 0 then pure none
  else do
    let s ← p.asString fun enc b => ofUna (libs.textCopy enc b size)
    pyDecode py s size

/-- pyolecf_property_value.c:409-463 (pyolecf_property_value_get_identifier), with
  libolecf_property_value.c:1052-1087. -/
def pyIdentifier (p : PropValue) : Nat := p.identifier

/-- pyolecf_property_value.c:468-522 (pyolecf_property_value_get_value_type), with
  libolecf_property_value.c:1092-1127. -/
def pyValueType (p : PropValue) : Nat := p.type

end Olecf
