import Verif.Model.Item
import Verif.Model.Stream
import Verif.Model.PropSet
import Verif.Model.File
import Verif.Model.PyTime

/-
  Model of the Python bindings (pyolecf/*.c) for Python 3: the arguments of the stream methods, the
  sequence objects, the class of an item object, the values of properties and the format version.
  An exception of Python is `err`.
-/

namespace Olecf

/-- A Python object given as the size of a read: missing, `None`, an integer (`PyLong_Type`, whose
  instances include the booleans) or something else. -/
inductive PyArg where
  | missing
  | none
  | int (n : Int)
  | other
  deriving Repr, DecidableEq

/-- pyolecf/pyolecf_integer.c:249-398 (pyolecf_integer_unsigned_copy_to_64bit) for an integer.
  `PyLong_AsUnsignedLongLong` fails for a value outside of 64 bits; its result is kept in a signed
  variable, which must not be negative. -/
def pyUnsigned64 (n : Int) : Res Nat :=
  if n < 0 ∨ 2 ^ 64 ≤ n then .err
  else
    let long : Int := if n < 2 ^ 63 then n else n - 2 ^ 64
    if long < 0 then .err else .ok long.toNat

/-- pyolecf/pyolecf_stream.c:238-330: the number of bytes to read. -/
def pyReadSize (d : DirEntry) : PyArg → Res Nat
  | .int n => pyUnsigned64 n
  | .missing => .ok d.size
  | .none => .ok d.size
  | .other => .err

/-- pyolecf/pyolecf_stream.c:198-417 (pyolecf_stream_read_buffer) for an item with the current
  offset `cur`: the bytes object and the new offset. -/
def pyRead (f : FileCtx) (d : DirEntry) (cur : Int) (size : PyArg) : Res Bytes × Int :=
  match pyReadSize d size with
  | .ok n =>
    if n = 0 then (.ok [], cur)
    else if n > INT_MAX ∨ n > SSIZE_MAX then (.err, cur)
    else ((streamRead f d cur n).1.res, (streamRead f d cur n).2)
  | .err => (.err, cur)
  | .ub => (.ub, cur)
  | .hang => (.hang, cur)

/-- pyolecf/pyolecf_stream.c:418-612 (pyolecf_stream_read_buffer_at_offset).  The offset is parsed
  with the format `L`: an integer outside of 64 bits is an error. -/
def pyReadAt (f : FileCtx) (d : DirEntry) (cur : Int) (size : PyArg) (offset : Int) :
    Res Bytes × Int :=
  if ¬ inOff64 offset then (.err, cur)
  else match size with
    | .int v =>
      match pyUnsigned64 v with
      | .ok n =>
        if n = 0 then (.ok [], cur)
        else if n > INT_MAX ∨ n > SSIZE_MAX then (.err, cur)
        else ((streamReadAt f d cur n offset).1.res, (streamReadAt f d cur n offset).2)
      | _ => (.err, cur)
    | _ => (.err, cur)

/-- pyolecf/pyolecf_stream.c:617-674 (pyolecf_stream_seek_offset).  `whence` is an `int`, 0 if it
  is not given. -/
def pySeek (d : DirEntry) (cur offset : Int) (whence : Int) : Res Unit × Int :=
  if ¬ inOff64 offset ∨ whence < -(2 ^ 31) ∨ 2 ^ 31 ≤ whence then (.err, cur)
  else
    let w : Whence := if whence = 0 then .set else if whence = 1 then .cur
      else if whence = 2 then .fromEnd else .other
    match streamSeek d cur offset w with
    | (.ok _, cur) => (.ok (), cur)
    | (.err, cur) => (.err, cur)
    | (.ub, cur) => (.ub, cur)
    | (.hang, cur) => (.hang, cur)

/-! ### Sequences -/

/-- pyolecf/pyolecf_items.h (pyolecf_items_t): the sequence of the sub items of an item.  The same
  for the sections of a property set (pyolecf_property_sections.c) and the values of a section
  (pyolecf_property_values.c), whose code is the same up to names.  `get` is `get_item_by_index` on the parent
  object. -/
structure PySeq (α : Type) where
  get : Int → Res α
  current : Int
  number : Int

/-- pyolecf/pyolecf_items.c:154-216 (pyolecf_items_new). -/
def PySeq.new (get : Int → Res α) (number : Int) : PySeq α := ⟨get, 0, number⟩

/-- pyolecf/pyolecf_items.c:299-314 (pyolecf_items_len). -/
def PySeq.len (s : PySeq α) : Int := s.number

/-- pyolecf/pyolecf_items.c:318-367 (pyolecf_items_getitem). -/
def PySeq.getitem (s : PySeq α) (i : Int) : Res α :=
  if s.number < 0 then .err
  else if i < 0 ∨ s.number ≤ i then .err
  else s.get i

/-- The answer of `next()`. -/
inductive PyNext (α : Type) where
  | item (a : α)
  | stop
  | raised
  deriving Repr, DecidableEq

/-- pyolecf/pyolecf_items.c:393-451 (pyolecf_items_iternext).  An undefined outcome
  of `get` is not told from an exception here: none of the functions used as `get` has one, see
  `C69_gets_defined`. -/
def PySeq.next (s : PySeq α) : PyNext α × PySeq α :=
  if s.current < 0 then (.raised, s)
  else if s.number < 0 then (.raised, s)
  else if s.number ≤ s.current then (.stop, s)
  else match s.get s.current with
    | .ok a => (.item a, { s with current := s.current + 1 })
    | _ => (.raised, s)

/-- A `for` loop of Python over a sequence object: `iter()` gives the object itself
  (pyolecf/pyolecf_items.c:371-389), `next()` is called until it stops or raises.  The items the
  body sees, whether the loop ended without an exception, and the sequence object after the loop.
  `n` bounds the number of rounds. -/
def PySeq.forLoop : Nat → PySeq α → List α × Res Unit × PySeq α
  | 0, s => ([], .hang, s)
  | n + 1, s =>
    match s.next with
    | (.stop, s) => ([], .ok (), s)
    | (.raised, s) => ([], .err, s)
    | (.item a, s) =>
      let (l, r, s) := forLoop n s
      (a :: l, r, s)

/-- pyolecf/pyolecf_property_set.c:558-613 (pyolecf_property_set_get_sections). -/
def pySections (s : PropSet) : PySeq PropSection := .new s.section_ s.numberOfSections

/-- pyolecf/pyolecf_property_section.c:558-613 (pyolecf_property_section_get_properties). -/
def pyProperties (s : PropSection) : PySeq PropValue := .new s.property s.numberOfProperties

/-! ### The class of an item object -/

inductive PyClass where
  | item
  | stream
  | propertySetStream
  deriving Repr, DecidableEq

/-- "\005SummaryInformation", pyolecf/pyolecf_item.c:965. -/
def pySummaryName : Bytes := 5 :: ("SummaryInformation".toList.map fun c => UInt8.ofNat c.toNat)

/-- "\005DocumentSummaryInformation", pyolecf/pyolecf_item.c:975. -/
def pyDocumentSummaryName : Bytes :=
  5 :: ("DocumentSummaryInformation".toList.map fun c => UInt8.ofNat c.toNat)

/-- pyolecf/pyolecf_file.c:1375-1419 (pyolecf_file_get_item_type_object): the class of an object
  that is asked of the file. -/
def fileClass (d : DirEntry) : PyClass := if d.type = typeStream then .stream else .item

/-- pyolecf/pyolecf_item.c:885-1001 (pyolecf_item_get_item_type_object): the class of an object
  that is asked of an item.  `utf8Name` stands for `libolecf_item_get_utf8_name_size` and
  `libolecf_item_get_utf8_name` (the name without end of string character, `none`: one of them
  fails); the string comparison ends at an end of string character, which the two names do not
  have. -/
def itemClass (utf8Name : DirEntry → Option Bytes) (d : DirEntry) : Res PyClass :=
  if d.type = typeStream then
    match utf8Name d with
    | none => .err
    | some name =>
      if name.length + 1 = 20 ∧ name = pySummaryName then .ok .propertySetStream
      else if name.length + 1 = 28 ∧ name = pyDocumentSummaryName then .ok .propertySetStream
      else .ok .stream
  else .ok .item

/-- An item object: its class and the item. -/
structure PyItem where
  cls : PyClass
  item : Item
  deriving Repr, DecidableEq

/-- pyolecf/pyolecf_file.c:1424-1511 (pyolecf_file_get_root_item): `none` is `None`. -/
def pyRootItem (t : Option Tree) : Option PyItem :=
  (rootItem t).map fun i => ⟨fileClass i.entry, i⟩

/-- pyolecf/pyolecf_item.c:1006-1086 (pyolecf_item_get_sub_item_by_index). -/
def pySubItem (utf8Name : DirEntry → Option Bytes) (t : Tree) (p : PyItem) (i : Int) :
    Res PyItem := do
  let sub ← getSubItem t p.item i
  let cls ← itemClass utf8Name sub.entry
  pure ⟨cls, sub⟩

/-- pyolecf/pyolecf_item.c:1119-1178 (pyolecf_item_get_sub_items). -/
def pySubItems (utf8Name : DirEntry → Option Bytes) (t : Tree) (p : PyItem) : PySeq PyItem :=
  .new (pySubItem utf8Name t p) (numberOfSubItems t p.item)

/-- pyolecf/pyolecf_file.c:1516-1620 (pyolecf_file_get_item_by_path), with the lookup of the
  library (`itemByPath`). -/
def pyItemByPath (lookup : Bytes → Res (Option Item)) (path : Bytes) : Res (Option PyItem) := do
  match ← lookup path with
  | some i => pure (some ⟨fileClass i.entry, i⟩)
  | none => pure none

/-- pyolecf/pyolecf_item.c:1183-1286 and 1291-1394 (pyolecf_item_get_sub_item_by_name and
  pyolecf_item_get_sub_item_by_path), with the lookup of the library. -/
def pySubItemBy (utf8Name : DirEntry → Option Bytes) (lookup : Bytes → Res (Option Item))
    (path : Bytes) : Res (Option PyItem) := do
  match ← lookup path with
  | some i =>
    let cls ← itemClass utf8Name i.entry
    pure (some ⟨cls, i⟩)
  | none => pure none

/-! ### Values -/

/-- Conversion to a signed integer of `bits` bits. -/
def toSigned (bits n : Nat) : Int :=
  if n % 2 ^ bits < 2 ^ (bits - 1) then ((n % 2 ^ bits : Nat) : Int)
  else ((n % 2 ^ bits : Nat) : Int) - 2 ^ bits

/-- Conversion of a signed 64-bit integer to an unsigned one. -/
def toUnsigned64 (n : Int) : Nat := (n % 2 ^ 64).toNat

/-- pyolecf/pyolecf_property_value.c:709-880 (pyolecf_property_value_get_data_as_integer).  The
  value goes through an `int64_t`. -/
def pyInteger (p : PropValue) : Res Int := do
  let value : Int ←
    if p.type = 0x2 ∨ p.type = 0x12 then do
      let v ← p.as16
      pure (if p.type = 0x2 then toSigned 16 v else (v : Int))
    else if p.type = 0x3 ∨ p.type = 0x13 then do
      let v ← p.as32
      pure (if p.type = 0x3 then toSigned 32 v else (v : Int))
    else if p.type = 0x14 ∨ p.type = 0x15 then do
      let v ← p.as64
      pure (if p.type = 0x14 then toSigned 64 v else toSigned 64 v)
    else if p.type = 0x40 then do
      let v ← p.asFiletime
      pure (toSigned 64 v)
    else .err
  if p.type = 0x2 ∨ p.type = 0x3 ∨ p.type = 0x14 then pure value
  else pure (toUnsigned64 value)

/-- pyolecf/pyolecf_property_value.c:885-967 (pyolecf_property_value_get_data_as_datetime).  For a
  value that cannot be read the object of the date 0 is made, and dropped. -/
def pyDatetime (api : DateTimeApi) (p : PropValue) : Res PyDateTime :=
  if p.type = 0x40 then
    match p.asFiletime with
    | .ok v => datetimeFromFiletime api v
    | .err => .err
    | .ub => .ub
    | .hang => .hang
  else .err

/-- pyolecf/pyolecf_property_value.c:651-704 (pyolecf_property_value_get_data_as_boolean). -/
def pyBoolean (p : PropValue) : Res Bool := do
  let v ← p.asBoolean
  pure (v ≠ 0)

/-- pyolecf/pyolecf_file.c:1282-1370 (pyolecf_file_get_format_version): the characters of the
  string. -/
def pyFormatVersion (file : OleFile) : Res Bytes :=
  let (major, minor) := getFormatVersion file
  if major > 9 then .err
  else if minor > 9 then .err
  else .ok [UInt8.ofNat (48 + major), 46, UInt8.ofNat (48 + minor)]

end Olecf
