import Verif.Model.Stream

/-
  libolecf/libolecf_property_value.c
  libolecf/libolecf_property_section.c
  libolecf/libolecf_property_set.c
  libolecf/libolecf_property_set_stream.c
-/

namespace Olecf

/-- A step of a reader that works on a stream: from the current offset of the stream to the
  outcome and the offset afterwards, which is kept by failures as well. -/
def Reader (α : Type) := Int → Res α × Int

namespace Reader

/-- Sequencing: the next step starts at the offset the previous one left. -/
def bind (m : Reader α) (k : α → Reader β) : Reader β := fun cur =>
  match m cur with
  | (.ok a, cur) => k a cur
  | (.err, cur) => (.err, cur)
  | (.ub, cur) => (.ub, cur)
  | (.hang, cur) => (.hang, cur)

instance : Monad Reader where
  pure a := fun cur => (.ok a, cur)
  bind := Reader.bind

/-- A step that does not touch the stream. -/
def of (r : Res α) : Reader α := fun cur => (r, cur)

/-- `return( -1 )`. -/
def fail : Reader α := of .err

end Reader

/-- `libolecf_stream_seek_offset( property_set_stream, offset, SEEK_SET )`. -/
def seekTo (d : DirEntry) (offset : Int) : Reader Unit := fun cur =>
  match streamSeek d cur offset .set with
  | (.ok _, cur) => (.ok (), cur)
  | (.err, cur) => (.err, cur)
  | (.ub, cur) => (.ub, cur)
  | (.hang, cur) => (.hang, cur)

/-- `libolecf_stream_get_offset`. -/
def tell (d : DirEntry) : Reader Int := fun cur => (streamGetOffset d cur, cur)

/-- `read_count = libolecf_stream_read_buffer( ..., size )` and the check that `read_count` is
  `size`, e.g. libolecf_property_value.c:286-303. -/
def readExactly (f : FileCtx) (d : DirEntry) (size : Nat) : Reader Bytes := fun cur =>
  match streamRead f d cur size with
  | (out, cur) =>
    match out.res with
    | .ok b => if b.length = size then (.ok b, cur) else (.err, cur)
    | .err => (.err, cur)
    | .ub => (.ub, cur)
    | .hang => (.hang, cur)

/-- `UINT32_MAX`. -/
abbrev UINT32_MAX : Nat := 0xffffffff

/-- The `value_encoding` of a libfvalue value. -/
inductive Encoding where
  | byteOrder (e : Endian)
  | codepage (cp : Int)
  | utf16le
  deriving Repr, DecidableEq

/-- A `libfvalue_value_t`: its encoding and the data that was set, if data was set.  libfvalue is
  not part of the repository; `libfvalue_value_type_initialize` is taken to create a value
  without data, `libfvalue_value_set_data` to keep data and encoding as given. -/
structure FValue where
  encoding : Encoding
  data : Option Bytes
  deriving Repr, DecidableEq

/-- `libolecf_internal_property_value_t`, libolecf_property_value.h.  `value` is `data_value`
  (`none` for `NULL`). -/
structure PropValue where
  identifier : Nat
  type : Nat
  value : Option FValue
  deriving Repr, DecidableEq

/-- What the `switch` of `libolecf_property_value_read_data` decides,
  libolecf_property_value.c:351-460: the size of the data (`fixed`), that a size precedes the data
  (`variable`), `is_multi_value`, or `LIBFVALUE_VALUE_TYPE_UNDEFINED`. -/
inductive ValueClass where
  | fixed (size : Nat)
  | variable
  | multi
  | undefined
  deriving Repr, DecidableEq

/-- The `switch`, libolecf_property_value.c:351-460, with the constants of
  include/libolecf/ole.h. -/
def classify : Nat → ValueClass
  | 0x000b => .fixed 1
  | 0x0010 => .fixed 1
  | 0x0011 => .fixed 1
  | 0x0002 => .fixed 2
  | 0x0012 => .fixed 2
  | 0x0003 => .fixed 4
  | 0x0013 => .fixed 4
  | 0x000a => .fixed 4
  | 0x0016 => .fixed 4
  | 0x0017 => .fixed 4
  | 0x0004 => .fixed 4
  | 0x0005 => .fixed 8
  | 0x0014 => .fixed 8
  | 0x0015 => .fixed 8
  | 0x0007 => .fixed 8
  | 0x0006 => .fixed 8
  | 0x0040 => .fixed 8
  | 0x0048 => .fixed 16
  | 0x000e => .fixed 16
  | 0x001e => .variable
  | 0x001f => .variable
  | 0x0041 => .variable
  | 0x0047 => .variable
  | 0x101e => .multi
  | 0x101f => .multi
  | 0x0000 => .variable
  | 0x0001 => .variable
  | 0x0008 => .variable
  | 0x0009 => .variable
  | 0x000c => .variable
  | 0x000d => .variable
  | 0x0018 => .variable
  | 0x0019 => .variable
  | 0x001a => .variable
  | 0x001b => .variable
  | 0x001c => .variable
  | 0x001d => .variable
  | 0x0042 => .variable
  | 0x0043 => .variable
  | 0x0044 => .variable
  | 0x0045 => .variable
  | 0x0046 => .variable
  | 0x0049 => .variable
  | 0x100c => .variable
  | _ => .undefined

/-- `LIBOLECF_VALUE_TYPE_STRING_ASCII`, include/libolecf/ole.h. -/
abbrev typeAscii : Nat := 0x1e

/-- `LIBOLECF_VALUE_TYPE_STRING_UNICODE`, include/libolecf/ole.h. -/
abbrev typeUnicode : Nat := 0x1f

/-- `value_encoding`, libolecf_property_value.c:342-349, 416 and 422. -/
def valueEncoding (io : IoHandle) (e : Endian) (type : Nat) : Encoding :=
  if type = typeAscii then .codepage io.codepage
  else if type = typeUnicode then .utf16le
  else .byteOrder e

/-- The size of a string of bytes with its terminator: the loop
  libolecf_property_value.c:834-849. -/
def asciiSize (data : Bytes) (size : Nat) : Nat → Nat → Res Nat
  | 0, i => .ok i
  | fuel + 1, i =>
    if i < size then do
      let c ← rdByte data i
      if c = 0 then pure (i + 1) else asciiSize data size fuel (i + 1)
    else .ok i

/-- The size of a string of 16-bit units with its terminator: the loop
  libolecf_property_value.c:854-868.  The second operand of `&&` is only read if the first one
  holds. -/
def unicodeSize (data : Bytes) (size : Nat) : Nat → Nat → Res Nat
  | 0, i => .ok i
  | fuel + 1, i =>
    if i < size then do
      let c ← rdByte data i
      if c = 0 then do
        let c ← rdByte data (i + 1)
        if c = 0 then pure (i + 2) else unicodeSize data size fuel (i + 2)
      else unicodeSize data size fuel (i + 2)
    else .ok i

/-- The loop over the values of a multi-value property, libolecf_property_value.c:537-702, `n`
  iterations, `offset` is `property_data_offset`.  The data is read and discarded. -/
def multiLoop (f : FileCtx) (d : DirEntry) (e : Endian) : Nat → Nat → Reader Unit
  | 0, _ => pure ()
  | n + 1, offset =>
    if offset ≥ UINT32_MAX - 4 then .fail
    else do
      let b ← readExactly f d 4
      let offset := (offset + 4) % 2 ^ 32
      let size ← Reader.of (rd32 e b 0)
      if offset ≥ UINT32_MAX - size then .fail
      else if size = 0 ∨ size > MAX_ALLOC then .fail
      else do
        let _ ← readExactly f d size
        multiLoop f d e n ((offset + size) % 2 ^ 32)

/-- The size that is kept of the data that was read, libolecf_property_value.c:832-870. -/
def keptSize (type : Nat) (data : Bytes) (size : Nat) : Res Nat :=
  if type = typeAscii then asciiSize data size (size + 1) 0
  else if type = typeUnicode then unicodeSize data size (size + 1) 0
  else .ok size

/-- The size in bytes of the data: `value_data_size *= 2` for 16-bit strings, in 32 bits,
  libolecf_property_value.c:767-770. -/
def dataSize (type size : Nat) : Nat :=
  if type = typeUnicode then (size * 2) % 2 ^ 32 else size

/-- The data of a value that is not a multi-value, from `value_data_size` on,
  libolecf_property_value.c:765-891: `size` bytes of data, twice as many for 16-bit strings, cut
  after the terminator of a string. -/
def readValueData (f : FileCtx) (d : DirEntry) (e : Endian) (type size : Nat) :
    Reader FValue := do
  if size = 0 then pure ⟨valueEncoding f.io e type, none⟩
  else
    let size := dataSize type size
    if size = 0 ∨ size > MAX_ALLOC then .fail
    else do
      let data ← readExactly f d size
      let size ← Reader.of (keptSize type data size)
      if size > 0 then do
        let data ← Reader.of (rdBytes data 0 size)
        pure ⟨valueEncoding f.io e type, some data⟩
      else pure ⟨valueEncoding f.io e type, none⟩

/-- `libolecf_property_value_read_data`, libolecf_property_value.c:192-928: `value_type` and
  `data_value`. -/
def readValue (f : FileCtx) (d : DirEntry) (e : Endian) (offset : Nat) :
    Reader (Nat × Option FValue) := do
  if offset ≥ UINT32_MAX - 4 then .fail
  else
    seekTo d offset
    let b ← readExactly f d 4
    let offset := (offset + 4) % 2 ^ 32
    let type ← Reader.of (rd32 e b 0)
    match classify type with
    | .multi =>
      if offset ≥ UINT32_MAX - 4 then .fail
      else do
        let b ← readExactly f d 4
        let n ← Reader.of (rd32 e b 0)
        multiLoop f d e n ((offset + 4) % 2 ^ 32)
        pure (type, none)
    | .undefined => pure (type, none)
    | .fixed size => do
      let v ← readValueData f d e type size
      pure (type, some v)
    | .variable => do
      let b ← readExactly f d 4
      let size ← Reader.of (rd32 e b 0)
      let v ← readValueData f d e type size
      pure (type, some v)

/-- `libolecf_property_value_read_list_entry`, libolecf_property_value.c:933-1047: the identifier
  and the offset of the data. -/
def readValueEntry (f : FileCtx) (d : DirEntry) (e : Endian) : Reader (Nat × Nat) := do
  let b ← readExactly f d 8
  let id ← Reader.of (rd32 e b 0)
  let off ← Reader.of (rd32 e b 4)
  pure (id, off)

/-- The loop over the properties of a section, libolecf_property_section.c:563-745, `n`
  iterations: `entry` is `property_values_list_entry_offset`.  The offset of the value is the sum
  of two 32-bit values, computed in 32 bits (:643). -/
def propsLoop (f : FileCtx) (d : DirEntry) (e : Endian) (section_ : Nat) :
    Nat → Int → Reader (List PropValue)
  | 0, _ => pure []
  | n + 1, entry => do
    seekTo d entry
    let (id, off) ← readValueEntry f d e
    if off ≤ 8 then .fail
    else do
      let entry ← tell d
      let (type, value) ← readValue f d e ((section_ + off) % 2 ^ 32)
      let rest ← propsLoop f d e section_ n entry
      pure (⟨id, type, value⟩ :: rest)

/-- `libolecf_internal_property_section_t`, libolecf_property_section.h. -/
structure PropSection where
  classId : Bytes
  properties : List PropValue
  deriving Repr, DecidableEq

/-- `libolecf_property_section_read`, libolecf_property_section.c:434-754. -/
def readSection (f : FileCtx) (d : DirEntry) (e : Endian) (offset : Nat) :
    Reader (List PropValue) := do
  seekTo d offset
  let b ← readExactly f d 8
  let n ← Reader.of (rd32 e b 4)
  propsLoop f d e offset n (offset + 8)

/-- `libolecf_property_section_read_list_entry`, libolecf_property_section.c:208-266 and
  `libolecf_property_section_read_list_entry_data`, :271-429: the class identifier and the offset
  of the section. -/
def readSectionEntry (f : FileCtx) (d : DirEntry) (e : Endian) : Reader (Bytes × Nat) := do
  let b ← readExactly f d 20
  let off ← Reader.of (rd32 e b 16)
  let cls ← Reader.of (rdBytes b 0 16)
  pure (cls, off)

/-- The loop over the sections, libolecf_property_set.c:437-545. -/
def sectionsLoop (f : FileCtx) (d : DirEntry) (e : Endian) :
    Nat → Int → Reader (List PropSection)
  | 0, _ => pure []
  | n + 1, entry => do
    seekTo d entry
    let (cls, off) ← readSectionEntry f d e
    let entry ← tell d
    let props ← readSection f d e off
    let rest ← sectionsLoop f d e n entry
    pure (⟨cls, props⟩ :: rest)

/-- `libolecf_property_set_t`, libolecf_property_set.h.  `byteOrder` is not kept by the C code
  beyond the call that reads the set. -/
structure PropSet where
  classId : Bytes
  sections : List PropSection
  deriving Repr, DecidableEq

/-- `libolecf_property_set_read_header_data`, libolecf_property_set.c:180-367: the byte order, the
  class identifier and the number of sections.  The number is a `uint16_t` that is copied from
  the first two of the four bytes of the field (:288-290, :305-307). -/
def readSetHeader (b : Bytes) : Res (Endian × Bytes × Nat) := do
  let b0 ← rdByte b 0
  let b1 ← rdByte b 1
  if b0 = 0xfe ∧ b1 = 0xff then do
    let cls ← rdBytes b 8 16
    let n ← rd16 .little b 24
    pure (.little, cls, n)
  else if b0 = 0xff ∧ b1 = 0xfe then do
    let cls ← rdBytes b 8 16
    let n ← rd16 .big b 24
    pure (.big, cls, n)
  else .err

/-- `libolecf_property_set_read`, libolecf_property_set.c:372-563, behind
  `libolecf_property_set_stream_get_set`, libolecf_property_set_stream.c:37-119: on an error the
  set that was built is freed, the stream keeps the offset it has reached. -/
def readSet (f : FileCtx) (d : DirEntry) : Reader PropSet := do
  seekTo d 0
  let b ← readExactly f d 28
  let (e, cls, n) ← Reader.of (readSetHeader b)
  let sections ← sectionsLoop f d e n 28
  pure ⟨cls, sections⟩

/-! ### Getters -/

/-- An array entry: `libcdata_array_get_entry_by_index`, taken to fail for an index outside of
  the array. -/
def arrayGet (l : List α) (i : Int) : Res α :=
  if i < 0 then .err
  else match l[i.toNat]? with
    | some a => .ok a
    | none => .err

/-- `libolecf_property_set_get_class_identifier`, libolecf_property_set.c:570-629, and
  `libolecf_property_section_get_class_identifier`, libolecf_property_section.c:759-818: the
  16 bytes that are copied to a buffer of `size` bytes. -/
def copyClassId (cls : Bytes) (size : Nat) : Res Bytes :=
  if size < 16 ∨ size > SSIZE_MAX then .err else .ok cls

/-- `libolecf_property_set_get_number_of_sections`, libolecf_property_set.c:634-670. -/
def PropSet.numberOfSections (s : PropSet) : Int := s.sections.length

/-- `libolecf_property_set_get_section_by_index`, libolecf_property_set.c:675-729. -/
def PropSet.section_ (s : PropSet) (i : Int) : Res PropSection := arrayGet s.sections i

/-- `libolecf_property_section_get_number_of_properties`, libolecf_property_section.c:823-859. -/
def PropSection.numberOfProperties (s : PropSection) : Int := s.properties.length

/-- `libolecf_property_section_get_property_by_index`, libolecf_property_section.c:864-904. -/
def PropSection.property (s : PropSection) (i : Int) : Res PropValue := arrayGet s.properties i

/-- `libfvalue_value_get_entry_data` and the `libfvalue_value_copy_data` behind
  `libolecf_property_value_get_data`, libolecf_property_value.c:1173-1211 (deprecated name: 1725-1804): the data that was set.
  libfvalue is taken to fail for `NULL` and for a value without data, and the buffer of the caller
  to be as large as `libolecf_property_value_get_data_size` (:1132-1168) reports. -/
def PropValue.data (p : PropValue) : Res Bytes :=
  match p.value with
  | some ⟨_, some b⟩ => .ok b
  | _ => .err

/-- `libfvalue_value_copy_to_{8,16,32,64}bit`: the integer in the data, in the byte order that was
  set with the data.  libfvalue is taken to fail for a value without data, for data of another
  size and for a value with an encoding that is not a byte order. -/
def PropValue.copyInt (p : PropValue) (size : Nat) (rd : Endian → Bytes → Nat → Res Nat) :
    Res Nat :=
  match p.value with
  | some ⟨.byteOrder e, some b⟩ => if b.length = size then rd e b 0 else .err
  | _ => .err

/-- `libolecf_property_value_get_data_as_boolean`, libolecf_property_value.c:1216-1267; the
  deprecated `get_value_boolean`, 1809-1860, is the same code. -/
def PropValue.asBoolean (p : PropValue) : Res Nat :=
  if p.type ≠ 0xb then .err else p.copyInt 1 (fun _ => rdByte)

/-- `libolecf_property_value_get_data_as_16bit_integer`, libolecf_property_value.c:1272-1322; the
  deprecated `get_value_16bit`, 1865-1915, is the same code. -/
def PropValue.as16 (p : PropValue) : Res Nat :=
  if p.type ≠ 0x2 ∧ p.type ≠ 0x12 then .err else p.copyInt 2 rd16

/-- `libolecf_property_value_get_data_as_32bit_integer`, libolecf_property_value.c:1327-1377; the
  deprecated `get_value_32bit`, 1920-1970, is the same code. -/
def PropValue.as32 (p : PropValue) : Res Nat :=
  if p.type ≠ 0x3 ∧ p.type ≠ 0x13 then .err else p.copyInt 4 rd32

/-- `libolecf_property_value_get_data_as_64bit_integer`, libolecf_property_value.c:1382-1432; the
  deprecated `get_value_64bit`, 1975-2025, is the same code. -/
def PropValue.as64 (p : PropValue) : Res Nat :=
  if p.type ≠ 0x14 ∧ p.type ≠ 0x15 then .err else p.copyInt 8 rd64

/-- `libolecf_property_value_get_data_as_filetime`, libolecf_property_value.c:1437-1487; the
  deprecated `get_value_filetime`, 2030-2079, is the same code. -/
def PropValue.asFiletime (p : PropValue) : Res Nat :=
  if p.type ≠ 0x40 then .err else p.copyInt 8 rd64

/-- `libolecf_property_value_get_data_as_utf8_string` and `..._utf16_string` and their sizes,
  libolecf_property_value.c:1492-1716 (deprecated names: 2085-2309).  `conv` is the conversion libfvalue makes of data in an
  encoding; libfvalue is taken to fail for a value without data. -/
def PropValue.asString (conv : Encoding → Bytes → Res α) (p : PropValue) : Res α :=
  if p.type ≠ typeAscii ∧ p.type ≠ typeUnicode then .err
  else match p.value with
    | some ⟨enc, some b⟩ => conv enc b
    | _ => .err

end Olecf
