import Verif.Model.PropSet
import Verif.Model.Memory

/-
  The memory of property sets:
  libolecf/libolecf_property_value.c
  libolecf/libolecf_property_section.c
  libolecf/libolecf_property_set.c
  libolecf/libolecf_property_set_stream.c
-/

namespace Olecf

/-- A program on a stream that allocates: the state is the offset of the stream. -/
abbrev SetMem (α : Type) := Mem Int α

/-- A step of a reader as a step of a program that allocates. -/
def readerStep (m : Reader α) : SetMem α := Mem.lift m

/-- A `libfvalue_value_t` and the data it manages (`LIBFVALUE_VALUE_DATA_FLAG_MANAGED`,
  libolecf_property_value.c:892-897). -/
structure MFValue where
  value : FValue
  block : Nat
  data : Option Nat

/-- `libolecf_internal_property_value_t`: `data` is `data_value`. -/
structure MValue where
  identifier : Nat
  type : Nat
  block : Nat
  data : Option MFValue

/-- `libolecf_internal_property_section_t`: the structure, the array and the values in it. -/
structure MSection where
  classId : Bytes
  block : Nat
  array : Nat
  values : List MValue

/-- `libolecf_internal_property_set_t`: the structure, the array and the sections in it. -/
structure MSet where
  classId : Bytes
  block : Nat
  array : Nat
  sections : List MSection

/-- What the program sees of a value. -/
def MValue.view (v : MValue) : PropValue := ⟨v.identifier, v.type, v.data.map (·.value)⟩

/-- What the program sees of a section. -/
def MSection.view (s : MSection) : PropSection := ⟨s.classId, s.values.map (·.view)⟩

/-- What the program sees of a set. -/
def MSet.view (s : MSet) : PropSet := ⟨s.classId, s.sections.map (·.view)⟩

/-- `libfvalue_value_free`: the data it manages and the value. -/
def freeFValue (v : MFValue) : SetMem Unit := do
  Mem.use v.block
  Mem.releaseOpt v.data
  Mem.release v.block

/-- `libolecf_internal_property_value_free`, libolecf_property_value.c:145-186. -/
def freeValue (v : MValue) : SetMem Unit := do
  Mem.use v.block
  match v.data with
  | some d => freeFValue d
  | none => pure ()
  Mem.release v.block

/-- `libolecf_internal_property_section_free`, libolecf_property_section.c:163-203:
  `libcdata_array_free` frees the entries and the array. -/
def freeSection (s : MSection) : SetMem Unit := do
  Mem.use s.block
  Mem.use s.array
  Mem.forEach freeValue s.values
  Mem.release s.array
  Mem.release s.block

/-- `libolecf_property_set_free`, libolecf_property_set.c:133-174. -/
def freeSet (s : MSet) : SetMem Unit := do
  Mem.use s.block
  Mem.use s.array
  Mem.forEach freeSection s.sections
  Mem.release s.array
  Mem.release s.block

/-- The public `libolecf_property_section_free`, libolecf_property_section.c:134-158: it frees
  nothing. -/
def freeSectionPublic (_ : Nat) : SetMem Unit := pure ()

/-- The loop over the values of a multi-value property, libolecf_property_value.c:537-702: a block
  for the data of each value, freed at the end of the iteration (:697-701) or by `on_error`. -/
def memMultiLoop (f : FileCtx) (d : DirEntry) (e : Endian) : Nat → Nat → SetMem Unit
  | 0, _ => pure ()
  | n + 1, offset =>
    if offset ≥ UINT32_MAX - 4 then .fail
    else do
      let b ← readerStep (readExactly f d 4)
      let offset := (offset + 4) % 2 ^ 32
      let size ← Mem.of (rd32 e b 0)
      if offset ≥ UINT32_MAX - size then .fail
      else if size = 0 ∨ size > MAX_ALLOC then .fail
      else do
        let data ← Mem.alloc
        let _ ← (readerStep (readExactly f d size)).onError (Mem.release data)
        Mem.release data
        memMultiLoop f d e n ((offset + size) % 2 ^ 32)

/-- `libfvalue_value_type_initialize` and `libfvalue_value_set_data` of the data in the block
  `data`, libolecf_property_value.c:871-908 with the `on_error` of :912-926: a failure to set the
  data frees the value; the data is freed in either case. -/
def memMakeValue (data : Option Nat) (v : FValue) : SetMem MFValue := do
  let block ← Mem.alloc.onError (Mem.releaseOpt data)
  if data.isSome then
    Mem.ask.onError (do Mem.release block; Mem.releaseOpt data)
  pure ⟨v, block, data⟩

/-- The data of a value that is not a multi-value, libolecf_property_value.c:765-908.  The block
  of the data is `NULL` if the size is zero.  If the string that was read is empty up to its size
  the block would not be handed over (:884); the size of a string with data is never zero
  (`keptSize_pos`). -/
def memReadValueData (f : FileCtx) (d : DirEntry) (e : Endian) (type size : Nat) :
    SetMem MFValue := do
  if size = 0 then memMakeValue none ⟨valueEncoding f.io e type, none⟩
  else
    let size := dataSize type size
    if size = 0 ∨ size > MAX_ALLOC then .fail
    else do
      let block ← Mem.alloc
      let data ← (readerStep (readExactly f d size)).onError (Mem.release block)
      let size ← Mem.of (keptSize type data size)
      if size > 0 then do
        let data ← Mem.of (rdBytes data 0 size)
        memMakeValue (some block) ⟨valueEncoding f.io e type, some data⟩
      else do
        -- the value is made without the data, and `data` is not freed
        memMakeValue none ⟨valueEncoding f.io e type, none⟩

/-- `libolecf_property_value_read_data`, libolecf_property_value.c:192-928. -/
def memReadValue (f : FileCtx) (d : DirEntry) (e : Endian) (offset : Nat) :
    SetMem (Nat × Option MFValue) := do
  if offset ≥ UINT32_MAX - 4 then .fail
  else
    readerStep (seekTo d offset)
    let b ← readerStep (readExactly f d 4)
    let offset := (offset + 4) % 2 ^ 32
    let type ← Mem.of (rd32 e b 0)
    match classify type with
    | .multi =>
      if offset ≥ UINT32_MAX - 4 then .fail
      else do
        let b ← readerStep (readExactly f d 4)
        let n ← Mem.of (rd32 e b 0)
        memMultiLoop f d e n ((offset + 4) % 2 ^ 32)
        pure (type, none)
    | .undefined => pure (type, none)
    | .fixed size => do
      let v ← memReadValueData f d e type size
      pure (type, some v)
    | .variable => do
      let b ← readerStep (readExactly f d 4)
      let size ← Mem.of (rd32 e b 0)
      let v ← memReadValueData f d e type size
      pure (type, some v)

/-- One iteration of the loop over the properties of a section,
  libolecf_property_section.c:563-745, with the `on_error` of :747-753: the value that is added and
  the offset of the next list entry. -/
def memReadProperty (f : FileCtx) (d : DirEntry) (e : Endian) (section_ : Nat) (entry : Int) :
    SetMem (MValue × Int) := do
  readerStep (seekTo d entry)
  let block ← Mem.alloc
  let (id, off, entry) ← (do
    let (id, off) ← readerStep (readValueEntry f d e)
    if off ≤ 8 then .fail
    else do
      let entry ← readerStep (tell d)
      pure (id, off, entry) : SetMem (Nat × Nat × Int)).onError (Mem.release block)
  let (type, value) ← (memReadValue f d e ((section_ + off) % 2 ^ 32)).onError (Mem.release block)
  let v : MValue := ⟨id, type, block, value⟩
  Mem.ask.onError (freeValue v)
  pure (v, entry)

/-- The loop over the properties: `values` is the array, which keeps the values that were added
  when the loop fails (`false`). -/
def memPropsLoop (f : FileCtx) (d : DirEntry) (e : Endian) (section_ : Nat) :
    Nat → Int → List MValue → SetMem (List MValue × Bool)
  | 0, _, values => pure (values, true)
  | n + 1, entry, values => do
    match ← (memReadProperty f d e section_ entry).attempt with
    | some (v, entry) => memPropsLoop f d e section_ n entry (values ++ [v])
    | none => pure (values, false)

/-- `libolecf_property_section_read`, libolecf_property_section.c:434-754: the array afterwards and
  whether it succeeded. -/
def memReadSection (f : FileCtx) (d : DirEntry) (e : Endian) (offset : Nat) :
    SetMem (List MValue × Bool) := do
  match ← (do
    readerStep (seekTo d offset)
    let b ← readerStep (readExactly f d 8)
    Mem.of (rd32 e b 4) : SetMem Nat).attempt with
  | some n => memPropsLoop f d e offset n (offset + 8) []
  | none => pure ([], false)

/-- `libolecf_property_section_initialize`, libolecf_property_section.c:47-129, and
  `libolecf_property_set_initialize`, libolecf_property_set.c:46-128: the structure and the array. -/
def memInitialize : SetMem (Nat × Nat) := do
  let block ← Mem.alloc
  let array ← Mem.alloc.onError (Mem.release block)
  pure (block, array)

/-- One iteration of the loop over the sections, libolecf_property_set.c:437-545: the section that
  is added and the offset of the next list entry.  `on_error` (:548-554) calls the public
  function. -/
def memReadSectionEntry (f : FileCtx) (d : DirEntry) (e : Endian) (entry : Int) :
    SetMem (MSection × Int) := do
  let (block, array) ← memInitialize
  let (cls, off, entry) ← (do
    readerStep (seekTo d entry)
    let (cls, off) ← readerStep (readSectionEntry f d e)
    let entry ← readerStep (tell d)
    pure (cls, off, entry) : SetMem (Bytes × Nat × Int)).onError (freeSectionPublic block)
  let (values, ok) ← memReadSection f d e off
  (do
    if ok then Mem.ask else .fail).onError (freeSectionPublic block)
  pure (⟨cls, block, array, values⟩, entry)

/-- The loop over the sections, libolecf_property_set.c:437-545: `sections` is the array. -/
def memSectionsLoop (f : FileCtx) (d : DirEntry) (e : Endian) :
    Nat → Int → List MSection → SetMem (List MSection × Bool)
  | 0, _, sections => pure (sections, true)
  | n + 1, entry, sections => do
    match ← (memReadSectionEntry f d e entry).attempt with
    | some (s, entry) => memSectionsLoop f d e n entry (sections ++ [s])
    | none => pure (sections, false)

/-- `libolecf_property_set_read`, libolecf_property_set.c:372-563: the class identifier, the array
  and whether it succeeded. -/
def memReadSet (f : FileCtx) (d : DirEntry) : SetMem (Bytes × List MSection × Bool) := do
  match ← (do
    readerStep (seekTo d 0)
    let b ← readerStep (readExactly f d 28)
    Mem.of (readSetHeader b) : SetMem (Endian × Bytes × Nat)).attempt with
  | some (e, cls, n) => do
    let (sections, ok) ← memSectionsLoop f d e n 28 []
    pure (cls, sections, ok)
  | none => pure ([], [], false)

/-- `libolecf_property_set_stream_get_set`, libolecf_property_set_stream.c:37-119. -/
def memGetSet (f : FileCtx) (d : DirEntry) : SetMem MSet := do
  let (block, array) ← memInitialize
  let (cls, sections, ok) ← memReadSet f d
  let s : MSet := ⟨cls, block, array, sections⟩
  (if ok then pure () else .fail : SetMem Unit).onError (freeSet s)
  pure s

end Olecf
