import Verif.Model.MemItem
import Verif.Model.MemSet

/-
  Property sets of items, with their memory:
  libolecf/libolecf_property_set_stream.c
  libolecf/libolecf_property_set.c
  libolecf/libolecf_property_section.c
  libolecf/libolecf_property_value.c
-/

namespace Olecf

/-- A program on a stream as part of a program on a file: the failure and the offset of the stream
  afterwards are values. -/
def inStream (m : SetMem α) (offset : Int) : Mem World (Option α × Int) := fun w h =>
  match m offset h with
  | (.ok a, offset, h) => (.ok (some a, offset), w, h)
  | (.err, offset, h) => (.ok (none, offset), w, h)
  | (.ub, _, h) => (.ub, w, h)
  | (.hang, _, h) => (.hang, w, h)

/-- What the reads of a stream use of the file: the item, its directory entry, the file, the IO handle,
  the libbfio handle and the tables (see `memRead`); `none` if the file is not open, when there are no
  items. -/
def memStreamFile (f : MFile) (it : MItem) : Mem World (Option FileCtx) := do
  Mem.use it.block
  Mem.use it.pos.node.value.block
  Mem.use it.ptrs.file
  Mem.use it.ptrs.ioBlock
  Mem.useOpt it.ptrs.handleBlock
  Mem.forEach useTable f.sat.toList
  Mem.forEach useTable f.ssat.toList
  match it.ptrs.handle, f.sat, f.ssat with
  | some h, some sat, some ssat => do
    let dev ← worldStep fun w => (w.dev h, w)
    pure (some ⟨f.io, dev, sat.table, ssat.table⟩)
  | _, _, _ => pure none

/-- `libolecf_property_set_stream_get_set`, libolecf_property_set_stream.c:37-119: the item, with its
  offset afterwards, and the set.  Simplified: what is read of the file is used before the set is made
  and not for every read. -/
def memItemSet (f : MFile) (it : MItem) : Mem World (MItem × Option MSet) := do
  match ← memStreamFile f it with
  | some c => do
    let r ← inStream (memGetSet c it.pos.node.value.entry) it.offset
    pure ({ it with offset := r.2 }, r.1)
  | none => pure (it, none)

/-- `libolecf_property_set_get_class_identifier`, libolecf_property_set.c:570-629. -/
def memSetClassId (s : MSet) (size : Nat) : Mem σ (Res Bytes) := do
  Mem.use s.block
  pure (copyClassId s.classId size)

/-- `libolecf_property_set_get_number_of_sections`, libolecf_property_set.c:634-670. -/
def memSetCount (s : MSet) : Mem σ Int := do
  Mem.use s.block
  Mem.use s.array
  pure s.sections.length

/-- `libolecf_property_set_get_section_by_index`, libolecf_property_set.c:675-729: a pointer to the
  section in the set. -/
def memSetSection (s : MSet) (i : Int) : Mem σ (Res MSection) := do
  Mem.use s.block
  Mem.use s.array
  pure (arrayGet s.sections i)

/-- `libolecf_property_section_get_class_identifier`, libolecf_property_section.c:759-818. -/
def memSectionClassId (s : MSection) (size : Nat) : Mem σ (Res Bytes) := do
  Mem.use s.block
  pure (copyClassId s.classId size)

/-- `libolecf_property_section_get_number_of_properties`, libolecf_property_section.c:823-859. -/
def memSectionCount (s : MSection) : Mem σ Int := do
  Mem.use s.block
  Mem.use s.array
  pure s.values.length

/-- `libolecf_property_section_get_property_by_index`, libolecf_property_section.c:864-904: a pointer to
  the value in the section. -/
def memSectionProperty (s : MSection) (i : Int) : Mem σ (Res MValue) := do
  Mem.use s.block
  Mem.use s.array
  pure (arrayGet s.values i)

/-- The getters of a value, libolecf_property_value.c:1052-1720; `get` is what the getter makes of the
  value.  Simplified: the value of libfvalue and its data are used by all of them. -/
def memValueGet (v : MValue) (get : PropValue → α) : Mem σ α := do
  Mem.use v.block
  Mem.useOpt (v.data.map (·.block))
  Mem.useOpt (v.data.bind (·.data))
  pure (get v.view)

/-- `libolecf_property_set_free`, libolecf_property_set.c:133-174, which does not use the stream. -/
def memFreeSet (s : MSet) : Mem World Unit := do
  let _ ← inStream (freeSet s) 0
  pure ()

end Olecf
