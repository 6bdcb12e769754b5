import Verif.Model.Stream
import Verif.Model.MemSet

/-
  libolecf/libolecf_compound_object_stream.c
-/

namespace Olecf

/-- The `current_offset` of the item and the three pointers of
  `libolecf_compound_object_stream_read`, `none` is `NULL`: libolecf_compound_object_stream.c:48-51. -/
structure CompLocals where
  offset : Int
  userType : Option Nat
  clipboard : Option Nat
  reserved : Option Nat
  deriving DecidableEq

/-- One of the three pointers. -/
inductive CompSlot where
  | userType
  | clipboard
  | reserved
  deriving DecidableEq

/-- The assignment to one of the three pointers. -/
def CompLocals.set (s : CompLocals) : CompSlot → Option Nat → CompLocals
  | .userType, b => { s with userType := b }
  | .clipboard, b => { s with clipboard := b }
  | .reserved, b => { s with reserved := b }

/-- A step of `libolecf_compound_object_stream_read`. -/
abbrev CompMem (α : Type) := Mem CompLocals α

/-- The assignment to one of the three pointers, as a step. -/
def compAssign (slot : CompSlot) (b : Option Nat) : CompMem Unit :=
  Mem.lift fun s => (.ok (), s.set slot b)

/-- `libolecf_io_handle_read_stream` at the `current_offset` of the item and the comparison of the
  count with the size, as in libolecf_compound_object_stream.c:110-130: neither the type of the
  item nor the size of the stream is looked at. -/
def compRead (f : FileCtx) (d : DirEntry) (size : Nat) : CompMem Bytes := Mem.lift fun s =>
  match (readStream f d s.offset size).res with
  | .ok (data, off) => (if data.length = size then .ok data else .err, { s with offset := off })
  | .err => (.err, s)
  | .ub => (.ub, s)
  | .hang => (.hang, s)

/-- The read of a size of 4 bytes, in the byte order of the file:
  libolecf_compound_object_stream.c:174-206, 283-315, 414-446, 527-560, 576-609, 686-719,
  817-850. -/
def compReadSize (f : FileCtx) (d : DirEntry) : CompMem Nat := do
  let data ← compRead f d 4
  Mem.of (rd32 f.io.byteOrder data 0)

/-- A buffer of `size` bytes: allocated, read and freed, e.g.
  libolecf_compound_object_stream.c:229-280. -/
def compBuffer (f : FileCtx) (d : DirEntry) (slot : CompSlot) (size : Nat) : CompMem Unit := do
  let b ← Mem.alloc
  compAssign slot (some b)
  Mem.use b
  let _ ← compRead f d size
  Mem.release b
  compAssign slot none

/-- The user type string, libolecf_compound_object_stream.c:172-280: it may not be empty. -/
def compUserType (f : FileCtx) (d : DirEntry) : CompMem Unit := do
  let size ← compReadSize f d
  if size = 0 ∨ size > MAX_ALLOC then Mem.fail else compBuffer f d .userType size

/-- The size of the clipboard data: "quick-fix", libolecf_compound_object_stream.c:327-332 and
  730-735. -/
def compClipboardSize (size : Nat) : Nat :=
  if size = 0xffffffe ∨ size = 0xfffffff then 4 else size

/-- The clipboard data, libolecf_compound_object_stream.c:281-411, and the Unicode clipboard data,
  684-814. -/
def compClipboard (f : FileCtx) (d : DirEntry) : CompMem Unit := do
  let size ← compReadSize f d
  if compClipboardSize size > 0x190 then Mem.fail
  else if compClipboardSize size > 0 then compBuffer f d .clipboard (compClipboardSize size)
  else pure ()

/-- A string that may be empty: the reserved string, libolecf_compound_object_stream.c:412-522,
  the Unicode user type string, 574-683, and the Unicode reserved string, 815-924. -/
def compString (f : FileCtx) (d : DirEntry) (slot : CompSlot) : CompMem Unit := do
  let size ← compReadSize f d
  if size > 0 then
    if size > MAX_ALLOC then Mem.fail else compBuffer f d slot size
  else pure ()

/-- `internal_item->current_offset < (off64_t) internal_item->directory_entry->size`. -/
def compInside (d : DirEntry) : CompMem Bool := Mem.lift fun s => (.ok (decide (s.offset < d.size)), s)

/-- The Unicode marker, 0 if the stream has ended: libolecf_compound_object_stream.c:523-570. -/
def compMarker (f : FileCtx) (d : DirEntry) : CompMem Nat := do
  let inside ← compInside d
  if inside then compReadSize f d else pure 0

/-- The Unicode strings, libolecf_compound_object_stream.c:571-925. -/
def compUnicode (f : FileCtx) (d : DirEntry) (marker : Nat) : CompMem Unit := do
  let inside ← compInside d
  if inside ∧ marker = 0x71b239f4 then do
    compString f d .userType
    compClipboard f d
    compString f d .reserved
  else pure ()

/-- The body of `libolecf_compound_object_stream_read`, libolecf_compound_object_stream.c:110-999.
  The output of a build with `HAVE_DEBUG_OUTPUT` and the trailing data it reads, 926-998, are left
  out. -/
def compBody (f : FileCtx) (d : DirEntry) : CompMem Unit := do
  let _ ← compRead f d 28
  compUserType f d
  compClipboard f d
  compString f d .reserved
  let marker ← compMarker f d
  compUnicode f d marker

/-- `on_error`, libolecf_compound_object_stream.c:1001-1025. -/
def compCleanup : CompMem Unit := fun s h =>
  (do
    Mem.releaseOpt s.reserved
    Mem.releaseOpt s.clipboard
    Mem.releaseOpt s.userType : CompMem Unit) s h

/-- `libolecf_compound_object_stream_read`, libolecf_compound_object_stream.c:40-1025, of the item
  of an open file: the state is the offset of the item.  The tests for a missing file or entry,
  64-109, are left out. -/
def compObjectRead (f : FileCtx) (d : DirEntry) : SetMem Unit := fun cur h =>
  match Mem.onError (compBody f d) compCleanup ⟨cur, none, none, none⟩ h with
  | (r, s, h) => (r, s.offset, h)

end Olecf
