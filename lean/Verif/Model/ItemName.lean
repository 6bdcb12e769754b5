import Verif.Model.Item

/-
  libolecf/libolecf_item.c (the name of an item).
-/

namespace Olecf

/-- The functions of libuna that lookup by name and the names of items use.  The stream is the name of
  a directory entry, in the byte order of the file. -/
structure Libuna where
  /-- `libuna_unicode_character_copy_from_utf8` and `_utf16`, and the separator. -/
  dec8 : Decoder UInt8
  dec16 : Decoder UInt16
  /-- `libuna_utf8_string_compare_with_utf16_stream` and `libuna_utf16_...`. -/
  cmp8 : Endian → Bytes → Bytes → Option Bool
  cmp16 : Endian → List UInt16 → Bytes → Option Bool
  /-- `libuna_utf8_string_size_from_utf16_stream` and `libuna_utf16_...` (`none`: return value -1). -/
  size8 : Endian → Bytes → Option Nat
  size16 : Endian → Bytes → Option Nat
  /-- `libuna_utf8_string_copy_from_utf16_stream` and `libuna_utf16_...`, for a string of the given size:
    what is written from the start of the string on (`none`: return value -1). -/
  copy8 : Endian → Bytes → Nat → Option Bytes
  copy16 : Endian → Bytes → Nat → Option (List UInt16)

/-- A return value of libuna. -/
def ofUna : Option α → Res α
  | some a => .ok a
  | none => .err

/-- `libolecf_item_get_utf8_name_size`, libolecf_item.c:254-313.  An item that a call of the library
  returned has an IO handle and a directory entry. -/
def itemUtf8NameSize (u : Libuna) (io : IoHandle) (it : Item) : Res Nat :=
  ofUna (u.size8 io.byteOrder it.entry.name)

/-- `libolecf_item_get_utf8_name`, libolecf_item.c:319-399.  `size` is `none` when the string is
  `NULL`. -/
def itemUtf8Name (u : Libuna) (io : IoHandle) (it : Item) (size : Option Nat) : Res Bytes :=
  match size with
  | none => .err
  | some size =>
    if size > 2 ^ 63 - 1 then .err
    else ofUna (u.copy8 io.byteOrder it.entry.name size)

/-- `libolecf_item_get_utf16_name_size`, libolecf_item.c:405-464. -/
def itemUtf16NameSize (u : Libuna) (io : IoHandle) (it : Item) : Res Nat :=
  ofUna (u.size16 io.byteOrder it.entry.name)

/-- `libolecf_item_get_utf16_name`, libolecf_item.c:470-537.  The arguments are checked by libuna
  only, which refuses a string that is `NULL`. -/
def itemUtf16Name (u : Libuna) (io : IoHandle) (it : Item) (size : Option Nat) :
    Res (List UInt16) :=
  match size with
  | none => .err
  | some size => ofUna (u.copy16 io.byteOrder it.entry.name size)

end Olecf
