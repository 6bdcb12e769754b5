import Verif.Model.Item
import Verif.Model.Stream

/-
  olecftools/mount_path_string.c, mount_file_system.c, mount_handle.c, mount_file_entry.c and the
  part of mount_fuse.c that lists a directory.

  Modelled is the build for a platform other than Windows with narrow system characters: the
  path separator (`LIBCPATH_SEPARATOR`) is `/`, the escape character is `\`, strings are UTF-8.
  Strings are given without the end of string character.
-/

namespace Olecf

/-- What the mount tool needs to know of libuna: the decoder that the path lookup uses too, and
  `libuna_unicode_character_copy_to_utf8`: the bytes written for a character (`none`: return
  value -1).  Writing fails as well if the bytes do not fit, see `putChar`. -/
structure Codec extends Decoder UInt8 where
  enc : Nat → Option Bytes

/-- `SSIZE_MAX` of a 64-bit platform. -/
abbrev ssizeMax : Nat := 2 ^ 63 - 1

/-- One digit of the `x` conversion of printf. -/
def hexDigit (d : Nat) : UInt8 := UInt8.ofNat (if d < 10 then 48 + d else 87 + d)

/-- The `%02x` and `%08x` conversions (mount_path_string.c:283-288 and 329-334) of a value that has no
  more than `w` digits: `unicode_character` is at most 0x9f in the first and has 32 bits in the
  second case. -/
def hexFixed : Nat → Nat → Bytes
  | 0, _ => []
  | w + 1, c => hexFixed w (c / 16) ++ [hexDigit (c % 16)]

/-- One iteration of the loop of `mount_path_string_copy_hexadecimal_to_integer_32_bit`,
  mount_path_string.c:89-126; the low four bits of the shifted value are 0, so that `|` is `+`.
  `char` may be signed: bytes from 0x80 are not digits either way. -/
def hexStep (acc : Option Nat) (ch : UInt8) : Option Nat := do
  let v ← acc
  let v := v * 16 % 2 ^ 32
  if 48 ≤ ch.toNat ∧ ch.toNat ≤ 57 then pure (v + (ch.toNat - 48))
  else if 97 ≤ ch.toNat ∧ ch.toNat ≤ 102 then pure (v + (ch.toNat - 97 + 10))
  else none

/-- `mount_path_string_copy_hexadecimal_to_integer_32_bit`, mount_path_string.c:44-131. -/
def hexValue (s : Bytes) : Option Nat := s.foldl hexStep (some 0)

/-- The characters written as `\x##`, mount_path_string.c:268-281 (0 ends the string before). -/
def EscapedX (c : Nat) : Prop := c ≤ 0x1f ∨ c = 0x2f ∨ (0x7f ≤ c ∧ c ≤ 0x9f)

instance (c) : Decidable (EscapedX c) := inferInstanceAs (Decidable (_ ∨ _))

/-- The characters written as `\U########`, mount_path_string.c:314-327 (and 703-716). -/
def EscapedU (c : Nat) : Prop :=
  (0x2028 ≤ c ∧ c ≤ 0x2029) ∨ (0xd800 ≤ c ∧ c ≤ 0xdfff) ∨ c = 0xe000 ∨ c = 0xf8ff ∨
  (0xfdd0 ≤ c ∧ c ≤ 0xfddf) ∨ (0xfffe ≤ c % 0x10000 ∧ c % 0x10000 ≤ 0xffff) ∨ c = 0xf0000 ∨
  c = 0xffffd ∨ c = 0x100000 ∨ 0x10fffd ≤ c

instance (c) : Decidable (EscapedU c) := inferInstanceAs (Decidable (_ ∨ _))

/-- `system_string_sprintf` (`snprintf`) to the rest of a buffer of `size` characters that has
  `out` written, mount_path_string.c:283-301 and 329-347.  A text that does not fit with its end of string
  character is cut off and the index ends up outside of the buffer; that is given as undefined
  behaviour here. -/
def putText (size : Nat) (out text : Bytes) : Res Bytes :=
  if out.length + text.length < size then .ok (out ++ text) else .ub

/-- `libuna_unicode_character_copy_to_utf8` to index `out.length` of a buffer of `size` bytes. -/
def putChar (k : Codec) (size : Nat) (out : Bytes) (c : Nat) : Res Bytes :=
  match k.enc c with
  | none => .err
  | some u => if out.length + u.length ≤ size then .ok (out ++ u) else .err

/-- The body of the loop of `mount_path_string_copy_from_item_path` for a character,
  mount_path_string.c:268-397. -/
def escapeChar (k : Codec) (size : Nat) (out : Bytes) (c : Nat) : Res Bytes :=
  if EscapedX c then putText size out (0x5c :: 0x78 :: hexFixed 2 c)
  else if EscapedU c then putText size out (0x5c :: 0x55 :: hexFixed 8 c)
  else if c = 0x5c then
    if out.length + 2 > size then .err else .ok (out ++ [0x5c, 0x5c])
  else putChar k size out c

/-- The loop of `mount_path_string_copy_from_item_path` and the end of the string,
  mount_path_string.c:226-409. -/
def fromLoop (k : Codec) (s : Bytes) (size : Nat) : Nat → Nat → Bytes → Res Bytes
  | fuel, i, out =>
    if i < s.length then
      match fuel with
      | 0 => .hang
      | fuel + 1 =>
        match k.step (s.drop i) with
        | none => .err
        | some (c, n) =>
          if c = 0 then if out.length < size then .ok out else .err
          else match escapeChar k size out c with
            | .ok out => fromLoop k s size fuel (i + n) out
            | .err => .err
            | .ub => .ub
            | .hang => .hang
    else if out.length < size then .ok out else .err

/-- `mount_path_string_copy_from_item_path`, mount_path_string.c:136-423: the text of the path.
  The size that the function returns is that of the buffer, see `nameBufferSize`. -/
def fromItemPath (k : Codec) (s : Bytes) : Res Bytes :=
  if s.length = 0 ∨ s.length > ssizeMax - 1 then .err
  else if s.length > (ssizeMax - 1) / 10 then .err
  else fromLoop k s (s.length * 10 + 1) s.length 0 []

/-- The `*path_size` of `mount_path_string_copy_from_item_path`, mount_path_string.c:210 and 412:
  the size for the worst case. -/
def nameBufferSize (s : Bytes) : Nat := s.length * 10 + 1

/-- The part of `mount_path_string_copy_to_item_path` from the escape character on,
  mount_path_string.c:560-748: `i` is the index after the escape character; the result is the
  character and the index after the escaped text. -/
def unescape (p : Bytes) (i : Nat) : Res (Nat × Nat) :=
  if i + 1 > p.length then .err
  else do
    let ch ← rdByte p i
    if ch = 0x5c then .ok (0x5c, i + 1)
    else if ch = 0x78 then
      if i + 1 + 2 > p.length then .err
      else do
        let digits ← rdBytes p (i + 1) 2
        match hexValue digits with
        | none => .err
        | some v =>
          if (0x01 ≤ v ∧ v ≤ 0x1f) ∨ v = 0x2f ∨ (0x7f ≤ v ∧ v ≤ 0x9f) then .ok (v, i + 1 + 2)
          else .err
    else if ch = 0x55 then
      if i + 1 + 8 > p.length then .err
      else do
        let digits ← rdBytes p (i + 1) 8
        match hexValue digits with
        | none => .err
        | some v => if EscapedU v then .ok (v, i + 1 + 8) else .err
    else .err

/-- The character of the item path, and the index after it, for the character `c` of the path
  that ends at index `i`, mount_path_string.c:556-748. -/
def pathChar (p : Bytes) (c i : Nat) : Res (Nat × Nat) :=
  if c = 0x2f then .ok (sepChar, i)
  else if c = 0x5c then unescape p i
  else .ok (c, i)

/-- The loop of `mount_path_string_copy_to_item_path` and the end of the string,
  mount_path_string.c:528-786. -/
def toLoop (k : Codec) (p : Bytes) (size : Nat) : Nat → Nat → Bytes → Res Bytes
  | fuel, i, out =>
    if i < p.length then
      match fuel with
      | 0 => .hang
      | fuel + 1 =>
        match k.step (p.drop i) with
        | none => .err
        | some (c, n) =>
          match pathChar p c (i + n) with
          | .ok (v, j) =>
            match putChar k size out v with
            | .ok out => toLoop k p size fuel j out
            | .err => .err
            | .ub => .ub
            | .hang => .hang
          | .err => .err
          | .ub => .ub
          | .hang => .hang
    else if out.length < size then .ok out else .err

/-- `mount_path_string_copy_to_item_path`, mount_path_string.c:428-800. -/
def toItemPath (k : Codec) (p : Bytes) : Res Bytes :=
  if p.length = 0 ∨ p.length > ssizeMax - 1 then .err
  else if p.getD 0 0 ≠ 0x2f then .err
  else if p.length + 1 > ssizeMax then .err
  else toLoop k p (p.length + 1) p.length 0 []

/-- The string before its end of string character. -/
def cString (s : Bytes) : Bytes := s.takeWhile (· ≠ 0)

/-- `mount_file_system_get_item_by_path`, mount_file_system.c:387-480.  The file that is mounted
  is given by its tree. -/
def mountItemByPath (k : Codec) (cmp : Bytes → Bytes → Option Bool) (t : Option Tree)
    (p : Bytes) : Res (Option Item) :=
  match toItemPath k p with
  | .ok ip => itemByPath k.toDecoder cmp t (rootItem t) (cString ip)
  | .err => .err
  | .ub => .ub
  | .hang => .hang

/-- A file entry (`mount_file_entry_t`, mount_file_entry.h): its name (up to the end of string
  character; for an entry made from a listing the stored string has as many more characters as
  the worst case size exceeds the name) and its item. -/
structure MountEntry where
  name : Bytes
  item : Item
  deriving Repr, DecidableEq

/-- The loop of `mount_handle_get_file_entry_by_path` that looks for the last separator,
  mount_handle.c:508-517; index `p.length` is the end of string character. -/
def lastSeparator (p : Bytes) : Nat → Nat
  | 0 => 0
  | i + 1 => if p.getD (i + 1) 0 = 0x2f then i + 1 else lastSeparator p i

/-- `mount_handle_get_file_entry_by_path`, mount_handle.c:453-578, for a string without end of
  string characters.  `filename_length` is a `size_t`; `mount_file_entry_initialize`,
  mount_file_entry.c:50-194, refuses lengths of `SSIZE_MAX` and more. -/
def mountEntryByPath (k : Codec) (cmp : Bytes → Bytes → Option Bool) (t : Option Tree)
    (p : Bytes) : Res (Option MountEntry) :=
  if p.length = 0 then .err
  else
    let len := if 2 ≤ p.length ∧ p.getD (p.length - 1) 0 = 0x2f then p.length - 1 else p.length
    let index := lastSeparator p len
    let nameLength := (len + 2 ^ 64 - (index + 1)) % 2 ^ 64
    match mountItemByPath k cmp t (p.take len) with
    | .ok (some item) =>
      if nameLength > ssizeMax - 1 then .err
      else .ok (some ⟨(p.drop (index + 1)).take nameLength, item⟩)
    | .ok none => .ok none
    | .err => .err
    | .ub => .ub
    | .hang => .hang

/-- `mount_file_system_get_filename_from_item`, mount_file_system.c:486-610.  `utf8Name` stands
  for `libolecf_item_get_utf8_name_size` and `libolecf_item_get_utf8_name`
  (`libuna_utf8_string_copy_from_utf16_stream`): the name without end of string character,
  `none` if one of them fails. -/
def mountFilename (k : Codec) (utf8Name : DirEntry → Option Bytes) (item : Item) : Res Bytes :=
  match utf8Name item.entry with
  | none => .err
  | some name => if name.length + 1 > ssizeMax then .err else fromItemPath k name

/-- `mount_file_entry_get_sub_file_entry_by_index`, mount_file_entry.c:730-846. -/
def mountSubEntry (k : Codec) (utf8Name : DirEntry → Option Bytes) (t : Tree) (e : MountEntry)
    (index : Int) : Res MountEntry :=
  match getSubItem t e.item index with
  | .ok item =>
    match mountFilename k utf8Name item with
    | .ok name => .ok ⟨cString name, item⟩
    | .err => .err
    | .ub => .ub
    | .hang => .hang
  | .err => .err
  | .ub => .ub
  | .hang => .hang

/-- The loop of `mount_fuse_readdir` over the sub entries, mount_fuse.c:852-957: the entries
  from `index` on, or -EIO.  The entries `.` and `..` are not included.  That the callback of
  FUSE accepts an entry is assumed. -/
def listLoop (k : Codec) (utf8Name : DirEntry → Option Bytes) (t : Tree) (e : MountEntry) :
    Nat → Nat → Res (List MountEntry)
  | 0, _ => .ok []
  | n + 1, index =>
    match mountSubEntry k utf8Name t e index with
    | .ok s => match listLoop k utf8Name t e n (index + 1) with
      | .ok rest => .ok (s :: rest)
      | .err => .err
      | .ub => .ub
      | .hang => .hang
    | .err => .err
    | .ub => .ub
    | .hang => .hang

/-- `mount_fuse_readdir`, mount_fuse.c:667-1000, with
  `mount_file_entry_get_number_of_sub_file_entries`, mount_file_entry.c:692-725. -/
def mountList (k : Codec) (utf8Name : DirEntry → Option Bytes) (t : Tree) (e : MountEntry) :
    Res (List MountEntry) :=
  listLoop k utf8Name t e (numberOfSubItems t e.item) 0

/-- `mount_file_entry_get_file_mode`, mount_file_entry.c:509-563: whether the entry is a
  directory. -/
def mountIsDirectory (e : MountEntry) : Bool :=
  e.item.entry.type = 1 ∨ e.item.entry.type = 5

/-- `mount_file_entry_get_size`, mount_file_entry.c:924-971. -/
def mountSize (e : MountEntry) : Nat := e.item.entry.size

/-- `mount_file_entry_read_buffer_at_offset`, mount_file_entry.c:851-919, for an item with the
  current offset `cur`. -/
def mountRead (f : FileCtx) (e : MountEntry) (cur : Int) (size : Nat) (off : Int) :
    Out Bytes × Int :=
  if e.item.entry.type ≠ 2 then (⟨[], .err⟩, cur)
  else streamReadAt f e.item.entry cur size off

/-- `mount_file_entry_get_creation_time` and `mount_file_entry_get_modification_time`,
  mount_file_entry.c:297-357 and 404-464, for a stored FILETIME: the POSIX time in nanoseconds,
  computed with 64-bit signed integers. -/
def mountTime (filetime : Nat) : Res Int :=
  if filetime = 0 then .ok 0
  else
    let signed : Int := if filetime < 2 ^ 63 then filetime else (filetime : Int) - 2 ^ 64
    let diff := signed - 116444736000000000
    if diff < -2 ^ 63 ∨ 2 ^ 63 ≤ diff then .ub
    else
      let v := diff * 100
      if v < -2 ^ 63 ∨ 2 ^ 63 ≤ v then .ub else .ok v

end Olecf
