import Verif.Model.ItemName
import Verif.Model.Mount

/-
  olecftools/mount_path_string.c, mount_file_system.c, mount_handle.c and mount_file_entry.c as they are
  built for Windows with wide system characters: the path separator (`LIBCPATH_SEPARATOR`) is `\`, the escape
  character is `^`, strings are UTF-16 (`wchar_t` has 16 bits).  Strings are given without the end of string
  character.  Model/Mount is the build for other platforms.
-/

namespace Olecf

/-- A string of wide system characters. -/
abbrev Wide := List UInt16

/-- What the mount tool needs to know of libuna: the decoder of UTF-16, and
  `libuna_unicode_character_copy_to_utf16`: the code units written for a character (`none`: return value
  -1).  Writing fails as well if they do not fit, see `putCharW`. -/
structure WideCodec extends Decoder UInt16 where
  enc : Nat → Option Wide

/-- One digit of the `x` conversion of printf. -/
def hexDigitW (d : Nat) : UInt16 := UInt16.ofNat (if d < 10 then 48 + d else 87 + d)

/-- The `%02x` and `%08x` conversions, mount_path_string.c:283-288 and 329-334, of a value that has no more
  than `w` digits. -/
def hexFixedW : Nat → Nat → Wide
  | 0, _ => []
  | w + 1, c => hexFixedW w (c / 16) ++ [hexDigitW (c % 16)]

/-- One iteration of the loop of `mount_path_string_copy_hexadecimal_to_integer_32_bit`,
  mount_path_string.c:89-126, where Windows has capital digits as well. -/
def hexStepW (acc : Option Nat) (ch : UInt16) : Option Nat := do
  let v ← acc
  let v := v * 16 % 2 ^ 32
  if 48 ≤ ch.toNat ∧ ch.toNat ≤ 57 then pure (v + (ch.toNat - 48))
  else if 65 ≤ ch.toNat ∧ ch.toNat ≤ 70 then pure (v + (ch.toNat - 65 + 10))
  else if 97 ≤ ch.toNat ∧ ch.toNat ≤ 102 then pure (v + (ch.toNat - 97 + 10))
  else none

/-- `mount_path_string_copy_hexadecimal_to_integer_32_bit`, mount_path_string.c:44-131. -/
def hexValueW (s : Wide) : Option Nat := s.foldl hexStepW (some 0)

/-- The characters `<`, `>`, `:`, `"`, `/`, `|`, `?` and `*`, mount_path_string.c:271-278 and 630-637. -/
def WindowsOnly (c : Nat) : Prop :=
  c = 0x3c ∨ c = 0x3e ∨ c = 0x3a ∨ c = 0x22 ∨ c = 0x2f ∨ c = 0x7c ∨ c = 0x3f ∨ c = 0x2a

instance (c) : Decidable (WindowsOnly c) := inferInstanceAs (Decidable (_ ∨ _))

/-- The characters written as `^x##`, mount_path_string.c:268-281 (0 ends the string before). -/
def EscapedXW (c : Nat) : Prop := c ≤ 0x1f ∨ c = 0x5c ∨ WindowsOnly c ∨ (0x7f ≤ c ∧ c ≤ 0x9f)

instance (c) : Decidable (EscapedXW c) := inferInstanceAs (Decidable (_ ∨ _))

/-- `system_string_sprintf` to the rest of a buffer of `size` characters that has `out` written,
  mount_path_string.c:283-301 and 329-347, see `putText`. -/
def putTextW (size : Nat) (out text : Wide) : Res Wide :=
  if out.length + text.length < size then .ok (out ++ text) else .ub

/-- `libuna_unicode_character_copy_to_utf16` to index `out.length` of a buffer of `size` characters. -/
def putCharW (k : WideCodec) (size : Nat) (out : Wide) (c : Nat) : Res Wide :=
  match k.enc c with
  | none => .err
  | some u => if out.length + u.length ≤ size then .ok (out ++ u) else .err

/-- The body of the loop of `mount_path_string_copy_from_item_path` for a character,
  mount_path_string.c:268-396. -/
def escapeCharW (k : WideCodec) (size : Nat) (out : Wide) (c : Nat) : Res Wide :=
  if EscapedXW c then putTextW size out (0x5e :: 0x78 :: hexFixedW 2 c)
  else if EscapedU c then putTextW size out (0x5e :: 0x55 :: hexFixedW 8 c)
  else if c = 0x5e then
    if out.length + 2 > size then .err else .ok (out ++ [0x5e, 0x5e])
  else putCharW k size out c

/-- The loop of `mount_path_string_copy_from_item_path` and the end of the string,
  mount_path_string.c:226-409. -/
def fromLoopW (k : WideCodec) (s : Wide) (size : Nat) : Nat → Nat → Wide → Res Wide
  | fuel, i, out =>
    if i < s.length then
      match fuel with
      | 0 => .hang
      | fuel + 1 =>
        match k.step (s.drop i) with
        | none => .err
        | some (c, n) =>
          if c = 0 then if out.length < size then .ok out else .err
          else match escapeCharW k size out c with
            | .ok out => fromLoopW k s size fuel (i + n) out
            | .err => .err
            | .ub => .ub
            | .hang => .hang
    else if out.length < size then .ok out else .err

/-- `mount_path_string_copy_from_item_path`, mount_path_string.c:136-423: the text of the path; a character
  has two bytes. -/
def fromItemPathW (k : WideCodec) (s : Wide) : Res Wide :=
  if s.length = 0 ∨ s.length > ssizeMax - 1 then .err
  else if s.length > (ssizeMax - 1) / 20 then .err
  else fromLoopW k s (s.length * 10 + 1) s.length 0 []

/-- The `*path_size` of `mount_path_string_copy_from_item_path`, mount_path_string.c:210 and 412: the size
  for the worst case. -/
def nameBufferSizeW (s : Wide) : Nat := s.length * 10 + 1

/-- A character of a string. -/
def rdUnit (p : Wide) (i : Nat) : Res UInt16 :=
  match p[i]? with
  | some u => .ok u
  | none => .ub

/-- `n` characters of a string. -/
def rdUnits (p : Wide) (i n : Nat) : Res Wide :=
  if i + n ≤ p.length then .ok ((p.drop i).take n) else .ub

/-- `^x##`, mount_path_string.c:598-656: `i` is the index of the digits. -/
def unescapeX (p : Wide) (i : Nat) : Res (Nat × Nat) :=
  if i + 2 > p.length then .err
  else match rdUnits p i 2 with
    | .ok digits => match hexValueW digits with
      | none => .err
      | some v =>
        if (0x01 ≤ v ∧ v ≤ 0x1f) ∨ v = 0x5c ∨ WindowsOnly v ∨ (0x7f ≤ v ∧ v ≤ 0x9f) then .ok (v, i + 2)
        else .err
    | .err => .err
    | .ub => .ub
    | .hang => .hang

/-- `^U########`, mount_path_string.c:675-732. -/
def unescapeU (p : Wide) (i : Nat) : Res (Nat × Nat) :=
  if i + 8 > p.length then .err
  else match rdUnits p i 8 with
    | .ok digits => match hexValueW digits with
      | none => .err
      | some v => if EscapedU v then .ok (v, i + 8) else .err
    | .err => .err
    | .ub => .ub
    | .hang => .hang

/-- The part of `mount_path_string_copy_to_item_path` from the escape character on,
  mount_path_string.c:560-747: `i` is the index after the escape character; the result is the character and
  the index after the escaped text. -/
def unescapeW (p : Wide) (i : Nat) : Res (Nat × Nat) :=
  if i + 1 > p.length then .err
  else match rdUnit p i with
    | .ok ch =>
      if ch = 0x5e then .ok (0x5e, i + 1)
      else if ch = 0x58 ∨ ch = 0x78 then unescapeX p (i + 1)
      else if ch = 0x55 ∨ ch = 0x75 then unescapeU p (i + 1)
      else .err
    | .err => .err
    | .ub => .ub
    | .hang => .hang

/-- The character of the item path, and the index after it, for the character `c` of the path that ends at
  index `i`, mount_path_string.c:556-747. -/
def pathCharW (p : Wide) (c i : Nat) : Res (Nat × Nat) :=
  if c = 0x5c then .ok (sepChar, i)
  else if c = 0x5e then unescapeW p i
  else .ok (c, i)

/-- The loop of `mount_path_string_copy_to_item_path` and the end of the string,
  mount_path_string.c:528-786. -/
def toLoopW (k : WideCodec) (p : Wide) (size : Nat) : Nat → Nat → Wide → Res Wide
  | fuel, i, out =>
    if i < p.length then
      match fuel with
      | 0 => .hang
      | fuel + 1 =>
        match k.step (p.drop i) with
        | none => .err
        | some (c, n) =>
          match pathCharW p c (i + n) with
          | .ok (v, j) =>
            match putCharW k size out v with
            | .ok out => toLoopW k p size fuel j out
            | .err => .err
            | .ub => .ub
            | .hang => .hang
          | .err => .err
          | .ub => .ub
          | .hang => .hang
    else if out.length < size then .ok out else .err

/-- `mount_path_string_copy_to_item_path`, mount_path_string.c:428-800. -/
def toItemPathW (k : WideCodec) (p : Wide) : Res Wide :=
  if p.length = 0 ∨ p.length > ssizeMax - 1 then .err
  else if p.getD 0 0 ≠ 0x5c then .err
  else if p.length + 1 > ssizeMax / 2 then .err
  else toLoopW k p (p.length + 1) p.length 0 []

/-- The string before its end of string character. -/
def wString (s : Wide) : Wide := s.takeWhile (· ≠ 0)

/-- `mount_file_system_get_item_by_path`, mount_file_system.c:387-481, with the UTF-16 function of the library.
  The file that is mounted is given by its tree. -/
def mountItemByPathW (k : WideCodec) (cmp : Wide → Bytes → Option Bool) (t : Option Tree)
    (p : Wide) : Res (Option Item) :=
  match toItemPathW k p with
  | .ok ip => itemByPath k.toDecoder cmp t (rootItem t) (wString ip)
  | .err => .err
  | .ub => .ub
  | .hang => .hang

/-- A file entry (`mount_file_entry_t`): its name up to the end of string character, the size of the string
  it is kept in (`name_size`), and its item. -/
structure WideEntry where
  name : Wide
  nameSize : Nat
  item : Item
  deriving Repr, DecidableEq

/-- The loop of `mount_handle_get_file_entry_by_path` that looks for the last separator,
  mount_handle.c:508-517; index `p.length` is the end of string character. -/
def lastSeparatorW (p : Wide) : Nat → Nat
  | 0 => 0
  | i + 1 => if p.getD (i + 1) 0 = 0x5c then i + 1 else lastSeparatorW p i

/-- `mount_handle_get_file_entry_by_path`, mount_handle.c:453-578, for a string without end of string
  characters, and `mount_file_entry_initialize`, mount_file_entry.c:50-194. -/
def mountEntryByPathW (k : WideCodec) (cmp : Wide → Bytes → Option Bool) (t : Option Tree)
    (p : Wide) : Res (Option WideEntry) :=
  if p.length = 0 then .err
  else
    let len := if 2 ≤ p.length ∧ p.getD (p.length - 1) 0 = 0x5c then p.length - 1 else p.length
    let index := lastSeparatorW p len
    let nameLength := (len + 2 ^ 64 - (index + 1)) % 2 ^ 64
    match mountItemByPathW k cmp t (p.take len) with
    | .ok (some item) =>
      if nameLength > ssizeMax - 1 then .err
      else .ok (some ⟨(p.drop (index + 1)).take nameLength, nameLength + 1, item⟩)
    | .ok none => .ok none
    | .err => .err
    | .ub => .ub
    | .hang => .hang

/-- The name of an item, mount_file_system.c:509-585: it is copied to a string of the size asked for before,
  and used without the last character of that string. -/
def mountItemNameW (u : Libuna) (io : IoHandle) (d : DirEntry) : Option Wide :=
  match itemUtf16NameSize u io ⟨none, d⟩ with
  | .ok size =>
    if size = 0 ∨ size > ssizeMax then none
    else match itemUtf16Name u io ⟨none, d⟩ (some size) with
      | .ok name => some (name.take (size - 1))
      | _ => none
  | _ => none

/-- `mount_file_system_get_filename_from_item`, mount_file_system.c:486-609: the text and the size of the
  string.  `name16` stands for the name of the item, see `mountItemNameW`. -/
def mountFilenameW (k : WideCodec) (name16 : DirEntry → Option Wide) (item : Item) : Res (Wide × Nat) :=
  match name16 item.entry with
  | none => .err
  | some name => match fromItemPathW k name with
    | .ok m => .ok (m, nameBufferSizeW name)
    | .err => .err
    | .ub => .ub
    | .hang => .hang

/-- `mount_file_entry_get_sub_file_entry_by_index`, mount_file_entry.c:730-846: the entry has a name of the
  size for the worst case. -/
def mountSubEntryW (k : WideCodec) (name16 : DirEntry → Option Wide) (t : Tree) (e : WideEntry)
    (index : Int) : Res WideEntry :=
  match getSubItem t e.item index with
  | .ok item =>
    match mountFilenameW k name16 item with
    | .ok (name, size) => .ok ⟨wString name, size, item⟩
    | .err => .err
    | .ub => .ub
    | .hang => .hang
  | .err => .err
  | .ub => .ub
  | .hang => .hang

end Olecf
