import Verif.Model.ItemName
import Verif.Model.Export
import Verif.Model.Mount

/-
  olecftools/info_handle.c (the list of storage and stream items), on a platform where
  `system_character_t` is `char`.
-/

namespace Olecf

/-- What the tool works with: libuna, the IO handle and the tree of the opened file, and whether `char`
  is signed. -/
structure InfoEnv where
  u : Libuna
  io : IoHandle
  tree : Tree
  signedChar : Bool

/-- What was printed, and the outcome. -/
abbrev Printed (α : Type) := Bytes × Res α

/-- What is printed next; nothing after a failure. -/
def printThen (p : Printed α) (f : α → Printed β) : Printed β :=
  match p with
  | (out, .ok a) => let (more, r) := f a; (out ++ more, r)
  | (out, .err) => (out, .err)
  | (out, .ub) => (out, .ub)
  | (out, .hang) => (out, .hang)

/-- A call that prints nothing. -/
def quiet (r : Res α) : Printed α := ([], r)

/-- `fprintf` of a text. -/
def printed (s : Bytes) : Printed Unit := (s, .ok ())

/-- One iteration of the loop over the characters of a name, info_handle.c:674-690: the comparison with
  0x20 is that of the `char` as an `int`, so that with a signed `char` the bytes from 0x80 are smaller. -/
def infoChar (signedChar : Bool) (c : UInt8) : Bytes :=
  if c < 0x20 ∨ c = 0x7f ∨ (signedChar = true ∧ 0x80 ≤ c) then 0x5c :: 0x78 :: hexFixed 2 c.toNat
  else [c]

/-- The loop over the characters of a name, info_handle.c:670-691.  `size` is the size of the allocated
  string and `name` what was copied into it: a size of 0 makes the bound `name_size - 1` wrap around, and
  characters behind those copied are not initialized. -/
def infoName (signedChar : Bool) (size : Nat) (name : Bytes) : Res Bytes :=
  if size = 0 ∨ name.length < size - 1 then .ub
  else .ok ((name.take (size - 1)).flatMap (infoChar signedChar))

/-- " bytes)\n" -/
def bytesText : Bytes := [0x20, 0x62, 0x79, 0x74, 0x65, 0x73, 0x29, 0x0a]

/-- The loop over the sub items, info_handle.c:719-769: `n` iterations from `index` on. -/
def infoLoop (t : Tree) (it : Item) (f : Item → Printed Unit) : Nat → Nat → Printed Unit
  | 0, _ => printed []
  | n + 1, index =>
    printThen (quiet (getSubItem t it index)) fun s =>
      printThen (f s) fun _ => infoLoop t it f n (index + 1)

/-- `info_handle_item_fprint`, info_handle.c:551-782.  The recursion is bounded by `fuel`; the depth is
  far below what an `int` holds.  The string is allocated with the size that libuna gave, at most
  `2^63 - 1`, or the copy is refused. -/
def infoItem (env : InfoEnv) : Nat → Nat → Item → Printed Unit
  | 0, _, _ => ([], .hang)
  | fuel + 1, level, it =>
    printThen (quiet (itemUtf8NameSize env.u env.io it)) fun size =>
      printThen (quiet (itemUtf8Name env.u env.io it (some size))) fun name =>
        printThen (quiet (infoName env.signedChar size name)) fun text =>
          printThen (printed (List.replicate (2 * level) 0x20 ++ text ++
              (0x20 :: 0x28 :: decimal it.entry.size) ++ bytesText)) fun _ =>
            infoLoop env.tree it (infoItem env fuel (level + 1)) (numberOfSubItems env.tree it) 0

/-- The bytes of a string literal. -/
def ascii (s : String) : Bytes := s.toUTF8.data.toList

/-- "Storage and stream items:\n" and "No storage and stream items\n" -/
def itemsTitle : Bytes := ascii "Storage and stream items:\n"
def noItemsText : Bytes := ascii "No storage and stream items\n"

/-- `info_handle_items_fprint`, info_handle.c:476-546.  `root` is what `libolecf_file_get_root_item`
  gives. -/
def infoItems (env : InfoEnv) (fuel : Nat) (root : Option Item) : Printed Unit :=
  match root with
  | none => printed (noItemsText ++ [0x0a])
  | some it =>
    printThen (printed itemsTitle) fun _ =>
      printThen (infoItem env fuel 0 it) fun _ => printed [0x0a]

end Olecf
