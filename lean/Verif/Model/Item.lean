import Verif.Model.Tree

/-
  libolecf/libolecf_item.c (navigation), libolecf/libolecf_directory_tree.c (lookup by name),
  libolecf/libolecf_file.c (root item, lookup by path)
-/

namespace Olecf

/-- The part of an item (`libolecf_internal_item_t`, libolecf_item.h) that navigation uses: the
  tree node it refers to and the directory entry that is its value, as set by
  `libolecf_item_initialize`, libolecf_item.c:133-155. -/
structure Item where
  node : NodeKey
  entry : DirEntry
  deriving Repr, DecidableEq

/-- The item of a sub node. -/
def Item.ofEntry (c : DirEntry) : Item := ⟨some c.id, c⟩

/-- `libolecf_file_get_root_item`, libolecf_file.c:1605-1670: `none` is the return value 0. -/
def rootItem (tree : Option Tree) : Option Item :=
  match tree with
  | none => none
  | some t => some ⟨none, t.root⟩

/-- `libolecf_item_get_creation_time`, libolecf_item.c:590-641. -/
def itemCreationTime (item : Item) : Nat := item.entry.created

/-- `libolecf_item_get_modification_time`, libolecf_item.c:643-693. -/
def itemModificationTime (item : Item) : Nat := item.entry.modified

/-- `libolecf_item_get_number_of_sub_items`, libolecf_item.c:698-734. -/
def numberOfSubItems (t : Tree) (item : Item) : Nat := (t.kids item.node).length

/-- `libolecf_item_get_sub_item`, libolecf_item.c:739-841.  An index outside of the range
  makes `libcdata_tree_node_get_sub_node_by_index` fail. -/
def getSubItem (t : Tree) (item : Item) (index : Int) : Res Item :=
  if index < 0 then .err
  else match (t.kids item.node)[index.toNat]? with
    | some c => .ok (.ofEntry c)
    | none => .err

/-- The loop of `libolecf_directory_tree_get_sub_node_by_utf8_name` and `_utf16_name`,
  libolecf_directory_tree.c:838-909 and 971-1042.  `cmp` stands for
  `libuna_utf8_string_compare_with_utf16_stream` / `libuna_utf16_...`: `none` is the return
  value -1, `some true` is `LIBUNA_COMPARE_EQUAL`.  `ok none` is the return value 0. -/
def nameLoop (cmp : List α → Bytes → Option Bool) (name : List α) :
    List DirEntry → Res (Option DirEntry)
  | [] => .ok none
  | c :: rest => match cmp name c.name with
    | none => .err
    | some true => .ok (some c)
    | some false => nameLoop cmp name rest

/-- `libolecf_item_get_sub_item_by_utf8_name` / `_utf16_name`, libolecf_item.c:846-955 and
  960-1069. -/
def getSubItemByName (cmp : List α → Bytes → Option Bool) (t : Tree) (item : Item)
    (name : List α) : Res (Option Item) := do
  match ← nameLoop cmp name (t.kids item.node) with
  | some c => pure (some (.ofEntry c))
  | none => pure none

/-- What the path lookup needs to know of libuna: the code unit that is compared with
  `LIBOLECF_SEPARATOR`, and `libuna_unicode_character_copy_from_utf8` / `_utf16` on the
  remaining code units: the character and the number of code units used (`none`: return
  value -1). -/
structure Decoder (α : Type) where
  sep : α
  step : List α → Option (Nat × Nat)

/-- `LIBOLECF_SEPARATOR`, libolecf_definitions.h.in. -/
abbrev sepChar : Nat := 0x5c

/-- The inner loop of the path lookup, libolecf_file.c:1756-1786: scan from index `i` to the
  end of the segment; the result is the index reached and whether a separator (or end of string)
  character was read. -/
def scanSegment (dec : Decoder α) (s : List α) : Nat → Nat → Res (Nat × Bool)
  | fuel, i =>
    if i < s.length then
      match fuel with
      | 0 => .hang
      | fuel + 1 =>
        match dec.step (s.drop i) with
        | none => .err
        | some (c, n) =>
          if c = sepChar ∨ c = 0 then .ok (i + n, true)
          else scanSegment dec s fuel (i + n)
    else .ok (i, false)

/-- The outer loop of the path lookup, libolecf_file.c:1751-1820.  `node` is
  `directory_tree_node` with its value; `none` is a NULL pointer, which
  `libolecf_directory_tree_get_sub_node_by_utf8_name` and `libolecf_item_initialize` refuse.
  `found` is `result` ≠ 0. -/
def pathLoop (dec : Decoder α) (cmp : List α → Bytes → Option Bool) (t : Option Tree)
    (s : List α) : Nat → Option Item → Nat → Bool → Res (Option Item)
  | fuel, node, i, found =>
    if i < s.length then
      match fuel with
      | 0 => .hang
      | fuel + 1 =>
        match scanSegment dec s s.length i with
        | .ok (e, hit) =>
          let len := e - (i + if hit then 1 else 0)
          if len = 0 then .ok none
          else match t, node with
            | some t, some item =>
              match getSubItemByName cmp t item ((s.drop i).take len) with
              | .ok (some c) => pathLoop dec cmp (some t) s fuel (some c) e true
              | .ok none => .ok none
              | .err => .err
              | .ub => .ub
              | .hang => .hang
            | _, _ => .err
        | .err => .err
        | .ub => .ub
        | .hang => .hang
    else if found then
      match node with
      | some item => .ok (some item)
      | none => .err
    else .ok none

/-- `libolecf_file_get_item_by_utf8_path` / `_utf16_path`, libolecf_file.c:1676-1841 and
  1846-2011 (`start` is the root item), and `libolecf_item_get_sub_item_by_utf8_path` /
  `_utf16_path`, libolecf_item.c:1075-1240 and 1245-1410 (`start` is the item). -/
def itemByPath (dec : Decoder α) [DecidableEq α] (cmp : List α → Bytes → Option Bool)
    (t : Option Tree) (start : Option Item) (s : List α) : Res (Option Item) :=
  let i := if s.head? = some dec.sep then 1 else 0
  if s.length = 0 ∨ s.length = 1 then
    match start with
    | some item => .ok (some item)
    | none => .err
  else pathLoop dec cmp t s s.length start i false

end Olecf
