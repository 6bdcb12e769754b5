import Verif.Model.MemFile
import Verif.Model.Item
import Verif.Model.Stream

/-
  The memory of items, and the memory that calls on items use:
  libolecf/libolecf_item.c
  libolecf/libolecf_stream.c
  libolecf/libolecf_file.c (root item, lookup by path)
-/

namespace Olecf

variable {σ α : Type}

/-- The access to what an optional pointer points at. -/
def Mem.useOpt : Option Nat → Mem σ Unit
  | some b => Mem.use b
  | none => pure ()

/-- A pointer to a node of the directory tree: the node, where it is, and the tree, which is what
  can be reached from it. -/
structure MPos where
  tree : MTree
  key : NodeKey
  node : MNode

/-- The pointers that an item takes over from the file or from another item: the file, its IO
  handle, and the libbfio handle with its block if the library made it. -/
structure MPtrs where
  file : Nat
  ioBlock : Nat
  handle : Option HandleId
  handleBlock : Option Nat

/-- `libolecf_internal_item_t`, libolecf_item.h:42-67; `directory_entry` is the value of the node. -/
structure MItem where
  block : Nat
  ptrs : MPtrs
  pos : MPos
  offset : Int

/-- What navigation sees of a node. -/
def MPos.item (p : MPos) : Item := ⟨p.key, p.node.value.entry⟩

/-- The pointers of a file. -/
def MFile.ptrs (f : MFile) : MPtrs := ⟨f.block, f.ioBlock, f.handle, f.handleBlock⟩

/-- `libolecf_item_initialize`, libolecf_item.c:41-165. -/
def memItemInit (ptrs : MPtrs) (p : MPos) : Mem σ MItem := do
  let block ← Mem.alloc
  Mem.use p.node.block
  pure ⟨block, ptrs, p, 0⟩

/-- `libolecf_item_free`, libolecf_item.c:170-197. -/
def memFreeItem (it : MItem) : Mem σ Unit := do
  Mem.use it.block
  Mem.release it.block

/-- The item for the result of a lookup, with the return value as a value: `ok none` is 0. -/
def memMakeItem (ptrs : MPtrs) (r : Res (Option MPos)) : Mem σ (Res (Option MItem)) :=
  match r with
  | .ok (some p) => do
    match ← (memItemInit ptrs p).attempt with
    | some it => pure (.ok (some it))
    | none => pure .err
  | .ok none => pure (.ok none)
  | .err => pure .err
  | .ub => pure .ub
  | .hang => pure .hang

/-- The sub node for an entry.  The links between the nodes are not modelled: the node of an entry
  is the one with its identifier. -/
def MTree.nodeOf (t : MTree) (c : DirEntry) : Option MNode :=
  t.nodes.find? fun n => n.value.entry.id = c.id

/-- `libolecf_file_get_root_item`, libolecf_file.c:1605-1670. -/
def memRootItem (f : MFile) : Mem σ (Res (Option MItem)) := do
  Mem.use f.block
  match f.tree with
  | none => pure (.ok none)
  | some t => memMakeItem f.ptrs (.ok (some ⟨t, none, t.root⟩))

/-- `libolecf_item_get_sub_item`, libolecf_item.c:739-841. -/
def memSubItem (it : MItem) (index : Int) : Mem σ (Res (Option MItem)) := do
  Mem.use it.block
  Mem.use it.pos.node.block
  if index < 0 then pure .err
  else match (it.pos.tree.kids it.pos.key)[index.toNat]? with
    | none => pure .err
    | some c => match it.pos.tree.nodeOf c with
      | none => pure .ub
      | some n => memMakeItem it.ptrs (.ok (some ⟨it.pos.tree, some c.id, n⟩))

/-- The loop of `libolecf_directory_tree_get_sub_node_by_utf8_name` and `_utf16_name`,
  libolecf_directory_tree.c:835-918 and 968-1051. -/
def memNameLoop (cmp : List α → Bytes → Option Bool) (name : List α) (t : MTree) :
    List DirEntry → Mem σ (Res (Option MPos))
  | [] => pure (.ok none)
  | c :: rest => match t.nodeOf c with
    | none => pure .ub
    | some n => do
      Mem.use n.block
      Mem.use n.value.block
      Mem.useOpt n.value.name
      match cmp name c.name with
      | none => pure .err
      | some true => pure (.ok (some ⟨t, some c.id, n⟩))
      | some false => memNameLoop cmp name t rest

/-- `libolecf_directory_tree_get_sub_node_by_utf8_name` and `_utf16_name`,
  libolecf_directory_tree.c:782-920 and 925-1053. -/
def memSubNodeByName (cmp : List α → Bytes → Option Bool) (p : MPos) (name : List α) :
    Mem σ (Res (Option MPos)) := do
  Mem.use p.node.block
  memNameLoop cmp name p.tree (p.tree.kids p.key)

/-- `libolecf_item_get_sub_item_by_utf8_name` and `_utf16_name`, libolecf_item.c:846-955 and
  960-1069. -/
def memSubItemByName (cmp : List α → Bytes → Option Bool) (it : MItem) (name : List α) :
    Mem σ (Res (Option MItem)) := do
  Mem.use it.block
  Mem.use it.ptrs.ioBlock
  let r ← memSubNodeByName cmp it.pos name
  memMakeItem it.ptrs r

/-- The outer loop of the path lookup, as `pathLoop`; `none` is a NULL pointer to a node. -/
def memPathLoop (dec : Decoder α) (cmp : List α → Bytes → Option Bool) (s : List α) :
    Nat → Option MPos → Nat → Bool → Mem σ (Res (Option MPos))
  | fuel, node, i, found =>
    if i < s.length then
      match fuel with
      | 0 => pure .hang
      | fuel + 1 =>
        match scanSegment dec s s.length i with
        | .ok (e, hit) =>
          let len := e - (i + if hit then 1 else 0)
          if len = 0 then pure (.ok none)
          else match node with
            | some p => do
              let r ← memSubNodeByName cmp p ((s.drop i).take len)
              match r with
              | .ok (some c) => memPathLoop dec cmp s fuel (some c) e true
              | r => pure r
            | none => pure .err
        | .err => pure .err
        | .ub => pure .ub
        | .hang => pure .hang
    else if found then
      match node with
      | some p => pure (.ok (some p))
      | none => pure .err
    else pure (.ok none)

/-- The lookup of a path from a node, as `itemByPath`. -/
def memNodeByPath (dec : Decoder α) [DecidableEq α] (cmp : List α → Bytes → Option Bool)
    (start : Option MPos) (s : List α) : Mem σ (Res (Option MPos)) :=
  let i := if s.head? = some dec.sep then 1 else 0
  if s.length = 0 ∨ s.length = 1 then
    match start with
    | some p => pure (.ok (some p))
    | none => pure .err
  else memPathLoop dec cmp s s.length start i false

/-- `libolecf_file_get_item_by_utf8_path` and `_utf16_path`, libolecf_file.c:1676-1841 and
  1846-2011. -/
def memFileItemByPath (dec : Decoder α) [DecidableEq α] (cmp : List α → Bytes → Option Bool)
    (f : MFile) (s : List α) : Mem σ (Res (Option MItem)) := do
  Mem.use f.block
  Mem.use f.ioBlock
  let r ← memNodeByPath dec cmp (f.tree.map fun t => ⟨t, none, t.root⟩) s
  memMakeItem f.ptrs r

/-- `libolecf_item_get_sub_item_by_utf8_path` and `_utf16_path`, libolecf_item.c:1075-1240 and
  1245-1410. -/
def memSubItemByPath (dec : Decoder α) [DecidableEq α] (cmp : List α → Bytes → Option Bool)
    (it : MItem) (s : List α) : Mem σ (Res (Option MItem)) := do
  Mem.use it.block
  Mem.use it.ptrs.ioBlock
  let r ← memNodeByPath dec cmp (some it.pos) s
  memMakeItem it.ptrs r

/-- The fields of an entry that have a function: `libolecf_item_get_type`, `_get_size`,
  `_get_creation_time` and `_get_modification_time`, libolecf_item.c:202-248 and 541-693. -/
inductive Field where
  | type
  | size
  | created
  | modified

/-- The field of an entry. -/
def Field.of (d : DirEntry) : Field → Nat
  | .type => d.type
  | .size => d.size
  | .created => d.created
  | .modified => d.modified

/-- See `Field`. -/
def memField (it : MItem) (g : Field) : Mem σ Nat := do
  Mem.use it.block
  Mem.use it.pos.node.value.block
  pure (g.of it.pos.node.value.entry)

/-- `libolecf_item_get_utf8_name_size`, `_get_utf8_name`, `_get_utf16_name_size` and
  `_get_utf16_name`, libolecf_item.c:253-536; `conv` is the conversion by libuna. -/
def memName (conv : IoHandle → Item → Res α) (f : MFile) (it : MItem) : Mem σ (Res α) := do
  Mem.use it.block
  Mem.use it.pos.node.value.block
  Mem.use it.ptrs.ioBlock
  Mem.useOpt it.pos.node.value.name
  pure (conv f.io it.pos.item)

/-- `libolecf_item_get_number_of_sub_items`, libolecf_item.c:698-734. -/
def memCount (it : MItem) : Mem σ Nat := do
  Mem.use it.block
  Mem.use it.pos.node.block
  pure (it.pos.tree.kids it.pos.key).length

/-- `libolecf_stream_seek_offset`, libolecf_stream.c:211-302. -/
def memSeek (it : MItem) (offset : Int) (whence : Whence) : Mem σ (MItem × Res Int) := do
  Mem.use it.block
  Mem.use it.pos.node.value.block
  let r := streamSeek it.pos.node.value.entry it.offset offset whence
  pure ({ it with offset := r.2 }, r.1)

/-- `libolecf_stream_get_offset`, libolecf_stream.c:307-365. -/
def memGetOffset (it : MItem) : Mem σ (Res Int) := do
  Mem.use it.block
  Mem.use it.pos.node.value.block
  pure (streamGetOffset it.pos.node.value.entry it.offset)

/-- The access to an allocation table. -/
def useTable (t : MTable) : Mem σ Unit := do
  Mem.use t.block
  Mem.useOpt t.ids

/-- `libolecf_stream_read_buffer`, libolecf_stream.c:36-158, with `libolecf_io_handle_read_stream`,
  libolecf_io_handle.c:1413-1737.  Simplified: the tables are used by every call; a file without
  tables, which has no items, makes it fail. -/
def memRead (f : MFile) (it : MItem) (size : Nat) : Mem World (MItem × Res Bytes) := do
  Mem.use it.block
  Mem.use it.pos.node.value.block
  Mem.use it.ptrs.file
  Mem.use it.ptrs.ioBlock
  Mem.useOpt it.ptrs.handleBlock
  Mem.forEach useTable f.sat.toList
  Mem.forEach useTable f.ssat.toList
  match it.ptrs.handle, f.sat, f.ssat with
  | some h, some sat, some ssat => do
    let dev ← worldStep fun w => (w.dev h, w)
    let r := streamRead ⟨f.io, dev, sat.table, ssat.table⟩ it.pos.node.value.entry it.offset size
    pure ({ it with offset := r.2 }, r.1.res)
  | _, _, _ => pure (it, .err)

end Olecf
