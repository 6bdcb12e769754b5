import Verif.Model.File
import Verif.Model.Memory

/-
  The memory of files:
  libolecf/libolecf_allocation_table.c
  libolecf/libolecf_io_handle.c
  libolecf/libolecf_directory_entry.c
  libolecf/libolecf_directory_tree.c
  libolecf/libolecf_file.c
-/

namespace Olecf

variable {σ : Type}

/-! ### Allocation tables -/

/-- `libolecf_allocation_table_t`: the structure and the array, `NULL` for a table without
  identifiers. -/
structure MTable where
  block : Nat
  ids : Option Nat
  table : AllocTable

/-- `libolecf_allocation_table_initialize`, libolecf_allocation_table.c:33-158. -/
def memTableInit (k : Int) : Mem σ MTable := do
  let t ← Mem.of (AllocTable.init k)
  let block ← Mem.alloc
  if k > 0 then do
    let ids ← Mem.alloc.onError (Mem.release block)
    pure ⟨block, some ids, t⟩
  else pure ⟨block, none, t⟩

/-- `libolecf_allocation_table_free`, libolecf_allocation_table.c:163-193. -/
def freeTable (t : MTable) : Mem σ Unit := do
  Mem.use t.block
  Mem.releaseOpt t.ids
  Mem.release t.block

/-- `libolecf_allocation_table_resize`, libolecf_allocation_table.c:198-268. -/
def memTableResize (t : MTable) (k : Int) : Mem σ MTable := do
  let table ← Mem.of (t.table.resize k)
  if (t.table.n : Int) < k then do
    Mem.use t.block
    let ids ← Mem.realloc t.ids
    pure ⟨t.block, some ids, table⟩
  else pure t

/-- The resize of a table that is too small, with the return value as a value. -/
def memGrow (t : MTable) (total : Int) : Mem σ (Option MTable) :=
  if (t.table.n : Int) < total then (memTableResize t total).attempt else pure (some t)

/-- A sector buffer and a loop over sectors that fills the table: the buffer is freed at the end of
  the function or by `on_error`.  `none` if the buffer cannot be made or the loop fails. -/
def memWithBuffer (o : Res AllocTable) : Mem σ (Option AllocTable) := do
  match ← Mem.alloc.attempt with
  | none => pure none
  | some buffer => do
    let r ← (Mem.of o).attempt
    Mem.release buffer
    pure r

/-- `libolecf_io_handle_read_msat`, libolecf_io_handle.c:201-490: the table afterwards and whether
  it succeeded. -/
def memReadMsat (io : IoHandle) (dev : Dev) (msat : MTable) (id count : Nat) :
    Mem σ (MTable × Bool) := do
  if io.sectorSize = 0 ∨ io.sectorSize > MAX_ALLOC then pure (msat, false)
  else if msat.table.n < 109 then pure (msat, false)
  else if id = EOC ∧ count = 0 then pure (msat, true)
  else if id = EOC then pure (msat, false)
  else
    let count := if count = 0 then 1 else count
    let entries := io.sectorSize / 4
    if entries = 0 then pure (msat, false)
    else
      let entries := entries - 1
      match ← memGrow msat (toInt32 (109 + count * entries)) with
      | none => pure (msat, false)
      | some msat =>
        match ← memWithBuffer (msatLoop io dev entries tableFuel id 109 msat.table).res with
        | none => pure (msat, false)
        | some t => pure ({ msat with table := t }, true)

/-- `libolecf_io_handle_read_sat`, libolecf_io_handle.c:496-721: a failed allocation takes the
  `on_error` path, which returns 1. -/
def memReadSat (io : IoHandle) (dev : Dev) (msat : AllocTable) (sat : MTable) (count : Nat) :
    Mem σ (MTable × Bool) := do
  if io.sectorSize = 0 ∨ io.sectorSize > MAX_ALLOC then pure (sat, false)
  else
    let entries := io.sectorSize / 4
    match ← memGrow sat (toInt32 (count * entries)) with
    | none => pure (sat, true)
    | some sat =>
      match ← memWithBuffer (satLoop io dev entries msat.ids 0 sat.table).res with
      | none => pure (sat, true)
      | some t => pure ({ sat with table := t }, true)

/-- `libolecf_io_handle_read_ssat`, libolecf_io_handle.c:727-1010: a failed allocation takes the
  `on_error` path, which returns 1. -/
def memReadSsat (io : IoHandle) (dev : Dev) (sat : AllocTable) (ssat : MTable) (id count : Nat) :
    Mem σ (MTable × Bool) := do
  if io.sectorSize = 0 ∨ io.sectorSize > MAX_ALLOC then pure (ssat, false)
  else
    let entries := io.sectorSize / 4
    match ← memGrow ssat (toInt32 (count * entries)) with
    | none => pure (ssat, true)
    | some ssat =>
      match ← memWithBuffer (ssatLoop io dev sat entries count tableFuel id 0 0 ssat.table).res with
      | none => pure (ssat, true)
      | some t => pure ({ ssat with table := t }, true)

/-! ### The directory -/

/-- `libolecf_directory_entry_t`: the structure and the name, `NULL` if it has no bytes. -/
structure MEntry where
  block : Nat
  name : Option Nat
  entry : DirEntry

/-- `libolecf_directory_entry_free`, libolecf_directory_entry.c:115-145. -/
def freeEntry (d : MEntry) : Mem σ Unit := do
  Mem.use d.block
  Mem.releaseOpt d.name
  Mem.release d.block

/-- `libolecf_directory_entry_free_not_in_tree`, libolecf_directory_entry.c:150-181; `marks` are
  the entries whose flag `set_in_tree` is set. -/
def freeEntryNotInTree (marks : List Nat) (d : MEntry) : Mem σ Unit := do
  Mem.use d.block
  if d.entry.id ∈ marks then pure ()
  else do
    Mem.releaseOpt d.name
    Mem.release d.block

/-- An element of the list of entries: the element of libcdata and its value. -/
structure MElem where
  block : Nat
  value : MEntry

/-- An element and its value, as `libcdata_list_empty` and `libcdata_list_free` free them: `f` is the
  callback for the value. -/
def freeElem (f : MEntry → Mem σ Unit) (x : MElem) : Mem σ Unit := do
  Mem.use x.block
  f x.value
  Mem.release x.block

/-- `libolecf_directory_entry_initialize` (libolecf_directory_entry.c:43-110),
  `libolecf_directory_entry_read_data` (:229-577) and the free of an empty entry
  (libolecf_io_handle.c:1222-1280), with the `on_error` of :1383-1388: `none` for an empty entry. -/
def memReadEntry (e : Endian) (index : Nat) (data : Bytes) : Mem σ (Option MEntry) := do
  let block ← Mem.alloc
  match ← (Mem.of (readDirEntry e index data)).onError (Mem.release block) with
  | none => do
    Mem.use block
    Mem.release block
    pure none
  | some d =>
    if d.name.length > 0 then do
      let name ← Mem.alloc.onError (Mem.release block)
      pure (some ⟨block, some name, d⟩)
    else pure (some ⟨block, none, d⟩)

/-- The entry loop of `libolecf_io_handle_read_directory_entries`, libolecf_io_handle.c:1218-1302:
  the list afterwards and whether it succeeded. -/
def memSlotLoop (e : Endian) (sector : Bytes) :
    Nat → Nat → Nat → List MElem → Mem σ (List MElem × Bool)
  | 0, _, _, acc => pure (acc, true)
  | k + 1, pos, index, acc => do
    match ← (do
      let data ← Mem.of (rdBytes sector pos dirEntrySize)
      memReadEntry e index data : Mem σ (Option MEntry)).attempt with
    | none => pure (acc, false)
    | some none => memSlotLoop e sector k (pos + dirEntrySize) (index + 1) acc
    | some (some d) => do
      match ← (Mem.alloc.onError (freeEntry d)).attempt with
      | none => pure (acc, false)
      | some x => memSlotLoop e sector k (pos + dirEntrySize) (index + 1) (acc ++ [⟨x, d⟩])

/-- The sector loop of `libolecf_io_handle_read_directory_entries`, libolecf_io_handle.c:1126-1360:
  the list afterwards and whether it succeeded. -/
def memDirLoop (io : IoHandle) (dev : Dev) (sat : AllocTable) :
    Nat → Nat → List Nat → Nat → List MElem → Mem σ (List MElem × Bool)
  | fuel, id, seen, index, acc =>
    if id = EOC ∨ id = UNUSED then pure (acc, true)
    else match fuel with
      | 0 => pure (acc, false)
      | fuel + 1 =>
        if id ∈ seen then pure (acc, true)
        else
          match dev.get (sectorOffset id io.sectorSize) io.sectorSize with
          | none => pure (acc, false)
          | some sector => do
            let entries := io.sectorSize / dirEntrySize
            let r ← memSlotLoop io.byteOrder sector entries 0 index acc
            if r.2 then do
              match ← (do
                Mem.ask
                Mem.of (sat.next id) : Mem σ Nat).attempt with
              | none => pure (r.1, false)
              | some nextId =>
                memDirLoop io dev sat fuel nextId (id :: seen) (index + entries) r.1
            else pure (r.1, false)

/-- `libcdata_list_empty` with `libolecf_directory_entry_free`, and the return value -1. -/
def memEmptyList (acc : List MElem) : Mem σ (List MElem × Bool) := do
  Mem.forEach (freeElem freeEntry) acc
  pure ([], false)

/-- `libolecf_io_handle_read_directory_entries`, libolecf_io_handle.c:1016-1407: the list afterwards
  and whether it succeeded. -/
def memReadDirectory (io : IoHandle) (dev : Dev) (sat : AllocTable) (list : List MElem)
    (root : Nat) : Mem σ (List MElem × Bool) := do
  if io.sectorSize = 0 ∨ io.sectorSize > MAX_ALLOC ∨ io.sectorSize % dirEntrySize ≠ 0 then
    pure (list, false)
  else if root = EOC then pure (list, false)
  else do
    match ← Mem.alloc.attempt with
    | none => memEmptyList list
    | some buffer =>
      match ← Mem.alloc.attempt with
      | none => do
        Mem.release buffer
        memEmptyList list
      | some ranges => do
        let r ← memDirLoop io dev sat (maxDirDepth + 1) root [] 0 list
        Mem.release ranges
        Mem.release buffer
        if r.2 then pure r else memEmptyList r.1

/-! ### The directory tree -/

/-- A node of the tree: the node of libcdata and its value, an entry of the list. -/
structure MNode where
  block : Nat
  value : MEntry

/-- The tree under construction: as `TreeState`, and the nodes in it below the root node. -/
structure MTreeState where
  state : TreeState
  nodes : List MNode

/-- `libolecf_directory_list_get_element_by_identifier`, libolecf_directory_list.c:33-129. -/
def memLookup (list : List MElem) (id : Nat) : Option MEntry :=
  match list with
  | [] => none
  | d :: rest => if d.value.entry.id = id then some d.value else memLookup rest id

/-- The check of a linked entry, the creation of its node and the insertion under `parent`, as
  `attach`; a node that is not inserted is freed by `on_error`
  (libolecf_directory_tree.c:769-775). -/
def memAttach (parent : Option NodeKey) (c : MEntry) (st : MTreeState) : Mem σ MTreeState := do
  Mem.use c.block
  if c.entry.id ∈ st.state.marks then .fail
  else do
    let node ← Mem.alloc
    let s ← (Mem.of (attach parent c.entry st.state)).onError (Mem.release node)
    pure ⟨s, ⟨node, c⟩ :: st.nodes⟩

/-- `libolecf_directory_tree_create_process_entry`, libolecf_directory_tree.c:276-777: the tree
  afterwards and whether it succeeded; a failed call keeps the nodes that were inserted. -/
def memProcessEntry (list : List MElem) (cmp : Bytes → Bytes → Option Bool) (rootId : Nat) :
    Nat → NodeKey → Option NodeKey → MEntry → MTreeState → Mem σ (MTreeState × Bool)
  | 0, _, _, _, _ => .of .hang
  | fuel + 1, node, parent, d, st => do
    Mem.use d.block
    match ← (Mem.of (summaryCheck cmp d.entry)).attempt with
    | none => pure (st, false)
    | some _ => do
      let r1 ← (
        if d.entry.sub ≠ UNUSED ∧ d.entry.sub ≠ 0 ∧ rootId = 0 then
          match memLookup list d.entry.sub with
          | none => pure (st, true)
          | some c => do
            match ← (memAttach (some node) c st).attempt with
            | none => pure (st, false)
            | some st => memProcessEntry list cmp rootId fuel (some c.entry.id) (some node) c st
        else pure (st, true) : Mem σ (MTreeState × Bool))
      let r2 ← (
        if r1.2 = true ∧ d.entry.prev ≠ UNUSED then
          match memLookup list d.entry.prev with
          | none => pure r1
          | some c => do
            match ← (memAttach parent c r1.1).attempt with
            | none => pure (r1.1, false)
            | some st => memProcessEntry list cmp rootId fuel (some c.entry.id) parent c st
        else pure r1 : Mem σ (MTreeState × Bool))
      if r2.2 = true ∧ d.entry.next ≠ UNUSED then
        match memLookup list d.entry.next with
        | none => pure (r2.1, false)
        | some c => do
          match ← (memAttach parent c r2.1).attempt with
          | none => pure (r2.1, false)
          | some st => memProcessEntry list cmp rootId fuel (some c.entry.id) parent c st
      else pure r2

/-- The search for the root storage, libolecf_directory_tree.c:118-177. -/
def memFindRoot : List MElem → Option MEntry
  | [] => none
  | d :: rest => if d.value.entry.type = typeRoot then some d.value else memFindRoot rest

/-- The directory tree of an open file. -/
structure MTree where
  root : MNode
  nodes : List MNode
  kids : NodeKey → List DirEntry

/-- The nodes of a tree. -/
def MTree.all (t : MTree) : List MNode := t.root :: t.nodes

/-- A node as `libcdata_tree_node_free` frees it: `f` is the callback for the value. -/
def freeNode (f : MEntry → Mem σ Unit) (n : MNode) : Mem σ Unit := do
  Mem.use n.block
  f n.value
  Mem.release n.block

/-- `libcdata_tree_node_free` without a callback. -/
def freeNodesOnly (l : List MNode) : Mem σ Unit := Mem.forEach (freeNode fun _ => pure ()) l

/-- What `libolecf_directory_tree_create` leaves: the value it stores in
  `short_sector_stream_start_sector_identifier`, the tree, the entries whose flag is set, and
  whether it succeeded. -/
structure MTreeOut where
  shortStart : Option Nat
  tree : Option MTree
  marks : List Nat
  ok : Bool

/-- `libolecf_directory_tree_create`, libolecf_directory_tree.c:39-271. -/
def memCreateTree (list : List MElem) (cmp : Bytes → Bytes → Option Bool) : Mem σ MTreeOut :=
  match list with
  | [] => pure ⟨none, none, [], true⟩
  | _ :: _ =>
    match memFindRoot list with
    | none => pure ⟨none, none, [], false⟩
    | some root =>
      if root.entry.sub = UNUSED then pure ⟨none, none, [], true⟩
      else do
        match ← Mem.alloc.attempt with
        | none => pure ⟨none, none, [], false⟩
        | some node => do
          let r ← memProcessEntry list cmp root.entry.id (list.length + 1) none none root
            ⟨⟨[], fun _ => []⟩, []⟩
          if r.2 then
            pure ⟨some root.entry.start, some ⟨⟨node, root⟩, r.1.nodes, r.1.state.kids⟩,
              root.entry.id :: r.1.state.marks, true⟩
          else do
            freeNodesOnly (⟨node, root⟩ :: r.1.nodes)
            pure ⟨some root.entry.start, none, r.1.state.marks, false⟩

/-! ### The file -/

/-- What `libolecf_file_open_read` loads. -/
structure MLoaded where
  msat : MTable
  sat : MTable
  ssat : MTable
  tree : Option MTree

/-- `libcdata_list_free` of the list of the entries and its elements; `f` is the callback for the
  value. -/
def freeList (f : MEntry → Mem σ Unit) (list : Nat × List MElem) : Mem σ Unit := do
  Mem.use list.1
  Mem.forEach (freeElem f) list.2
  Mem.release list.1

/-- `on_error` of `libolecf_file_open_read`, libolecf_file.c:1142-1188: what was made so far is
  freed; the tree was freed by `libolecf_directory_tree_create`.  `list` is the list of the entries
  with the elements in it. -/
def openCleanup (header : Option Nat) (msat sat ssat : Option MTable)
    (list : Option (Nat × List MElem)) : Mem σ Unit := do
  Mem.forEach (freeList freeEntry) list.toList
  Mem.forEach freeTable ssat.toList
  Mem.forEach freeTable sat.toList
  Mem.forEach freeTable msat.toList
  Mem.releaseOpt header

/-- The steps from the creation of the tree on, libolecf_file.c:1086-1140: the header is freed, the
  tree is made, and the list is freed with the entries that are not in the tree. -/
def memOpenTree (cmp : Bytes → Bytes → Option Bool) (io : IoHandle) (header : Nat)
    (msat sat ssat : MTable) (list : Nat) (elems : List MElem) :
    Mem σ (IoHandle × Option MLoaded) := do
  Mem.release header
  let t ← memCreateTree elems cmp
  if t.ok then do
    freeList (freeEntryNotInTree t.marks) (list, elems)
    pure (io.withShortStart t.shortStart, some ⟨msat, sat, ssat, t.tree⟩)
  else do
    openCleanup none (some msat) (some sat) (some ssat) (some (list, elems))
    pure (io.withShortStart t.shortStart, none)

/-- The steps of the directory, libolecf_file.c:1056-1085. -/
def memOpenDirectory (cmp : Bytes → Bytes → Option Bool) (dev : Dev) (io : IoHandle)
    (hdr : FileHeader) (header : Nat) (msat sat ssat : MTable) :
    Mem σ (IoHandle × Option MLoaded) := do
  match ← Mem.alloc.attempt with
  | none => do
    openCleanup (some header) (some msat) (some sat) (some ssat) none
    pure (io, none)
  | some list => do
    let r ← memReadDirectory io dev sat.table [] hdr.rootDirSector
    if r.2 then memOpenTree cmp io header msat sat ssat list r.1
    else do
      openCleanup (some header) (some msat) (some sat) (some ssat) (some (list, r.1))
      pure (io, none)

/-- The steps of the short sector table, libolecf_file.c:1017-1048. -/
def memOpenSsat (cmp : Bytes → Bytes → Option Bool) (dev : Dev) (io : IoHandle)
    (hdr : FileHeader) (header : Nat) (msat sat : MTable) : Mem σ (IoHandle × Option MLoaded) := do
  match ← (memTableInit 0).attempt with
  | none => do
    openCleanup (some header) (some msat) (some sat) none none
    pure (io, none)
  | some ssat => do
    let r ← memReadSsat io dev sat.table ssat hdr.ssatSector hdr.ssatSectors
    if r.2 then memOpenDirectory cmp dev io hdr header msat sat r.1
    else do
      openCleanup (some header) (some msat) (some sat) (some r.1) none
      pure (io, none)

/-- The steps of the sector table, libolecf_file.c:979-1009. -/
def memOpenSat (cmp : Bytes → Bytes → Option Bool) (dev : Dev) (io : IoHandle)
    (hdr : FileHeader) (header : Nat) (msat : MTable) : Mem σ (IoHandle × Option MLoaded) := do
  match ← (memTableInit 0).attempt with
  | none => do
    openCleanup (some header) (some msat) none none none
    pure (io, none)
  | some sat => do
    let r ← memReadSat io dev msat.table sat hdr.satSectors
    if r.2 then memOpenSsat cmp dev io hdr header msat r.1
    else do
      openCleanup (some header) (some msat) (some r.1) none none
      pure (io, none)

/-- `libolecf_file_open_read`, libolecf_file.c:880-1189: the IO handle that is left behind and what
  was loaded (`none` is the return value -1). -/
def memOpenCore (cmp : Bytes → Bytes → Option Bool) (dev : Dev) (io : IoHandle) :
    Mem σ (IoHandle × Option MLoaded) := do
  match ← Mem.alloc.attempt with
  | none => pure (io, none)
  | some header =>
    match ← (memTableInit 109).attempt with
    | none => do
      openCleanup (some header) none none none none
      pure (io, none)
    | some msat =>
      match ← (Mem.of (headerRead dev msat.table).res).attempt with
      | none => do
        openCleanup (some header) (some msat) none none none
        pure (io, none)
      | some hm => do
        let io := io.withHeader hm.1
        let r ← memReadMsat io dev ⟨msat.block, msat.ids, hm.2⟩ hm.1.msatSector hm.1.msatSectors
        if r.2 then memOpenSat cmp dev io hm.1 header r.1
        else do
          openCleanup (some header) (some r.1) none none none
          pure (io, none)

/-- `libolecf_internal_file_t` with its blocks: `block` is the structure, `ioBlock` the IO handle;
  `handleBlock` is the libbfio handle if it was made by the library. -/
structure MFile where
  block : Nat
  ioBlock : Nat
  io : IoHandle
  abort : Bool
  handle : Option HandleId
  handleBlock : Option Nat
  openedInLibrary : Bool
  createdInLibrary : Bool
  msat : Option MTable
  sat : Option MTable
  ssat : Option MTable
  tree : Option MTree

/-- `libolecf_file_initialize`, libolecf_file.c:48-129, with `libolecf_io_handle_initialize`,
  libolecf_io_handle.c:51-125. -/
def memNewFile : Mem σ MFile := do
  let block ← Mem.alloc
  let ioBlock ← Mem.alloc.onError (Mem.release block)
  pure { block, ioBlock, io := .cleared, abort := false, handle := none, handleBlock := none,
         openedInLibrary := false, createdInLibrary := false, msat := none, sat := none,
         ssat := none, tree := none }

/-- `libolecf_file_open_read`, libolecf_file.c:805-1189: the file afterwards and whether it
  succeeded. -/
def memOpenRead (cmp : Bytes → Bytes → Option Bool) (dev : Dev) (f : MFile) :
    Mem σ (MFile × Bool) := do
  Mem.use f.block
  if f.msat.isSome ∨ f.sat.isSome ∨ f.ssat.isSome ∨ f.tree.isSome then pure (f, false)
  else do
    Mem.use f.ioBlock
    let r ← memOpenCore cmp dev f.io
    match r.2 with
    | some l =>
      pure ({ f with io := r.1, msat := some l.msat, sat := some l.sat, ssat := some l.ssat,
                     tree := l.tree }, true)
    | none => pure ({ f with io := r.1 }, false)

/-- A step on the handles of libbfio. -/
def worldStep (g : World → α × World) : Mem World α := Mem.lift fun w => (.ok (g w).1, (g w).2)

/-- `libolecf_file_open_file_io_handle`, libolecf_file.c:473-610. -/
def memOpenHandle (cmp : Bytes → Bytes → Option Bool) (h : HandleId) (flags : Nat) (flt : Faults)
    (f : MFile) : Mem World (MFile × Bool) := do
  Mem.use f.block
  if f.handle.isSome then pure (f, false)
  else if !flagRead flags && !flagWrite flags then pure (f, false)
  else if flagWrite flags then pure (f, false)
  else if flt.isOpen then pure ({ f with handle := none }, false)
  else do
    let wasOpen ← worldStep fun w => (w.isOpen h, w)
    let opened ← worldStep fun w => if wasOpen then (true, w) else w.openH flt h
    if !opened then pure ({ f with handle := none }, false)
    else do
      let dev ← worldStep fun w => (w.dev h, w)
      let r ← memOpenRead cmp dev (if wasOpen then f else { f with openedInLibrary := true })
      if r.2 then pure ({ r.1 with handle := some h }, true)
      else if !wasOpen && r.1.openedInLibrary then do
        let _ ← worldStep fun w => w.closeH flt h
        pure ({ r.1 with openedInLibrary := false, handle := none }, false)
      else pure ({ r.1 with handle := none }, false)

/-- `libolecf_file_open`, libolecf_file.c:239-349.  The handle of `libbfio_file_initialize` is a
  block; that it cannot be made is an allocation that fails or another fault. -/
def memOpenName (cmp : Bytes → Bytes → Option Bool) (dev : Dev) (flags : Nat) (flt : Faults)
    (f : MFile) : Mem World (MFile × Bool) := do
  if flt.create then pure (f, false)
  else do
    match ← Mem.alloc.attempt with
    | none => pure (f, false)
    | some hb => do
      let h ← worldStep fun w => w.createH dev
      if flt.setName then do
        let _ ← worldStep fun w => ((), w.freeH h)
        Mem.release hb
        pure (f, false)
      else do
        let r ← memOpenHandle cmp h flags flt f
        if r.2 then pure ({ r.1 with createdInLibrary := true, handleBlock := some hb }, true)
        else do
          let _ ← worldStep fun w => ((), w.freeH h)
          Mem.release hb
          pure (r.1, false)

/-- `libolecf_file_close`, libolecf_file.c:615-800. -/
def memCloseFile (flt : Faults) (f : MFile) : Mem World (MFile × Bool) := do
  Mem.use f.block
  match f.handle with
  | none => pure (f, false)
  | some h => do
    let ok1 ← worldStep fun w => if f.openedInLibrary then w.closeH flt h else (true, w)
    let ok2 ← worldStep fun w =>
      if f.createdInLibrary then (!flt.free, w.freeH h) else (true, w)
    (if f.createdInLibrary then Mem.releaseOpt f.handleBlock else pure () : Mem World Unit)
    Mem.use f.ioBlock
    Mem.forEach freeTable f.msat.toList
    Mem.forEach freeTable f.sat.toList
    Mem.forEach freeTable f.ssat.toList
    Mem.forEach (freeNode freeEntry) (f.tree.elim [] MTree.all)
    pure ({ f with io := .cleared, abort := false, handle := none, handleBlock := none,
                   openedInLibrary := false, createdInLibrary := false, msat := none, sat := none,
                   ssat := none, tree := none }, ok1 && ok2)

/-- `libolecf_file_set_ascii_codepage`, libolecf_file.c:1369-1429. -/
def memSetCodepage (f : MFile) (cp : Int) : Mem σ (MFile × Bool) := do
  Mem.use f.block
  if cp ∉ codepages then pure (f, false)
  else do
    Mem.use f.ioBlock
    pure ({ f with io := { f.io with codepage := cp } }, true)

/-- `libolecf_file_signal_abort`, libolecf_file.c:200-234. -/
def memSignalAbort (f : MFile) : Mem σ (MFile × Bool) := do
  Mem.use f.block
  Mem.use f.ioBlock
  pure ({ f with abort := true }, true)

/-- `libolecf_file_free`, libolecf_file.c:134-195: whether it succeeded. -/
def memFreeFile (flt : Faults) (f : MFile) : Mem World Bool := do
  Mem.use f.block
  let r ← (if f.handle.isSome then memCloseFile flt f else pure (f, true))
  Mem.release r.1.ioBlock
  Mem.release r.1.block
  pure r.2

end Olecf
