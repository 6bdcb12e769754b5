import Verif.Model.AllocTable

/-
  Directory entries (libolecf/libolecf_directory_entry.c), the directory list
  (libolecf/libolecf_directory_list.c) and the directory reader
  (libolecf/libolecf_io_handle.c:1016-1407).
-/

namespace Olecf

/-- `libolecf_directory_entry_t`, libolecf_directory_entry.h:36-84.  `name` together with
  its length is `name`/`name_size`.  The flag `set_in_tree` is kept apart, in the state of
  the tree builder. -/
structure DirEntry where
  id : Nat
  type : Nat
  name : Bytes
  prev : Nat
  next : Nat
  sub : Nat
  created : Nat
  modified : Nat
  start : Nat
  size : Nat
  deriving Repr, DecidableEq

/-- `sizeof( olecf_directory_entry_t )`, olecf_directory.h:34-107. -/
abbrev dirEntrySize : Nat := 128

/-- `libolecf_directory_entry_read_data`, libolecf_directory_entry.c:229-577: `none` is the
  return value 0 (type empty).  The name is copied from the start of the entry, up to the
  size of the whole entry (lines 312-349).  The debug output (lines 426-558) is not
  modelled. -/
def readDirEntry (e : Endian) (index : Nat) (data : Bytes) : Res (Option DirEntry) :=
  if data.length < dirEntrySize ∨ data.length > SSIZE_MAX then .err
  else do
    let type ← rdByte data 66
    if type = 0 then pure none
    else do
      let nameSize ← rd16 e data 64
      if nameSize > dirEntrySize then .err
      else do
        let name ← rdBytes data 0 nameSize
        let prev ← rd32 e data 68
        let next ← rd32 e data 72
        let sub ← rd32 e data 76
        let created ← rd64 e data 100
        let modified ← rd64 e data 108
        let start ← rd32 e data 116
        let size ← rd32 e data 120
        pure (some { id := index, type, name, prev, next, sub, created, modified, start, size })

/-- The entry loop of `libolecf_io_handle_read_directory_entries`,
  libolecf_io_handle.c:1213-1300: `k` entries left, the next one at `pos` of the sector;
  entries of type empty are dropped, the others appended to the list. -/
def dirSlotLoop (e : Endian) (sector : Bytes) :
    Nat → Nat → Nat → List DirEntry → Res (List DirEntry)
  | 0, _, _, acc => .ok acc
  | k + 1, pos, index, acc =>
    match rdBytes sector pos dirEntrySize with
    | .ok data =>
      match readDirEntry e index data with
      | .ok none => dirSlotLoop e sector k (pos + dirEntrySize) (index + 1) acc
      | .ok (some d) => dirSlotLoop e sector k (pos + dirEntrySize) (index + 1) (acc ++ [d])
      | .err => .err
      | .ub => .ub
      | .hang => .hang
    | _ => .ub

/-- `LIBOLECF_MAXIMUM_DIRECTORY_ENTRIES_RECURSION_DEPTH`, libolecf_definitions.h. -/
def maxDirDepth : Nat := 1024

/-- The sector loop of `libolecf_io_handle_read_directory_entries`,
  libolecf_io_handle.c:1113-1364: `fuel` iterations left before the recursion depth check
  fails; `seen` is the range list of the sectors already read (libcdata_range_list, used
  as a set). -/
def dirLoop (io : IoHandle) (dev : Dev) (sat : AllocTable) :
    Nat → Nat → List Nat → Nat → List DirEntry → Out (List DirEntry)
  | fuel, id, seen, index, acc =>
    if id = EOC ∨ id = UNUSED then .of (.ok acc)
    else match fuel with
      | 0 => .of .err
      | fuel + 1 =>
        if id ∈ seen then .of (.ok acc)
        else
          let r := (sectorOffset id io.sectorSize, io.sectorSize)
          match dev.get r.1 r.2 with
          | none => ⟨[r], .err⟩
          | some sector =>
            let entries := io.sectorSize / dirEntrySize
            match dirSlotLoop io.byteOrder sector entries 0 index acc with
            | .ok acc =>
              match sat.next id with
              | .ok nextId =>
                (dirLoop io dev sat fuel nextId (id :: seen) (index + entries) acc).cons r
              | .err => ⟨[r], .err⟩
              | .ub => ⟨[r], .ub⟩
              | .hang => ⟨[r], .hang⟩
            | .err => ⟨[r], .err⟩
            | .ub => ⟨[r], .ub⟩
            | .hang => ⟨[r], .hang⟩

/-- `libolecf_io_handle_read_directory_entries`, libolecf_io_handle.c:1016-1407: the
  outcome and the list left behind.  The argument checks return without touching the list
  (lines 1038-1092); `on_error` empties it (lines 1383-1406). -/
def readDirectory (io : IoHandle) (dev : Dev) (sat : AllocTable) (list : List DirEntry)
    (root : Nat) : Out Unit × List DirEntry :=
  if io.sectorSize = 0 ∨ io.sectorSize > MAX_ALLOC ∨ io.sectorSize % dirEntrySize ≠ 0 then
    (.of .err, list)
  else if root = EOC then (.of .err, list)
  else
    let out := dirLoop io dev sat (maxDirDepth + 1) root [] 0 list
    match out.res with
    | .ok list => (⟨out.reads, .ok ()⟩, list)
    | .err => (⟨out.reads, .err⟩, [])
    | .ub => (⟨out.reads, .ub⟩, [])
    | .hang => (⟨out.reads, .hang⟩, [])

/-- `libolecf_directory_list_get_element_by_identifier`, libolecf_directory_list.c:33-129:
  the first entry of the list with the identifier (`none`: return value 0). -/
def dirLookup (list : List DirEntry) (id : Nat) : Option DirEntry :=
  match list with
  | [] => none
  | d :: rest => if d.id = id then some d else dirLookup rest id

end Olecf
