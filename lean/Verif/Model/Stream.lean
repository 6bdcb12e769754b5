import Verif.Model.Directory

/-
  libolecf/libolecf_io_handle.c: libolecf_io_handle_read_stream
  libolecf/libolecf_stream.c
-/

namespace Olecf

/-- The position in the chain: the `for` loop of `libolecf_io_handle_read_stream`,
  libolecf_io_handle.c:1555-1600, `k` iterations from `id`. -/
def chainPos (t : AllocTable) : Nat → Nat → Res Nat
  | 0, id => .ok id
  | k + 1, id =>
    if id = EOC then .err
    else do
      let id ← t.next id
      chainPos t k id

/-- The `while` loop that looks for the sector of the short stream container,
  libolecf_io_handle.c:1622-1657: the offset inside of the sector and the sector.  `fuel` is an
  iteration budget; `hang` when it is used up. -/
def containerLoop (sat : AllocTable) (ss : Nat) : Nat → Nat → Nat → Res (Nat × Nat)
  | fuel, off, id =>
    if off ≥ ss then
      match fuel with
      | 0 => .hang
      | fuel + 1 => do
        let id ← sat.next id
        containerLoop sat ss fuel (off - ss) id
    else .ok (off, id)

/-- `read_offset` of a sector: libolecf_io_handle.c:1618-1663.  The products and the sum do not
  leave 63 bits for the sector sizes a header can declare (C03). -/
def streamSectorOffset (io : IoHandle) (sat : AllocTable) (short : Bool) (id : Nat) : Res Nat :=
  if short then do
    let (off, c) ← containerLoop sat io.sectorSize (id * io.shortSectorSize)
      (id * io.shortSectorSize) io.shortStreamStart
    pure (off + sectorOffset c io.sectorSize)
  else .ok (sectorOffset id io.sectorSize)

/-- The `while` loop of `libolecf_io_handle_read_stream`, libolecf_io_handle.c:1601-1733: the
  bytes read and the final `safe_offset`.  `index` is `sector_identifier_index` (an `int`, whose
  increment overflows after `INT_MAX`), `off` is `safe_offset`.  A `safe_offset` or
  `read_offset` above the range of `off64_t` is the outcome `ub`.  `fuel` is an iteration budget;
  `hang` when it is used up. -/
def streamLoop (io : IoHandle) (dev : Dev) (sat table : AllocTable) (short : Bool) (ss : Nat) :
    Nat → Nat → Nat → Nat → Nat → Out (Bytes × Nat)
  | fuel, index, id, off, size =>
    if size = 0 then .of (.ok ([], off))
    else match fuel with
      | 0 => .of .hang
      | fuel + 1 =>
        if id = EOC then .of .err
        else match streamSectorOffset io sat short id with
          | .ok pos =>
            let boundary := index * ss
            let skip := if off > boundary then off - boundary else 0
            let len := (ss + 2 ^ 64 - skip) % 2 ^ 64
            let len := if len > size then size else len
            if pos + skip ≥ 2 ^ 63 ∨ off + len ≥ 2 ^ 63 then .of .ub
            else
              let r := (pos + skip, len)
              match dev.get r.1 r.2 with
              | none => ⟨[r], .err⟩
              | some d =>
                match table.next id with
                | .ok id =>
                  if index + 1 > INT_MAX then ⟨[r], .ub⟩
                  else
                    let out := streamLoop io dev sat table short ss fuel (index + 1) id (off + len)
                      (size - len)
                    match out.res with
                    | .ok (rest, off) => ⟨r :: out.reads, .ok (d ++ rest, off)⟩
                    | .err => ⟨r :: out.reads, .err⟩
                    | .ub => ⟨r :: out.reads, .ub⟩
                    | .hang => ⟨r :: out.reads, .hang⟩
                | .err => ⟨[r], .err⟩
                | .ub => ⟨[r], .ub⟩
                | .hang => ⟨[r], .hang⟩
          | .err => .of .err
          | .ub => .of .ub
          | .hang => .of .hang

/-- The part of an open file that stream reads use. -/
structure FileCtx where
  io : IoHandle
  dev : Dev
  sat : AllocTable
  ssat : AllocTable

/-- `directory_entry->size < io_handle->sector_stream_minimum_data_size`. -/
def FileCtx.short (f : FileCtx) (d : DirEntry) : Bool := d.size < f.io.minStreamSize

/-- The allocation table and sector size of a stream, libolecf_io_handle.c:1507-1538. -/
def FileCtx.table (f : FileCtx) (d : DirEntry) : AllocTable := if f.short d then f.ssat else f.sat

/-- See `FileCtx.table`. -/
def FileCtx.unit (f : FileCtx) (d : DirEntry) : Nat :=
  if f.short d then f.io.shortSectorSize else f.io.sectorSize

/-- `libolecf_io_handle_read_stream`, libolecf_io_handle.c:1413-1737: the bytes copied to the
  buffer and the new value of `*offset`, which an error leaves unchanged.  A division by a sector
  size of 0 is undefined. -/
def readStream (f : FileCtx) (d : DirEntry) (offset : Int) (size : Nat) : Out (Bytes × Nat) :=
  if offset < 0 then .of .err
  else if size > SSIZE_MAX then .of .err
  else if f.unit d = 0 then .of .ub
  else
    let index := toInt32 (offset.toNat / f.unit d)
    if index < 0 ∨ index ≥ (f.table d).n then .of .err
    else match chainPos (f.table d) index.toNat d.start with
      | .ok id =>
        streamLoop f.io f.dev f.sat (f.table d) (f.short d) (f.unit d) size index.toNat id
          offset.toNat size
      | .err => .of .err
      | .ub => .of .ub
      | .hang => .of .hang

/-- `LIBOLECF_ITEM_TYPE_STREAM`. -/
abbrev typeStream : Nat := 2

/-- `libolecf_stream_read_buffer`, libolecf_stream.c:36-158: the bytes copied to the buffer (their
  number is the return value) and the new `current_offset`. -/
def streamRead (f : FileCtx) (d : DirEntry) (cur : Int) (size : Nat) : Out Bytes × Int :=
  if d.type ≠ typeStream then (.of .err, cur)
  else if cur < 0 then (.of .err, cur)
  else if size > SSIZE_MAX then (.of .err, cur)
  else if cur ≥ d.size then (.of (.ok []), cur)
  else
    let size := if size > d.size ∨ cur.toNat > d.size - size then d.size - cur.toNat else size
    let out := readStream f d cur size
    match out.res with
    | .ok (data, off) =>
      if data.length ≠ size then (⟨out.reads, .err⟩, off) else (⟨out.reads, .ok data⟩, off)
    | .err => (⟨out.reads, .err⟩, cur)
    | .ub => (⟨out.reads, .ub⟩, cur)
    | .hang => (⟨out.reads, .hang⟩, cur)

/-- The `whence` argument: `SEEK_SET`, `SEEK_CUR`, `SEEK_END` or anything else. -/
inductive Whence where
  | set
  | cur
  | fromEnd
  | other
  deriving Repr, DecidableEq

/-- The range of `off64_t`. -/
abbrev inOff64 (x : Int) : Prop := -(2 ^ 63) ≤ x ∧ x < 2 ^ 63

/-- `libolecf_stream_seek_offset`, libolecf_stream.c:211-302: the return value and the new
  `current_offset`.  The additions are signed: an overflow is undefined. -/
def streamSeek (d : DirEntry) (cur : Int) (offset : Int) (whence : Whence) : Res Int × Int :=
  if d.type ≠ typeStream then (.err, cur)
  else if cur < 0 then (.err, cur)
  else if whence = .other then (.err, cur)
  else
    let sum := match whence with
      | .cur => offset + cur
      | .fromEnd => offset + d.size
      | _ => offset
    if ¬ inOff64 sum then (.ub, cur)
    else if sum < 0 then (.err, cur)
    else (.ok sum, sum)

/-- `libolecf_stream_get_offset`, libolecf_stream.c:307-365. -/
def streamGetOffset (d : DirEntry) (cur : Int) : Res Int :=
  if d.type ≠ typeStream then .err else .ok cur

/-- `libolecf_stream_read_buffer_at_offset`, libolecf_stream.c:163-206. -/
def streamReadAt (f : FileCtx) (d : DirEntry) (cur : Int) (size : Nat) (offset : Int) :
    Out Bytes × Int :=
  match streamSeek d cur offset .set with
  | (.ok _, cur) => streamRead f d cur size
  | (.err, cur) => (.of .err, cur)
  | (.ub, cur) => (.of .ub, cur)
  | (.hang, cur) => (.of .hang, cur)

end Olecf
