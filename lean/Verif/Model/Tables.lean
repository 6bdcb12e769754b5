import Verif.Model.AllocTable

/-
  The allocation table readers of libolecf/libolecf_io_handle.c:197-1010.
-/

namespace Olecf

/-- `LIBOLECF_MAXIMUM_ALLOCATION_TABLE_RECURSION_DEPTH`. -/
def maxTableDepth : Nat := 256

/-- The number of iterations a loop guarded by
  `if( recursion_depth > MAXIMUM ) goto on_error; recursion_depth++` can start:
  recursion depths 0 up to and including the maximum. -/
def tableFuel : Nat := maxTableDepth + 1

/-- The entry loop with a bounds check, libolecf_io_handle.c:408-452 (MSAT) and
  914-958 (SSAT): `k` entries left, the next entry at `pos` of the sector goes to
  `index` of the table.  The first component is the table as left behind. -/
def fillChecked (e : Endian) (sector : Bytes) :
    Nat → Nat → Nat → AllocTable → AllocTable × Res Unit
  | 0, _, _, t => (t, .ok ())
  | k + 1, pos, index, t =>
    if index ≥ t.n then (t, .err)
    else match rd32 e sector pos with
      | .ok v => match t.store index v with
        | .ok t' => fillChecked e sector k (pos + 4) (index + 1) t'
        | _ => (t, .ub)
      | _ => (t, .ub)

/-- The entry loop without a bounds check, libolecf_io_handle.c:669-700 (SAT). -/
def fillUnchecked (e : Endian) (sector : Bytes) :
    Nat → Nat → Nat → AllocTable → Res AllocTable
  | 0, _, _, t => .ok t
  | k + 1, pos, index, t => do
    let v ← rd32 e sector pos
    let t ← t.store index v
    fillUnchecked e sector k (pos + 4) (index + 1) t

/-- The sector loop of `libolecf_io_handle_read_msat`, libolecf_io_handle.c:345-476;
  `entries` identifiers per sector, `fuel` iterations left before the recursion depth
  check fails, `id` the current sector, `index` the next entry of the table. -/
def msatLoop (io : IoHandle) (dev : Dev) (entries : Nat) :
    Nat → Nat → Nat → AllocTable → Out AllocTable
  | fuel, id, index, t =>
    if id = EOC then .of (.ok t)
    else match fuel with
      | 0 => .of .err
      | fuel + 1 =>
        if index ≥ t.n then .of (.ok t)
        else
          let r := (sectorOffset id io.sectorSize, io.sectorSize)
          match dev.get r.1 r.2 with
          | none => ⟨[r], .err⟩
          | some sector =>
            match fillChecked io.byteOrder sector entries 0 index t with
            | (t', .ok ()) =>
              match rd32 io.byteOrder sector (4 * entries) with
              | .ok nextId => (msatLoop io dev entries fuel nextId (index + entries) t').cons r
              | _ => ⟨[r], .ub⟩
            | (_, .err) => ⟨[r], .err⟩
            | (_, _) => ⟨[r], .ub⟩

/-- `libolecf_io_handle_read_msat`, libolecf_io_handle.c:201-490. -/
def readMsat (io : IoHandle) (dev : Dev) (msat : AllocTable) (id count : Nat) :
    Out AllocTable :=
  if io.sectorSize = 0 ∨ io.sectorSize > MAX_ALLOC then .of .err
  else if msat.n < 109 then .of .err
  else if id = EOC ∧ count = 0 then .of (.ok msat)
  else if id = EOC then .of .err
  else
    let count := if count = 0 then 1 else count
    let entries := io.sectorSize / 4
    if entries = 0 then .of .err
    else
      let entries := entries - 1
      let total := toInt32 (109 + count * entries)
      match (if (msat.n : Int) < total then msat.resize total else .ok msat) with
      | .ok msat => msatLoop io dev entries tableFuel id 109 msat
      | _ => .of .err

/-- The sector loop of `libolecf_io_handle_read_sat`, libolecf_io_handle.c:594-708,
  over the remaining MSAT entries.  The `on_error` path (failed read) returns 1
  (line 720), leaving the table as it is. -/
def satLoop (io : IoHandle) (dev : Dev) (entries : Nat) :
    List Nat → Nat → AllocTable → Out AllocTable
  | [], _, t => .of (.ok t)
  | id :: rest, index, t =>
    if id = UNUSED then satLoop io dev entries rest index t
    else if index ≥ t.n then .of (.ok t)
    else
      let r := (sectorOffset id io.sectorSize, io.sectorSize)
      match dev.get r.1 r.2 with
      | none => ⟨[r], .ok t⟩
      | some sector =>
        match fillUnchecked io.byteOrder sector entries 0 index t with
        | .ok t' => (satLoop io dev entries rest (index + entries) t').cons r
        | _ => ⟨[r], .ub⟩

/-- `libolecf_io_handle_read_sat`, libolecf_io_handle.c:496-721.  A failed resize
  takes the `on_error` path, which returns 1. -/
def readSat (io : IoHandle) (dev : Dev) (msat sat : AllocTable) (count : Nat) :
    Out AllocTable :=
  if io.sectorSize = 0 ∨ io.sectorSize > MAX_ALLOC then .of .err
  else
    let entries := io.sectorSize / 4
    let total := toInt32 (count * entries)
    match (if (sat.n : Int) < total then sat.resize total else .ok sat) with
    | .ok sat => satLoop io dev entries msat.ids 0 sat
    | _ => .of (.ok sat)

/-- The sector loop of `libolecf_io_handle_read_ssat`, libolecf_io_handle.c:827-997.
  `sectorIndex` is the `ssat_sector_index`, `index` the `ssat_index`.  The `on_error`
  path returns 1 (line 1009), leaving the table as it is. -/
def ssatLoop (io : IoHandle) (dev : Dev) (sat : AllocTable) (entries count : Nat) :
    Nat → Nat → Nat → Nat → AllocTable → Out AllocTable
  | fuel, id, sectorIndex, index, t =>
    if id = EOC then .of (.ok t)
    else match fuel with
      | 0 => .of (.ok t)
      | fuel + 1 =>
        if sectorIndex ≥ count then .of (.ok t)
        else if id = UNUSED then
          ssatLoop io dev sat entries count fuel id (sectorIndex + 1) index t
        else
          let r := (sectorOffset id io.sectorSize, io.sectorSize)
          match dev.get r.1 r.2 with
          | none => ⟨[r], .ok t⟩
          | some sector =>
            match fillChecked io.byteOrder sector entries 0 index t with
            | (t', .ok ()) =>
              match sat.next id with
              | .ok nextId =>
                (ssatLoop io dev sat entries count fuel nextId (sectorIndex + 1)
                  (index + entries) t').cons r
              | .err => ⟨[r], .ok t'⟩
              | _ => ⟨[r], .ub⟩
            | (t', .err) => ⟨[r], .ok t'⟩
            | (_, _) => ⟨[r], .ub⟩

/-- `libolecf_io_handle_read_ssat`, libolecf_io_handle.c:727-1010. -/
def readSsat (io : IoHandle) (dev : Dev) (sat ssat : AllocTable) (id count : Nat) :
    Out AllocTable :=
  if io.sectorSize = 0 ∨ io.sectorSize > MAX_ALLOC then .of .err
  else
    let entries := io.sectorSize / 4
    let total := toInt32 (count * entries)
    match (if (ssat.n : Int) < total then ssat.resize total else .ok ssat) with
    | .ok ssat => ssatLoop io dev sat entries count tableFuel id 0 0 ssat
    | _ => .of (.ok ssat)

end Olecf
