import Verif.Model.AllocTable

/-
  libolecf/libolecf_file_header.c
-/

namespace Olecf

/-- `olecf_file_signature`, libolecf/libolecf_definitions / olecf_file_header.h. -/
def fileSignature : Bytes := [0xd0, 0xcf, 0x11, 0xe0, 0xa1, 0xb1, 0x1a, 0xe1]

/-- `olecf_beta_file_signature`. -/
def betaFileSignature : Bytes := [0x0e, 0x11, 0xfc, 0x0d, 0xd0, 0xcf, 0x11, 0x0e]

/-- `libolecf_file_header_t`, libolecf_file_header.h. -/
structure FileHeader where
  minorVersion : Nat
  majorVersion : Nat
  byteOrder : Endian
  sectorSize : Nat
  shortSectorSize : Nat
  satSectors : Nat
  rootDirSector : Nat
  minStreamSize : Nat
  ssatSector : Nat
  ssatSectors : Nat
  msatSector : Nat
  msatSectors : Nat
  deriving Repr, DecidableEq

/-- The loop copying the MSAT entries of the header into the table,
  libolecf_file_header.c:523-552; `k` entries are left, the next one is `index`, its
  bytes start at `pos`. -/
def headerMsatLoop (e : Endian) (data : Bytes) : Nat → Nat → Nat → AllocTable → Res AllocTable
  | 0, _, _, t => .ok t
  | k + 1, pos, index, t => do
    let v ← rd32 e data pos
    let t ← t.store index v
    headerMsatLoop e data k (pos + 4) (index + 1) t

/-- The byte order of the header, libolecf_file_header.c:243-265; the `byte_order`
  field is at offset 28 of `olecf_file_header_t` (olecf_file_header.h). -/
def headerByteOrder (data : Bytes) : Res Endian := do
  let b0 ← rdByte data 28
  let b1 ← rdByte data 29
  if b0 = 0xfe ∧ b1 = 0xff then .ok .little
  else if b0 = 0xff ∧ b1 = 0xfe then .ok .big
  else .err

/-- `libolecf_file_header_read_data`, libolecf_file_header.c:144-561.  Field offsets
  from `olecf_file_header_t` (olecf_file_header.h).  Debug output left out. -/
def headerReadData (data : Bytes) (msat : AllocTable) : Res (FileHeader × AllocTable) :=
  if data.length < 512 then .err
  else if data.length > SSIZE_MAX then .err
  else if data.take 8 ≠ fileSignature ∧ data.take 8 ≠ betaFileSignature then .err
  else do
    let e ← headerByteOrder data
    let minor ← rd16 e data 24
    let major ← rd16 e data 26
    let shift ← rd16 e data 30
    let shortShift ← rd16 e data 32
    let satSectors ← rd32 e data 44
    let rootDir ← rd32 e data 48
    let minSize ← rd32 e data 56
    let ssatSector ← rd32 e data 60
    let ssatSectors ← rd32 e data 64
    let msatSector ← rd32 e data 68
    let msatSectors ← rd32 e data 72
    if shift > 15 then .err
    else if shortShift > 15 then .err
    else
      let msat ← (if msat.n < 109 then msat.resize 109 else .ok msat : Res AllocTable)
      let msat ← headerMsatLoop e data 109 76 0 msat
      .ok ({ minorVersion := minor
             majorVersion := major
             byteOrder := e
             sectorSize := 2 ^ shift
             shortSectorSize := 2 ^ shortShift
             satSectors := satSectors
             rootDirSector := rootDir
             minStreamSize := minSize
             ssatSector := ssatSector
             ssatSectors := ssatSectors
             msatSector := msatSector
             msatSectors := msatSectors }, msat)

/-- `libolecf_file_header_read_file_io_handle`, libolecf_file_header.c:566-631. -/
def headerRead (dev : Dev) (msat : AllocTable) : Out (FileHeader × AllocTable) :=
  match dev.get 0 512 with
  | none => ⟨[(0, 512)], .err⟩
  | some data => ⟨[(0, 512)], headerReadData data msat⟩

end Olecf
