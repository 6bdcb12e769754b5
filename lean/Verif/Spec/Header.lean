import Verif.Spec.Bytes

/-
  Specification of the file header: documentation/"OLE Compound File format", file
  header table; written as a serialiser and an acceptance predicate, independent of the
  parser.
-/

namespace Olecf.Spec

/-- The two signatures. -/
def signature : Bytes := [0xd0, 0xcf, 0x11, 0xe0, 0xa1, 0xb1, 0x1a, 0xe1]
def signatureBeta : Bytes := [0x0e, 0x11, 0xfc, 0x0d, 0xd0, 0xcf, 0x11, 0x0e]

/-- The byte order mark of a header. -/
def byteOrderMark : Endian → Bytes
  | .little => [0xfe, 0xff]
  | .big => [0xff, 0xfe]

/-- A 512-byte header is acceptable: signature, byte order mark `e`, both exponents at
  most 15 when read in that byte order. -/
def AcceptableHeader (d : Bytes) : Prop :=
  512 ≤ d.length ∧
  (signature <+: d ∨ signatureBeta <+: d) ∧
  ∃ e : Endian, byteOrderMark e <+: d.drop 28 ∧ u16At e d 30 ≤ 15 ∧ u16At e d 32 ≤ 15

/-- Logical content of a header. -/
structure HeaderFields where
  beta : Bool
  classId : Bytes
  minor : Nat
  major : Nat
  sectorExp : Nat
  shortExp : Nat
  reserved : Bytes
  satSectors : Nat
  rootDirSector : Nat
  transaction : Bytes
  minStreamSize : Nat
  ssatSector : Nat
  ssatSectors : Nat
  msatSector : Nat
  msatSectors : Nat
  msat : List Nat

/-- The field values are representable. -/
structure HeaderFields.Fits (h : HeaderFields) : Prop where
  classId : h.classId.length = 16
  minor : h.minor < 2 ^ 16
  major : h.major < 2 ^ 16
  sectorExp : h.sectorExp ≤ 15
  shortExp : h.shortExp ≤ 15
  reserved : h.reserved.length = 10
  satSectors : h.satSectors < 2 ^ 32
  rootDirSector : h.rootDirSector < 2 ^ 32
  transaction : h.transaction.length = 4
  minStreamSize : h.minStreamSize < 2 ^ 32
  ssatSector : h.ssatSector < 2 ^ 32
  ssatSectors : h.ssatSectors < 2 ^ 32
  msatSector : h.msatSector < 2 ^ 32
  msatSectors : h.msatSectors < 2 ^ 32
  msatLength : h.msat.length = 109
  msat : ∀ v ∈ h.msat, v < 2 ^ 32

/-- The fields of a header in the order in which they are stored. -/
def headerPieces (e : Endian) (h : HeaderFields) : List Bytes :=
  [ if h.beta then signatureBeta else signature,
    h.classId,
    enc16 e h.minor, enc16 e h.major, byteOrderMark e,
    enc16 e h.sectorExp, enc16 e h.shortExp, h.reserved,
    enc32 e h.satSectors, enc32 e h.rootDirSector, h.transaction,
    enc32 e h.minStreamSize, enc32 e h.ssatSector, enc32 e h.ssatSectors,
    enc32 e h.msatSector, enc32 e h.msatSectors, enc32s e h.msat ]

/-- Serialisation of a header in byte order `e`. -/
def encodeHeader (e : Endian) (h : HeaderFields) : Bytes := (headerPieces e h).flatten

end Olecf.Spec
