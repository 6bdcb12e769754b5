import Verif.Spec.Tables
import Verif.Model.Directory

/-
  Specification of the directory: the layout of a 128-byte slot, the slots of the directory
  data, the walk along the directory chain.
-/

namespace Olecf.Spec

/-- The values of a slot, by position of the fields. -/
def entryOf (e : Endian) (index : Nat) (s : Bytes) : DirEntry where
  id := index
  type := byteAt s 66
  name := s.take (u16At e s 64)
  prev := u32At e s 68
  next := u32At e s 72
  sub := u32At e s 76
  created := u64At e s 100
  modified := u64At e s 108
  start := u32At e s 116
  size := u32At e s 120

/-- A slot is acceptable: empty, or with a name that fits in the slot. -/
def SlotOk (e : Endian) (s : Bytes) : Prop := byteAt s 66 = 0 ∨ u16At e s 64 ≤ 128

instance (e s) : Decidable (SlotOk e s) := inferInstanceAs (Decidable (_ ∨ _))

/-- The slot at position `i` of the directory data. -/
def slot (d : Bytes) (i : Nat) : Bytes := (d.drop (128 * i)).take 128

/-- The number of whole slots. -/
def slotCount (d : Bytes) : Nat := d.length / 128

/-- The entries of the directory data: one for each slot that is not empty, numbered by
  position. -/
def entriesOf (e : Endian) (d : Bytes) : List DirEntry :=
  (List.range (slotCount d)).filterMap fun i =>
    if byteAt (slot d i) 66 = 0 then none else some (entryOf e i (slot d i))

/-- All the slots are acceptable. -/
def SlotsOk (e : Endian) (d : Bytes) : Prop := ∀ i < slotCount d, SlotOk e (slot d i)

instance (e d) : Decidable (SlotsOk e d) :=
  inferInstanceAs (Decidable (∀ i < slotCount d, SlotOk e (slot d i)))

/-- The walk along the directory chain: from `a`, with the sectors `seen` already passed,
  it passes the sectors `ids` and stops at a marker (`repeated = false`) or at a sector
  passed before (`repeated = true`). -/
inductive DirWalk (sat : List Nat) : List Nat → Nat → List Nat → Bool → Prop
  | marker {seen : List Nat} {a : Nat} : a = 0xfffffffe ∨ a = 0xffffffff →
      DirWalk sat seen a [] false
  | again {seen : List Nat} {a : Nat} : a ≠ 0xfffffffe → a ≠ 0xffffffff → a ∈ seen →
      DirWalk sat seen a [] true
  | step {seen ids : List Nat} {a nxt : Nat} {r : Bool} :
      a ≠ 0xfffffffe → a ≠ 0xffffffff → a ∉ seen → sat[a]? = some nxt →
      DirWalk sat (a :: seen) nxt ids r → DirWalk sat seen a (a :: ids) r

/-- The values to put in a slot. -/
structure SlotFields where
  name : Bytes
  nameSize : Nat
  type : Nat
  color : Nat
  prev : Nat
  next : Nat
  sub : Nat
  classId : Bytes
  flags : Nat
  created : Nat
  modified : Nat
  start : Nat
  size : Nat
  reserved : Nat

/-- The values fit their fields. -/
structure SlotFields.Fits (f : SlotFields) : Prop where
  name : f.name.length = 64
  nameSize : f.nameSize ≤ 64
  type : f.type < 2 ^ 8
  color : f.color < 2 ^ 8
  prev : f.prev < 2 ^ 32
  next : f.next < 2 ^ 32
  sub : f.sub < 2 ^ 32
  classId : f.classId.length = 16
  flags : f.flags < 2 ^ 32
  created : f.created < 2 ^ 64
  modified : f.modified < 2 ^ 64
  start : f.start < 2 ^ 32
  size : f.size < 2 ^ 32
  reserved : f.reserved < 2 ^ 32

/-- The fields of a slot in order: 64 bytes name, 2 bytes name size, 1 byte type, 1 byte
  color, three 4 byte links, 16 bytes class identifier, 4 bytes flags, two 8 byte times,
  4 bytes start sector, 4 bytes size, 4 bytes reserved. -/
def slotPieces (e : Endian) (f : SlotFields) : List Bytes :=
  [f.name, enc16 e f.nameSize, [UInt8.ofNat f.type], [UInt8.ofNat f.color], enc32 e f.prev,
   enc32 e f.next, enc32 e f.sub, f.classId, enc32 e f.flags, enc64 e f.created,
   enc64 e f.modified, enc32 e f.start, enc32 e f.size, enc32 e f.reserved]

def encodeSlot (e : Endian) (f : SlotFields) : Bytes := (slotPieces e f).flatten

end Olecf.Spec
