import Verif.Spec.PropSet

/-
  Specification of a writer of property sets: the bytes of a stream that holds a given property set
  ([MS-OLEPS]), written without reference to the reader.  The writer lays the sections out one after
  the other, in each the list of properties and then the values, each value padded to a multiple of
  four bytes.
-/

namespace Olecf.Spec

/-- Zero bytes up to a multiple of four. -/
def pad4 (n : Nat) : Bytes := List.replicate ((4 - n % 4) % 4) 0

/-- What follows the type of a value: the data, preceded by its size (in units of two bytes for
  16-bit strings) unless the type determines the size. -/
def valueBody (e : Endian) (p : Property) : Bytes :=
  match p.data with
  | some b =>
    if p.type ∈ fixedTypes.map (·.1) then b
    else if p.type = 0x1f then enc32 e (b.length / 2) ++ b
    else enc32 e b.length ++ b
  | none =>
    if p.type = 0x1e ∨ p.type = 0x1f ∨ p.type ∈ sizedTypes ∨ p.type ∈ multiTypes then enc32 e 0
    else []

/-- A value: type, body, padding. -/
def encodeValue (e : Endian) (p : Property) : Bytes :=
  enc32 e p.type ++ valueBody e p ++ pad4 (valueBody e p).length

/-- The number of bytes of the first `i` pieces. -/
def sizeBefore (ls : List Bytes) (i : Nat) : Nat := ((ls.take i).map List.length).sum

/-- A section: size, number of properties, list of identifiers and offsets, values. -/
def encodeSection (e : Endian) (s : Section) : Bytes :=
  let values := s.properties.map (encodeValue e)
  let n := s.properties.length
  enc32 e (8 + 8 * n + values.flatten.length) ++ enc32 e n ++
    (s.properties.mapIdx fun j p => enc32 e p.id ++ enc32 e (8 + 8 * n + sizeBefore values j)).flatten ++
    values.flatten

/-- A property set: byte order mark, version, system, class identifier, number of sections, list of
  class identifiers and positions, sections. -/
def encodeSet (e : Endian) (s : SetValue) : Bytes :=
  let sections := s.sections.map (encodeSection e)
  let n := s.sections.length
  setMark e ++ List.replicate 6 0 ++ s.classId ++ enc32 e n ++
    (s.sections.mapIdx fun i sec => sec.classId ++ enc32 e (28 + 20 * n + sizeBefore sections i)).flatten ++
    sections.flatten

/-- A property that can be written: the data is of the size its type demands; a string ends at its
  first terminator if it has one; vectors and types without a known form have no data. -/
inductive WritableProperty (p : Property) : Prop
  | fixed {n b} : (p.type, n) ∈ fixedTypes → p.data = some b → b.length = n → WritableProperty p
  | ascii {b} : p.type = 0x1e → p.data = some b → 0 < b.length → b.length ≤ maxValueSize →
      upToNul b = b → WritableProperty p
  | unicode {b} : p.type = 0x1f → p.data = some b → 0 < b.length → b.length % 2 = 0 →
      b.length ≤ maxValueSize → upToNulUnit b = b → WritableProperty p
  | sized {b} : p.type ∈ sizedTypes → p.data = some b → 0 < b.length → b.length ≤ maxValueSize →
      WritableProperty p
  | none : p.type ∉ fixedTypes.map (·.1) → p.data = none → WritableProperty p

/-- A property set that can be written: class identifiers of 16 bytes, identifiers and types of 32
  bits, writable properties, less than 2^31 bytes altogether. -/
structure WritableSet (e : Endian) (s : SetValue) : Prop where
  classId : s.classId.length = 16
  sections : ∀ sec ∈ s.sections, sec.classId.length = 16
  properties : ∀ sec ∈ s.sections, ∀ p ∈ sec.properties,
    p.id < 2 ^ 32 ∧ p.type < 2 ^ 32 ∧ WritableProperty p
  size : (encodeSet e s).length < 2 ^ 31

end Olecf.Spec
