import Verif.Model.PropSet
import Verif.Spec.Bytes
import Verif.Spec.Stream

/-
  Specification of serialised property sets: what a stream has to contain at which positions for
  it to hold a property set ([MS-OLEPS]).
-/

namespace Olecf.Spec

/-- Content of a stream: the `n` bytes at a position, if they are there and can be read. -/
abbrev Content := Nat → Nat → Option Bytes

/-- The content of a stream of an open file: what a read of `n` bytes at `pos` gives, if it gives
  all of them. -/
def streamContent (f : FileCtx) (d : DirEntry) : Content := fun pos n =>
  match (streamRead f d pos n).1.res with
  | .ok b => if b.length = n then some b else none
  | _ => none

/-- The content of a stream with the given bytes. -/
def bytesContent (data : Bytes) : Content := fun pos n =>
  if pos + n ≤ data.length then some ((data.drop pos).take n) else none

/-- The 32-bit value at a position. -/
def Content.word (c : Content) (e : Endian) (pos : Nat) : Option Nat :=
  (c pos 4).map (fun b => u32At e b 0)

/-- The types with data of a fixed size, and the size. -/
def fixedTypes : List (Nat × Nat) :=
  [ (0x0002, 2),  -- 16-bit signed
    (0x0003, 4),  -- 32-bit signed
    (0x0004, 4),  -- 32-bit floating point
    (0x0005, 8),  -- 64-bit floating point
    (0x0006, 8),  -- currency
    (0x0007, 8),  -- application time
    (0x000a, 4),  -- error
    (0x000b, 1),  -- boolean
    (0x000e, 16), -- 128-bit fixed point
    (0x0010, 1),  -- 8-bit signed
    (0x0011, 1),  -- 8-bit unsigned
    (0x0012, 2),  -- 16-bit unsigned
    (0x0013, 4),  -- 32-bit unsigned
    (0x0014, 8),  -- 64-bit signed
    (0x0015, 8),  -- 64-bit unsigned
    (0x0016, 4),  -- signed
    (0x0017, 4),  -- unsigned
    (0x0040, 8),  -- FILETIME
    (0x0048, 16)  -- GUID
  ]

/-- The types, other than strings, whose data is preceded by its size in bytes. -/
def sizedTypes : List Nat :=
  [0x0000, 0x0001, 0x0008, 0x0009, 0x000c, 0x000d, 0x0018, 0x0019, 0x001a, 0x001b, 0x001c, 0x001d,
   0x0041, 0x0042, 0x0043, 0x0044, 0x0045, 0x0046, 0x0047, 0x0049, 0x100c]

/-- The multi-values the library looks at: vectors of strings. -/
def multiTypes : List Nat := [0x101e, 0x101f]

/-- The largest size of the data of a value: 128 MiB. -/
def maxValueSize : Nat := 128 * 1024 * 1024

/-- A string of bytes up to and including its terminator. -/
def upToNul : Bytes → Bytes
  | [] => []
  | a :: r => if a = 0 then [0] else a :: upToNul r

/-- A string of 16-bit units up to and including its terminator. -/
def upToNulUnit : Bytes → Bytes
  | a :: b :: r => if a = 0 ∧ b = 0 then [0, 0] else a :: b :: upToNulUnit r
  | r => r

/-- `n` values, each a size and as many bytes, from a position on. -/
inductive ValuesAt (c : Content) (e : Endian) : Nat → Nat → Prop
  | nil {pos} : ValuesAt c e pos 0
  | cons {pos n size b} : c.word e pos = some size → 0 < size → size ≤ maxValueSize →
      c (pos + 4) size = some b → ValuesAt c e (pos + 4 + size) n → ValuesAt c e pos (n + 1)

/-- The value at a position: its type and the data a user gets (`none`: no data). -/
inductive ValueAt (c : Content) (e : Endian) (pos : Nat) : Nat → Option Bytes → Prop
  | fixed {t n b} : c.word e pos = some t → (t, n) ∈ fixedTypes → c (pos + 4) n = some b →
      ValueAt c e pos t (some b)
  | absent {t} : c.word e pos = some t → (t = 0x1e ∨ t = 0x1f ∨ t ∈ sizedTypes) →
      c.word e (pos + 4) = some 0 → ValueAt c e pos t none
  | ascii {k b} : c.word e pos = some 0x1e → c.word e (pos + 4) = some k → 0 < k →
      k ≤ maxValueSize → c (pos + 8) k = some b → ValueAt c e pos 0x1e (some (upToNul b))
  | unicode {k b} : c.word e pos = some 0x1f → c.word e (pos + 4) = some k → 0 < k →
      2 * k ≤ maxValueSize → c (pos + 8) (2 * k) = some b →
      ValueAt c e pos 0x1f (some (upToNulUnit b))
  | sized {t k b} : c.word e pos = some t → t ∈ sizedTypes → c.word e (pos + 4) = some k →
      0 < k → k ≤ maxValueSize → c (pos + 8) k = some b → ValueAt c e pos t (some b)
  | multi {t n} : c.word e pos = some t → t ∈ multiTypes → c.word e (pos + 4) = some n →
      ValuesAt c e (pos + 8) n → ValueAt c e pos t none
  | other {t} : c.word e pos = some t → t ∉ fixedTypes.map (·.1) → t ≠ 0x1e → t ≠ 0x1f →
      t ∉ sizedTypes → t ∉ multiTypes → ValueAt c e pos t none

/-- A property: identifier, type and data. -/
structure Property where
  id : Nat
  type : Nat
  data : Option Bytes
  deriving Repr, DecidableEq

/-- A section: class identifier and properties. -/
structure Section where
  classId : Bytes
  properties : List Property
  deriving Repr, DecidableEq

/-- A property set. -/
structure SetValue where
  classId : Bytes
  sections : List Section
  deriving Repr, DecidableEq

/-- The property listed at `pos` in a section at `sec`: identifier, offset in the section of the
  value. -/
def PropertyAt (c : Content) (e : Endian) (sec pos : Nat) (p : Property) : Prop :=
  ∃ b, c pos 8 = some b ∧ u32At e b 0 = p.id ∧ 8 < u32At e b 4 ∧
    ValueAt c e (sec + u32At e b 4) p.type p.data

/-- The properties of the section at `sec`: size, number of properties, list. -/
def PropertiesAt (c : Content) (e : Endian) (sec : Nat) (ps : List Property) : Prop :=
  ∃ b, c sec 8 = some b ∧ u32At e b 4 = ps.length ∧
    ∀ j p, ps[j]? = some p → PropertyAt c e sec (sec + 8 + 8 * j) p

/-- The section listed at `pos`: class identifier, position. -/
def SectionAt (c : Content) (e : Endian) (pos : Nat) (s : Section) : Prop :=
  ∃ b, c pos 20 = some b ∧ b.take 16 = s.classId ∧ PropertiesAt c e (u32At e b 16) s.properties

/-- The byte order mark. -/
def setMark : Endian → Bytes
  | .little => [0xfe, 0xff]
  | .big => [0xff, 0xfe]

/-- The content of a stream that holds a property set: byte order mark, class identifier, number
  of sections, list of sections. -/
def HoldsSet (c : Content) (e : Endian) (s : SetValue) : Prop :=
  ∃ b, c 0 28 = some b ∧ b.take 2 = setMark e ∧ (b.drop 8).take 16 = s.classId ∧
    u32At e b 24 = s.sections.length ∧
    ∀ i sec, s.sections[i]? = some sec → SectionAt c e (28 + 20 * i) sec

/-! What a user of the library sees of a property set that was read. -/

/-- A property through `get_identifier`, `get_value_type` and `get_data`. -/
def seenProperty (p : PropValue) : Property :=
  { id := p.identifier
    type := p.type
    data := match p.data with
      | .ok b => some b
      | _ => none }

/-- A section through its class identifier and its properties. -/
def seenSection (s : PropSection) : Section :=
  { classId := s.classId, properties := s.properties.map seenProperty }

/-- A property set through its class identifier and its sections. -/
def seenSet (s : PropSet) : SetValue :=
  { classId := s.classId, sections := s.sections.map seenSection }

end Olecf.Spec
