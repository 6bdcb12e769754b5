import Verif.Model.CompObj
import Verif.Spec.Bytes
import Verif.Spec.Stream

/-
  Specification of the compound object stream ("\001CompObj"), after the section "The compound
  object stream" of documentation/OLE Compound File format.asciidoc.
-/

namespace Olecf.Spec

/-- Clipboard data: the number in front of it and the bytes. -/
structure Clip where
  word : Nat
  data : Bytes

/-- What follows the reserved string: nothing, a number that is not followed by anything of
  interest, or the marker of the Unicode strings and these. -/
inductive CompTail where
  | nothing
  | mark (word : Nat)
  | unicode (userType : Bytes) (clip : Clip) (reserved : Bytes)

/-- A compound object. -/
structure CompObj where
  header : Bytes
  userType : Bytes
  clip : Clip
  reserved : Bytes
  tail : CompTail

/-- A string with its size in front. -/
def sized (e : Endian) (s : Bytes) : Bytes := enc32 e s.length ++ s

/-- Clipboard data in a stream. -/
def Clip.bytes (e : Endian) (c : Clip) : Bytes := enc32 e c.word ++ c.data

/-- What follows the reserved string, in a stream. -/
def CompTail.bytes (e : Endian) : CompTail → Bytes
  | .nothing => []
  | .mark w => enc32 e w
  | .unicode u c r => enc32 e 0x71b239f4 ++ (sized e u ++ (c.bytes e ++ sized e r))

/-- The part of a compound object up to and with the reserved string. -/
def CompObj.start (e : Endian) (c : CompObj) : Bytes :=
  c.header ++ (sized e c.userType ++ (c.clip.bytes e ++ sized e c.reserved))

/-- A compound object in a stream. -/
def CompObj.bytes (e : Endian) (c : CompObj) : Bytes := c.start e ++ c.tail.bytes e

/-- Clipboard data the library knows: a name of at most 400 bytes with its size in front, or four
  bytes behind one of two numbers.  The format has 0xfffffffe and 0xffffffff in their place. -/
def Clip.Known (c : Clip) : Prop :=
  c.word = c.data.length ∧ c.data.length ≤ 0x190 ∨
    (c.word = 0x0ffffffe ∨ c.word = 0x0fffffff) ∧ c.data.length = 4

/-- A string that the library gets memory for: at most 128 MiB. -/
def Modest (s : Bytes) : Prop := s.length ≤ 2 ^ 27

/-- A compound object that the library knows how to read, from position `pos` of a stream of
  `size` bytes: what follows the reserved string is looked at if the stream has not ended. -/
structure CompObj.Known (e : Endian) (size pos : Nat) (c : CompObj) : Prop where
  header : c.header.length = 28
  userType : 0 < c.userType.length ∧ Modest c.userType
  clip : c.clip.Known
  reserved : Modest c.reserved
  tail : match c.tail with
    | .nothing => size ≤ pos + (c.start e).length
    | .mark w => pos + (c.start e).length < size ∧ w < 2 ^ 32 ∧
        (w = 0x71b239f4 → size ≤ pos + (c.start e).length + 4)
    | .unicode u k r => pos + (c.start e).length + 4 < size ∧ Modest u ∧ k.Known ∧ Modest r

/-- A stream with the given bytes: what reads of it give. -/
structure StreamHolds (f : FileCtx) (d : DirEntry) (data : Bytes) : Prop where
  isStream : d.type = 2
  size : d.size = data.length
  reads : ∀ cur size : Nat, size ≤ 2 ^ 63 - 1 →
    (streamRead f d cur size).1.res = .ok ((data.drop cur).take size)

/-- A position from which at most 512 MiB and 1 KiB (four strings of 128 MiB, and the rest) stay
  within 32 bits and within 2^31 - 1 sectors. -/
def CompReach (f : FileCtx) (d : DirEntry) (pos : Nat) : Prop :=
  pos + 2 ^ 29 + 2 ^ 10 < 2 ^ 32 ∧ pos + 2 ^ 29 + 2 ^ 10 ≤ unitOf f d * (2 ^ 31 - 1)

end Olecf.Spec
