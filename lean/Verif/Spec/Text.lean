import Verif.Spec.Mount
import Verif.Spec.Layout
import Verif.Model.ItemName

/-
  Specification of names and paths as strings of Unicode characters.
-/

namespace Olecf.Spec

/-- The UTF-8 encoding of a character. -/
def encode8 (c : Nat) : Bytes := String.utf8EncodeChar (Char.ofNat c)

/-- The UTF-16 encoding of a character: one code unit, or two surrogates. -/
def encode16 (c : Nat) : List UInt16 :=
  if c < 0x10000 then [UInt16.ofNat c]
  else [UInt16.ofNat (0xd800 + (c - 0x10000) / 0x400), UInt16.ofNat (0xdc00 + (c - 0x10000) % 0x400)]

/-- The bytes of a UTF-16 code unit. -/
def unitBytes (e : Endian) (u : UInt16) : Bytes :=
  match e with
  | .little => [UInt8.ofNat (u.toNat % 256), UInt8.ofNat (u.toNat / 256)]
  | .big => [UInt8.ofNat (u.toNat / 256), UInt8.ofNat (u.toNat % 256)]

/-- A name as a file stores it: UTF-16 in the byte order of the file, with an end of string
  character. -/
def storedName (e : Endian) (cs : List Nat) : Bytes :=
  (cs.flatMap encode16).flatMap (unitBytes e) ++ [0, 0]

/-- A name that is a string of characters: not empty, without the end of string character, and not
  starting with what a decoder takes for a byte order mark. -/
structure NameText (cs : List Nat) : Prop where
  chars : NameChars cs
  noMark : cs.head? ≠ some 0xfeff ∧ cs.head? ≠ some 0xfffe

instance (cs) : Decidable (NameText cs) :=
  decidable_of_iff (NameChars cs ∧ cs.head? ≠ some 0xfeff ∧ cs.head? ≠ some 0xfffe)
    ⟨fun ⟨a, b⟩ => ⟨a, b⟩, fun ⟨a, b⟩ => ⟨a, b⟩⟩

/-- A path in an encoding: the names, each after a separator. -/
def pathText (enc : Nat → List α) (names : List (List Nat)) : List α :=
  names.flatMap fun cs => enc 0x5c ++ cs.flatMap enc

/-- What is assumed of the decoding of characters: it undoes the encoding. -/
structure IsEncoding (dec : Decoder α) (enc : Nat → List α) : Prop where
  sep : enc 0x5c = [dec.sep]
  nonempty : ∀ c, Scalar c → enc c ≠ []
  step : ∀ c rest, Scalar c → dec.step (enc c ++ rest) = some (c, (enc c).length)

/-- What is assumed of libuna, on names that are strings of characters: comparison is equality of the
  strings (with or without the end of string character in the string that is given), the size is the
  one of the encoding with the end of string character, and a copy is the encoding with the end of
  string character when there is room for it, and fails otherwise. -/
structure IsLibuna (u : Libuna) : Prop where
  dec8 : IsEncoding u.dec8 encode8
  dec16 : IsEncoding u.dec16 encode16
  cmp8 : ∀ e a b, NameText a → NameText b →
    u.cmp8 e (a.flatMap encode8) (storedName e b) = some (decide (a = b)) ∧
    u.cmp8 e (a.flatMap encode8 ++ [0]) (storedName e b) = some (decide (a = b))
  cmp16 : ∀ e a b, NameText a → NameText b →
    u.cmp16 e (a.flatMap encode16) (storedName e b) = some (decide (a = b))
  size8 : ∀ e a, NameText a →
    u.size8 e (storedName e a) = some ((a.flatMap encode8).length + 1)
  size16 : ∀ e a, NameText a →
    u.size16 e (storedName e a) = some ((a.flatMap encode16).length + 1)
  copy8 : ∀ e a size, NameText a →
    ((a.flatMap encode8).length + 1 ≤ size → size ≤ 2 ^ 63 - 1 →
      u.copy8 e (storedName e a) size = some (a.flatMap encode8 ++ [0])) ∧
    (size < (a.flatMap encode8).length + 1 → u.copy8 e (storedName e a) size = none)
  copy16 : ∀ e a size, NameText a →
    ((a.flatMap encode16).length + 1 ≤ size → size ≤ 2 ^ 63 - 1 →
      u.copy16 e (storedName e a) size = some (a.flatMap encode16 ++ [0])) ∧
    (size < (a.flatMap encode16).length + 1 → u.copy16 e (storedName e a) size = none)

/-- The names of a document are strings of characters, and the parts of a storage have different
  names. -/
structure TextNames (e : Endian) (doc : Doc) : Prop where
  text : ∀ path n d, DocAt doc (path ++ [n]) d → ∃ cs, NameText cs ∧ n = storedName e cs
  distinct : ∀ path kids, DocAt doc path (.storage kids) → (kids.map (·.1)).Nodup

/-- The item has the name: in UTF-8 and in UTF-16, the size is that of the encoded name with an end of
  string character, and the name is given when the buffer has room for it; otherwise the call fails. -/
structure HasName (u : Libuna) (io : IoHandle) (it : Item) (cs : List Nat) : Prop where
  size8 : itemUtf8NameSize u io it = .ok ((cs.flatMap encode8).length + 1)
  size16 : itemUtf16NameSize u io it = .ok ((cs.flatMap encode16).length + 1)
  name8 : ∀ size : Nat, (cs.flatMap encode8).length + 1 ≤ size → size ≤ 2 ^ 63 - 1 →
    itemUtf8Name u io it (some size) = .ok (cs.flatMap encode8 ++ [0])
  name16 : ∀ size : Nat, (cs.flatMap encode16).length + 1 ≤ size → size ≤ 2 ^ 63 - 1 →
    itemUtf16Name u io it (some size) = .ok (cs.flatMap encode16 ++ [0])
  small8 : ∀ size : Nat, size < (cs.flatMap encode8).length + 1 →
    itemUtf8Name u io it (some size) = .err
  small16 : ∀ size : Nat, size < (cs.flatMap encode16).length + 1 →
    itemUtf16Name u io it (some size) = .err

end Olecf.Spec
