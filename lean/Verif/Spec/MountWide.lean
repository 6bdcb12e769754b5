import Verif.Model.MountWide
import Verif.Spec.Mount
import Verif.Spec.MountProgram

/-
  Specification of mounted names and paths on Windows.
-/

namespace Olecf.Spec

/-- The UTF-16 encoding of a string of characters. -/
def wide (cs : List Nat) : Wide := cs.flatMap encode16

/-- What is assumed of libuna: it encodes and decodes UTF-16.  Nothing is assumed of code units that are not
  UTF-16, nor of characters that UTF-16 cannot encode. -/
structure IsUtf16 (k : WideCodec) : Prop where
  sep : k.sep = 0x5c
  enc : ∀ c, Scalar c → k.enc c = some (encode16 c)
  step : ∀ c rest, Scalar c → k.step (encode16 c ++ rest) = some (c, (encode16 c).length)

/-- The characters that a file name of Windows cannot have: control characters and `" * / : < > ? \ |`. -/
def Forbidden (c : Nat) : Prop :=
  Control c ∨ c ∈ [0x22, 0x2a, 0x2f, 0x3a, 0x3c, 0x3e, 0x3f, 0x5c, 0x7c]

instance (c) : Decidable (Forbidden c) := inferInstanceAs (Decidable (_ ∨ _))

/-- Hexadecimal digits of a number. -/
def hexTextW : Nat → Nat → Wide
  | 0, _ => []
  | w + 1, c => hexTextW w (c / 16) ++ [if c % 16 < 10 then UInt16.ofNat (48 + c % 16) else
      UInt16.ofNat (97 + (c % 16 - 10))]

/-- A character in a file name of Windows: one that a file name cannot have as ^x and two digits, characters
  that are not shown as ^U and eight digits, any other in UTF-16; a ^ is doubled. -/
def mountedCharW (c : Nat) : Wide :=
  if Forbidden c then 0x5e :: 0x78 :: hexTextW 2 c
  else if Unshown c then 0x5e :: 0x55 :: hexTextW 8 c
  else if c = 0x5e then [0x5e, 0x5e]
  else encode16 c

/-- The file name of a name of these characters. -/
def fileNameW (cs : List Nat) : Wide := cs.flatMap mountedCharW

/-- The names of devices, which no file can have: `CON`, `PRN`, `AUX`, `NUL`, `COM1` to `COM9` and `LPT1` to
  `LPT9`. -/
def devices : List (List Nat) :=
  [[0x43, 0x4f, 0x4e], [0x50, 0x52, 0x4e], [0x41, 0x55, 0x58], [0x4e, 0x55, 0x4c]] ++
  (List.range 9).map (fun i => [0x43, 0x4f, 0x4d, 0x31 + i]) ++
  (List.range 9).map fun i => [0x4c, 0x50, 0x54, 0x31 + i]

/-- The capital of a letter. -/
def upper (c : Nat) : Nat := if 0x61 ≤ c ∧ c ≤ 0x7a then c - 0x20 else c

/-- What is before the first dot is the name of a device, in capital or small letters. -/
def Device (cs : List Nat) : Prop := (cs.takeWhile (· ≠ 0x2e)).map upper ∈ devices

instance (cs) : Decidable (Device cs) := inferInstanceAs (Decidable (_ ∈ _))

/-- The name does not end with a dot or a space and is not that of a device; so it is not `.` or `..`. -/
def Ordinary (cs : List Nat) : Prop :=
  cs.getLast? ≠ some 0x2e ∧ cs.getLast? ≠ some 0x20 ∧ ¬ Device cs

instance (cs) : Decidable (Ordinary cs) := inferInstanceAs (Decidable (_ ∧ _))

/-- A name that a file of Windows can have. -/
structure WindowsName (m : Wide) (ds : List Nat) : Prop where
  encoded : m = wide ds
  chars : NameChars ds
  allowed : ∀ d ∈ ds, ¬ Forbidden d
  ordinary : Ordinary ds

/-- The path `p`, made of the names that the listings from the root on give, leads to the item by items whose
  names are the given strings of characters, where every item is the only one of its siblings that its name is
  equal to. -/
inductive ListedAtW (k : WideCodec) (name16 : DirEntry → Option Wide)
    (cmp : Wide → Bytes → Option Bool) (t : Tree) : Wide → List (List Nat) → WideEntry → Prop
  | root : ListedAtW k name16 cmp t [] [] ⟨[], 1, ⟨none, t.root⟩⟩
  | sub {p : Wide} {names : List (List Nat)} {e s : WideEntry} {i : Nat} {cs : List Nat} :
      ListedAtW k name16 cmp t p names e →
      mountSubEntryW k name16 t e i = .ok s →
      name16 s.item.entry = some (wide cs) →
      cmp (wide cs) s.item.entry.name = some true →
      (∀ (j : Nat) d, j ≠ i → getSubItem t e.item j = .ok d →
        cmp (wide cs) d.entry.name = some false) →
      ListedAtW k name16 cmp t (p ++ 0x5c :: s.name) (names ++ [cs]) s

end Olecf.Spec
