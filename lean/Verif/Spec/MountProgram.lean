import Verif.Model.MountProgram
import Verif.Spec.Getopt
import Verif.Spec.Fuse
import Verif.Spec.Text
import Verif.Spec.Encode

/-
  Specification of the program olecfmount.
-/

namespace Olecf.Spec

/-- A command line, without the name of the program, that asks to mount a source: it has the options `es`,
  neither -h nor -V, and operands of which the first two are the source and the mount point. -/
structure AsksMount (rest : List Bytes) (es : List (UInt8 × Option Bytes)) (source point : Bytes) :
    Prop where
  reads : ∃ more, Reads (flagsOf .olecfmount) (withArgOf .olecfmount) rest es
    (.operands (source :: point :: more))
  noHelp : ∀ x ∈ es, x.1 ≠ 104 ∧ x.1 ≠ 86
  noEnd : ∀ a ∈ rest, (0 : UInt8) ∉ a

/-- Hexadecimal digits of a number. -/
def hexText : Nat → Nat → Bytes
  | 0, _ => []
  | w + 1, c => hexText w (c / 16) ++ [if c % 16 < 10 then UInt8.ofNat (48 + c % 16) else
      UInt8.ofNat (97 + (c % 16 - 10))]

/-- Characters that are not shown as they are although they are no control characters: the line and
  paragraph separators, the first and the last ones of the private use areas, and noncharacters. -/
def Unshown (c : Nat) : Prop :=
  c = 0x2028 ∨ c = 0x2029 ∨ c = 0xe000 ∨ c = 0xf8ff ∨ c = 0xf0000 ∨ c = 0xffffd ∨ c = 0x100000 ∨
  c = 0x10fffd ∨ (0xfdd0 ≤ c ∧ c ≤ 0xfddf) ∨ c % 0x10000 = 0xfffe ∨ c % 0x10000 = 0xffff

instance (c) : Decidable (Unshown c) := inferInstanceAs (Decidable (_ ∨ _))

/-- A character in a file name: control characters and the separator as \x and two digits, characters that
  are not shown as \U and eight digits, any other in UTF-8; a backslash is doubled. -/
def mountedChar (c : Nat) : Bytes :=
  if Control c ∨ c = 0x2f then 0x5c :: 0x78 :: hexText 2 c
  else if Unshown c then 0x5c :: 0x55 :: hexText 8 c
  else if c = 0x5c then [0x5c, 0x5c]
  else encode8 c

/-- The file name of a stored name of these characters. -/
def fileNameText (cs : List Nat) : Bytes := cs.flatMap mountedChar

/-- No call of libfuse fails. -/
def FuseLib.Works (lib : FuseLib) : Prop :=
  lib.addArg = false ∧ lib.new = false ∧ lib.mount = false ∧ lib.daemonize = false ∧ lib.loop = false

/-- Names that a mounted file system can have: no backslash (see C44), and neither `.` nor `..`. -/
def MountNames (e : Endian) (kids : List (Bytes × Doc)) : Prop :=
  ∀ cs, NameText cs → storedName e cs ∈ namesOfKids kids → 0x5c ∉ cs ∧ cs ≠ [0x2e] ∧ cs ≠ [0x2e, 0x2e]

end Olecf.Spec
