import Verif.Spec.Info
import Verif.Spec.PropSet
import Verif.Model.InfoSet

/-
  Specification of what olecfinfo prints of a property set.
-/

namespace Olecf.Spec

/-- A hexadecimal digit. -/
def hexDigitText (n : Nat) : UInt8 := hexDigits.getD (n % 16) 0

/-- A 32-bit number as eight hexadecimal digits. -/
def hex32 (n : Nat) : Bytes :=
  [28, 24, 20, 16, 12, 8, 4, 0].map fun k => hexDigitText (n / 2 ^ k)

/-- The text of a GUID: the first three fields are little-endian. -/
def guidText (b : Bytes) : Bytes :=
  let part (l : List Nat) : Bytes :=
    l.flatMap fun i => [hexDigitText ((b.getD i 0).toNat / 16), hexDigitText (b.getD i 0).toNat]
  part [3, 2, 1, 0] ++ ascii "-" ++ part [5, 4] ++ ascii "-" ++ part [7, 6] ++ ascii "-" ++
    part [8, 9] ++ ascii "-" ++ part [10, 11, 12, 13, 14, 15]

/-- The format identifiers of the two property sets that Office documents have. -/
def summaryFormat : Bytes := ascii "f29f85e0-4ff9-1068-ab91-08002b27b3d9"
def documentSummaryFormat : Bytes := ascii "d5cdd502-2e9c-101b-9397-08002b2cf9ae"

/-- The strings: of bytes, of 16-bit units. -/
def stringTypes : List Nat := [0x1e, 0x1f]

/-- The properties that have names: format, types, identifier, name. -/
def namedProperties : List (Bytes × List Nat × Nat × String) :=
  [ (summaryFormat, [0x02], 1, "PIDSI_CODEPAGE"),
    (summaryFormat, stringTypes, 2, "PIDSI_TITLE"),
    (summaryFormat, stringTypes, 3, "PIDSI_SUBJECT"),
    (summaryFormat, stringTypes, 4, "PIDSI_AUTHOR"),
    (summaryFormat, stringTypes, 5, "PIDSI_KEYWORDS"),
    (summaryFormat, stringTypes, 6, "PIDSI_COMMENTS"),
    (summaryFormat, stringTypes, 7, "PIDSI_TEMPLATE"),
    (summaryFormat, stringTypes, 8, "PIDSI_LASTAUTHOR"),
    (summaryFormat, stringTypes, 9, "PIDSI_REVNUMBER"),
    (summaryFormat, [0x40], 10, "PIDSI_EDITTIME"),
    (summaryFormat, [0x40], 11, "PIDSI_LASTPRINTED"),
    (summaryFormat, [0x40], 12, "PIDSI_CREATE_DTM"),
    (summaryFormat, [0x40], 13, "PIDSI_LASTSAVE_DTM"),
    (summaryFormat, [0x03], 14, "PIDSI_PAGECOUNT"),
    (summaryFormat, [0x03], 15, "PIDSI_WORDCOUNT"),
    (summaryFormat, [0x03], 16, "PIDSI_CHARCOUNT"),
    (summaryFormat, [0x47], 17, "PIDSI_THUMBNAIL"),
    (summaryFormat, stringTypes, 18, "PIDSI_APPNAME"),
    (summaryFormat, [0x03], 19, "PIDSI_SECURITY"),
    (documentSummaryFormat, [0x02], 1, "PIDDSI_CODEPAGE"),
    (documentSummaryFormat, stringTypes, 2, "PIDDSI_CATEGORY"),
    (documentSummaryFormat, stringTypes, 3, "PIDDSI_PRESFORMAT"),
    (documentSummaryFormat, [0x03], 4, "PIDDSI_BYTECOUNT"),
    (documentSummaryFormat, [0x03], 5, "PIDDSI_LINECOUNT"),
    (documentSummaryFormat, [0x03], 6, "PIDDSI_PARCOUNT"),
    (documentSummaryFormat, [0x03], 7, "PIDDSI_SLIDECOUNT"),
    (documentSummaryFormat, [0x03], 8, "PIDDSI_NOTECOUNT"),
    (documentSummaryFormat, [0x03], 9, "PIDDSI_HIDDENCOUNT"),
    (documentSummaryFormat, [0x03], 10, "PIDDSI_MMCLIPCOUNT"),
    (documentSummaryFormat, [0x0b], 11, "PIDDSI_SCALE"),
    (documentSummaryFormat, [0x100c], 12, "PIDDSI_HEADINGPAIR"),
    (documentSummaryFormat, [0x101e, 0x101f], 13, "PIDDSI_DOCPARTS"),
    (documentSummaryFormat, stringTypes, 14, "PIDDSI_MANAGER"),
    (documentSummaryFormat, stringTypes, 15, "PIDDSI_COMPANY"),
    (documentSummaryFormat, [0x0b], 16, "PIDDSI_LINKSDIRTY") ]

/-- The name of a property in a section with the given class identifier. -/
def propertyName (cls : Bytes) (type id : Nat) : Option String :=
  (namedProperties.find? fun k => k.1 = guidText cls ∧ type ∈ k.2.1 ∧ k.2.2.1 = id).map (·.2.2.2)

/-- The line with the identifier of a property: the number, behind the name if the property has one. -/
def identifierLine (cls : Bytes) (p : Property) : Bytes :=
  ascii "\tValue identifier\t: " ++
    (match propertyName cls p.type p.id with
    | some n => ascii n ++ ascii " (0x" ++ hex32 p.id ++ ascii ")"
    | none => ascii "0x" ++ hex32 p.id) ++ ascii "\n"

/-- The line with the type of a property. -/
def typeLine (libs : InfoLibs) (p : Property) : Bytes :=
  ascii "\tValue type\t\t: " ++ libs.typeName p.type ++ ascii " (0x" ++ hex32 p.type ++ ascii ")\n"

/-- An integer in decimal digits. -/
def intText : Int → Bytes
  | .ofNat n => numberText n
  | .negSucc n => ascii "-" ++ numberText (n + 1)

/-- What strings are converted to: the text in UTF-8 of data in an encoding, if it can be converted. -/
abbrev Texts := Encoding → Bytes → Option Bytes

/-- The text of the data of a value (`none`: the data cannot be shown). -/
def dataText (libs : InfoLibs) (texts : Texts) (codepage : Int) (e : Endian) (type : Nat) (b : Bytes) :
    Option Bytes :=
  if type = 0x0b then some (if byteAt b 0 = 0 then ascii "false" else ascii "true")
  else if type = 0x02 then some (intText (BitVec.ofNat 16 (u16At e b 0)).toInt)
  else if type = 0x03 then some (intText (BitVec.ofNat 32 (u32At e b 0)).toInt)
  else if type = 0x14 then some (intText (BitVec.ofNat 64 (u64At e b 0)).toInt)
  else if type = 0x12 then some (numberText (u16At e b 0))
  else if type = 0x13 then some (numberText (u32At e b 0))
  else if type = 0x15 then some (numberText (u64At e b 0))
  else if type = 0x1e then (texts (.codepage codepage) b).map fun s => s.takeWhile (· ≠ 0)
  else if type = 0x1f then (texts .utf16le b).map fun s => s.takeWhile (· ≠ 0)
  else if type = 0x40 then (libs.date (u64At e b 0)).map fun s => s ++ ascii " UTC"
  else none

/-- The types whose data is shown. -/
def shownTypes : List Nat := [0x0b, 0x02, 0x03, 0x14, 0x12, 0x13, 0x15, 0x1e, 0x1f, 0x40]

/-- What is shown of the data of a property, and the empty line behind it: nothing for data of other
  types; `none` if the type demands that data is shown, and this cannot be done. -/
def dataLine (libs : InfoLibs) (texts : Texts) (codepage : Int) (e : Endian) (p : Property) :
    Option Bytes :=
  if p.type ∈ shownTypes then
    match p.data with
    | some b => (dataText libs texts codepage e p.type b).map fun s =>
        ascii "\tValue data\t\t: " ++ s ++ ascii "\n\n"
    | none => none
  else some (ascii "\n")

/-- The pieces of the text of the property at an index. -/
def propertyPieces (libs : InfoLibs) (texts : Texts) (codepage : Int) (e : Endian) (cls : Bytes) (i : Nat)
    (p : Property) : List (Option Bytes) :=
  [ some (ascii "\tProperty: " ++ numberText (i + 1) ++ ascii "\n" ++ identifierLine cls p ++
      typeLine libs p),
    dataLine libs texts codepage e p ]

/-- The pieces of the text of the section at an index. -/
def sectionPieces (libs : InfoLibs) (texts : Texts) (codepage : Int) (e : Endian) (i : Nat)
    (s : Section) : List (Option Bytes) :=
  some (ascii "\tSection: " ++ numberText (i + 1) ++ ascii "\n" ++
      (ascii "\tClass identifier\t: " ++ guidText s.classId ++ ascii "\n") ++
      (ascii "\tNumber of properties\t: " ++ numberText s.properties.length ++ ascii "\n\n")) ::
    (s.properties.mapIdx (propertyPieces libs texts codepage e s.classId)).flatten

/-- The pieces of the text of a property set. -/
def setPieces (libs : InfoLibs) (texts : Texts) (codepage : Int) (e : Endian) (s : SetValue) :
    List (Option Bytes) :=
  some (ascii "\tClass identifier\t: " ++ guidText s.classId ++ ascii "\n" ++
      (ascii "\tNumber of sections\t: " ++ numberText s.sections.length ++ ascii "\n\n")) ::
    (s.sections.mapIdx (sectionPieces libs texts codepage e)).flatten

/-- What is printed of pieces: those before the first that cannot be shown; success if there is none. -/
def shown : List (Option Bytes) → Printed Unit
  | [] => ([], .ok ())
  | none :: _ => ([], .err)
  | some b :: r => (b ++ (shown r).1, (shown r).2)

/-- What is assumed of the libraries: GUIDs have their text; a string either cannot be converted, or the
  size is that of its text with an end of string character, and the text is copied when there is room for
  it. -/
structure IsInfoLibs (libs : InfoLibs) (texts : Texts) : Prop where
  guid : ∀ b : Bytes, b.length = 16 → libs.guid b = some (guidText b)
  none : ∀ enc b, texts enc b = none → libs.textSize enc b = none
  some : ∀ enc b s, texts enc b = some s → s.length < SSIZE_MAX ∧
    libs.textSize enc b = some (s.length + 1) ∧
    libs.textCopy enc b (s.length + 1) = some (s ++ [0])

/-- All that the type of a property demands to be shown can be shown. -/
def Showable (libs : InfoLibs) (texts : Texts) (codepage : Int) (e : Endian) (s : SetValue) : Prop :=
  ∀ sec ∈ s.sections, ∀ p ∈ sec.properties, dataLine libs texts codepage e p ≠ none

/-- The text of a property set. -/
def setText (libs : InfoLibs) (texts : Texts) (codepage : Int) (e : Endian) (s : SetValue) : Bytes :=
  (setPieces libs texts codepage e s).flatMap fun o => o.getD []

/-- The text of the information on the file itself. -/
def fileText (major minor sector short : Nat) : Bytes :=
  ascii "OLE Compound File information:\n\tVersion\t\t\t: " ++ numberText major ++ ascii "." ++
    numberText minor ++ ascii "\n\tSector size\t\t: " ++ numberText sector ++
    ascii "\n\tShort sector size\t: " ++ numberText short ++ ascii "\n\n"

end Olecf.Spec
