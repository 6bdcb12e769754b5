import Verif.Spec.PyApi
import Verif.Spec.Py
import Verif.Spec.PyTime
import Verif.Spec.InfoSet
import Verif.Spec.EncodeSet

/-
  C88, C89: what a Python program sees of the items and of the property sets of a document.
-/

namespace Olecf.Spec
open Olecf

/-- The characters of a text. -/
def charsOf (s : String) : List Nat := s.toList.map Char.toNat

/-- The streams of a document that are property sets by their names. -/
def setNames : List (List Nat) :=
  [5 :: charsOf "SummaryInformation", 5 :: charsOf "DocumentSummaryInformation"]

/-- The class of the object for a part of a document. -/
def viewClass (name : List Nat) : Doc → PyClass
  | .storage _ => .item
  | .stream _ => if name ∈ setNames then .propertySetStream else .stream

/-- The class of an object that is asked of the file by a path: a property set is not told from another
  stream (see C71). -/
def fileViewClass : Doc → PyClass
  | .storage _ => .item
  | .stream _ => .stream

/-- What a program sees from an item object on: of a stream, its size and with one call all its data; of a
  storage, with one loop objects of the right classes for its parts, with their names as strings, and the
  same objects for these names; for any other name there is no object. -/
inductive PyViews (env : PyEnv) (e : Endian) (t : Tree) (f : FileCtx) : PyItem → Doc → Prop
  | stream {p : PyItem} {data : Bytes} : p.cls ≠ .item → pyItemSize p.item = data.length →
      (pyRead f p.item.entry 0 .missing).1 = .ok data → PyViews env e t f p (.stream data)
  | storage {p : PyItem} {kids kids' : List (Bytes × Doc)} {items : List PyItem} : p.cls = .item →
      (∃ n s, (pySubItems (pyUtf8Name env.u f.io) t p).forLoop n = (items, .ok (), s)) →
      kids'.Perm kids → items.length = kids'.length →
      (∀ (i : Nat) (c : PyItem) (k : Bytes × Doc), items[i]? = some c → kids'[i]? = some k →
        ∃ cs, k.1 = storedName e cs ∧ pyItemName env f.io c.item = .ok (some cs) ∧
          c.cls = viewClass cs k.2 ∧ pySubItemByName env f.io t p (.str cs) = .ok (some c)) →
      (∀ cs, NameText cs → storedName e cs ∉ kids.map (·.1) →
        pySubItemByName env f.io t p (.str cs) = .ok none) →
      (∀ (i : Nat) (c : PyItem) (k : Bytes × Doc), items[i]? = some c → kids'[i]? = some k →
        PyViews env e t f c k.2) →
      PyViews env e t f p (.storage kids)

/-- A path as a string: the names, each after a backslash. -/
def pyPathChars (names : List (List Nat)) : List Nat := names.flatMap fun cs => 0x5c :: cs

/-- The names of a path: strings of characters without a backslash. -/
def PathNames (names : List (List Nat)) : Prop := ∀ cs ∈ names, NameText cs ∧ 0x5c ∉ cs

/-- Lookups by a path below a document: what is at the path is found, with its name and an object of the
  class, and seen by the program; for a path to nothing there is no object. -/
structure PyFinds (env : PyEnv) (e : Endian) (t : Tree) (f : FileCtx) (cls : List Nat → Doc → PyClass)
    (lookup : PyText → Res (Option PyItem)) (doc : Doc) : Prop where
  found : ∀ names last d, PathNames (names ++ [last]) →
    DocAt doc ((names ++ [last]).map (storedName e)) d →
    ∃ x, lookup (.str (pyPathChars (names ++ [last]))) = .ok (some x) ∧
      x.cls = cls last d ∧ pyItemName env f.io x.item = .ok (some last) ∧ PyViews env e t f x d
  missing : ∀ names, PathNames names → (∀ d, ¬ DocAt doc (names.map (storedName e)) d) →
    lookup (.str (pyPathChars names)) = .ok none

/-! ### Property sets -/

/-- The text of a string property in UTF-8, if it has one: of bytes in the code page, of 16-bit units in
  UTF-16. -/
def propertyText (texts : Texts) (cp : Int) (p : Property) : Option Bytes :=
  match p.data with
  | some b =>
    if p.type = 0x1e then texts (.codepage cp) b
    else if p.type = 0x1f then texts .utf16le b
    else none
  | none => none

/-- What the bindings use of other libraries for property sets. -/
structure PyLibs where
  api : DateTimeApi
  libs : InfoLibs
  texts : Texts

/-- What a program sees of the object for a property.  A datetime of 31 December 1699 is left open
  (C68). -/
structure PySeesValue (env : PyEnv) (l : PyLibs) (cp : Int) (v : PropValue) (p : Property) : Prop where
  identifier : pyIdentifier v = p.id
  type : pyValueType v = p.type
  data : ∀ b, p.data = some b → pyData v = .ok (if b = [] then none else some b)
  noData : p.data = none → pyData v = .err
  integer : ∀ z, pyInteger v = .ok z ↔ ∃ size signed, (p.type, size, signed) ∈ integerTypes ∧
    HeldIn size signed z ∧ p.data = some (integerBytes .little size z)
  boolean : ∀ x, pyBoolean v = .ok x ↔
    p.type = 0xb ∧ ∃ b, p.data = some b ∧ (x = true ↔ byteAt b 0 ≠ 0)
  datetime : ∀ t, pyDatetime l.api v = .ok t → p.type = 0x40 ∧ ∃ ft : Nat, ft < 2 ^ 64 ∧
    p.data = some (integerBytes .little 8 ft) ∧ ValidDateTime t ∧ microsOf t = filetimeMicros ft
  datetimeOf : ∀ (t : PyDateTime) (ft : Nat), p.type = 0x40 → ft < 2 ^ 64 →
    p.data = some (integerBytes .little 8 ft) →
    dayNumber 1601 1 1 + ft / 864000000000 ≠ dayNumber 1699 12 31 →
    ValidDateTime t → microsOf t = filetimeMicros ft → pyDatetime l.api v = .ok t
  string : ∀ cs, (∀ c ∈ cs, Scalar c) → propertyText l.texts cp p = some (cs.flatMap encode8) →
    pyString env.py l.libs v = .ok (some cs)
  noString : propertyText l.texts cp p = none → pyString env.py l.libs v = .err

/-- What a program sees of the object for a section: its class identifier, and with one loop its
  properties. -/
structure PySeesSection (env : PyEnv) (l : PyLibs) (cp : Int) (v : PropSection) (s : Section) :
    Prop where
  classId : pySectionClass env.py l.libs v = .ok (some ((guidText s.classId).map UInt8.toNat))
  properties : ∃ n vs q, (pyProperties v).forLoop n = (vs, .ok (), q) ∧
    vs.length = s.properties.length ∧
    ∀ (i : Nat) (x : PropValue) (p : Property), vs[i]? = some x → s.properties[i]? = some p →
      PySeesValue env l cp x p

/-- What a program sees of the object for a property set: its class identifier, and with one loop its
  sections. -/
structure PySeesSet (env : PyEnv) (l : PyLibs) (cp : Int) (v : PropSet) (s : SetValue) : Prop where
  classId : pySetClass env.py l.libs v = .ok (some ((guidText s.classId).map UInt8.toNat))
  sections : ∃ n vs q, (pySections v).forLoop n = (vs, .ok (), q) ∧
    vs.length = s.sections.length ∧
    ∀ (i : Nat) (x : PropSection) (p : Section), vs[i]? = some x → s.sections[i]? = some p →
      PySeesSection env l cp x p

end Olecf.Spec
