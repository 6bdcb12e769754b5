import Verif.Spec.Text
import Verif.Model.Info

/-
  Specification of the list of items that olecfinfo prints.
-/

namespace Olecf.Spec

/-- A hierarchy of names (in UTF-8) and sizes. -/
inductive Outline where
  | node (name : Bytes) (size : Nat) (kids : List Outline)

def Outline.name : Outline → Bytes
  | .node name _ _ => name

/-- A line of the list: the level, the name and the size. -/
abbrev Line := Nat × Bytes × Nat

mutual
/-- The lines of a hierarchy: the item itself, then its sub items in their order, one level below. -/
def Outline.lines (level : Nat) : Outline → List Line
  | .node name size kids => (level, name, size) :: linesOf (level + 1) kids
def linesOf (level : Nat) : List Outline → List Line
  | [] => []
  | o :: r => o.lines level ++ linesOf level r
end

/-- A number in decimal digits. -/
def numberText (n : Nat) : Bytes := (Nat.toDigits 10 n).map fun c => UInt8.ofNat c.toNat

/-- The bytes that are shown as they are: all but control characters; where `char` is signed, those of
  ASCII but control characters. -/
def Plain (signedChar : Bool) (c : UInt8) : Prop :=
  0x20 ≤ c.toNat ∧ c.toNat ≠ 0x7f ∧ (signedChar = true → c.toNat < 0x80)

instance (s c) : Decidable (Plain s c) := by unfold Plain; infer_instance

/-- The digits of hexadecimal numbers. -/
def hexDigits : Bytes := ascii "0123456789abcdef"

/-- A byte of a name: itself, or in the form `\x1f`. -/
def charText (signedChar : Bool) (c : UInt8) : Bytes :=
  if Plain signedChar c then [c]
  else ascii "\\x" ++
    [hexDigits.getD (c.toNat / 16) 0, hexDigits.getD (c.toNat % 16) 0]

/-- The text of a line: two spaces for each level, the name, and ` (12 bytes)`. -/
def lineText (signedChar : Bool) (l : Line) : Bytes :=
  List.replicate (2 * l.1) 0x20 ++ l.2.1.flatMap (charText signedChar) ++ ascii " (" ++
    numberText l.2.2 ++ ascii " bytes)\n"

/-- The text of a list of lines. -/
def listText (signedChar : Bool) (ls : List Line) : Bytes := ls.flatMap (lineText signedChar)

/-- What the tool prints for a hierarchy. -/
def itemsText (signedChar : Bool) (o : Outline) : Bytes :=
  ascii "Storage and stream items:\n" ++ listText signedChar (o.lines 0) ++
    ascii "\n"

/-- The name of the item can be asked for in UTF-8, and is the given one. -/
def HasUtf8Name (u : Libuna) (io : IoHandle) (it : Item) (name : Bytes) : Prop :=
  itemUtf8NameSize u io it = .ok (name.length + 1) ∧
  itemUtf8Name u io it (some (name.length + 1)) = .ok (name ++ [0])

/-- The hierarchy of an item and its sub items, as the functions of the library give it. -/
inductive Outlined (u : Libuna) (io : IoHandle) (t : Tree) : Item → Outline → Prop
  | node {it : Item} {name : Bytes} {items : List Item} {kids : List Outline} :
      HasUtf8Name u io it name → numberOfSubItems t it = items.length →
      (∀ (i : Nat) (c : Item), getSubItem t it i = .ok c ↔ items[i]? = some c) →
      items.length = kids.length →
      (∀ (i : Nat) (c : Item) (o : Outline), items[i]? = some c → kids[i]? = some o →
        Outlined u io t c o) →
      Outlined u io t it (.node name it.entry.size kids)

/-- The hierarchy depicts the document: a stream has the size of its data, a storage has the size 0 and its
  parts with their names, in some order. -/
inductive Depicts (e : Endian) : Doc → Outline → Prop
  | stream {name data} : Depicts e (.stream data) (.node name data.length [])
  | storage {name : Bytes} {kids kids' : List (Bytes × Doc)} {os : List Outline} :
      kids'.Perm kids → os.length = kids'.length →
      (∀ (i : Nat) (o : Outline) (k : Bytes × Doc), os[i]? = some o → kids'[i]? = some k →
        ∃ cs, NameText cs ∧ k.1 = storedName e cs ∧ o.name = cs.flatMap encode8) →
      (∀ (i : Nat) (o : Outline) (k : Bytes × Doc), os[i]? = some o → kids'[i]? = some k →
        Depicts e k.2 o) →
      Depicts e (.storage kids) (.node name 0 os)

/-- The names of a hierarchy. -/
inductive InOutline : Bytes → Outline → Prop
  | here {name size kids} : InOutline name (.node name size kids)
  | sub {name n size kids} {o : Outline} : o ∈ kids → InOutline name o →
      InOutline name (.node n size kids)

end Olecf.Spec
