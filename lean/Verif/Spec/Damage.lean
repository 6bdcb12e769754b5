import Verif.Spec.Layout

/-
  Specification of damaged files: parts that cannot be read (bad sectors), and files of which the end is missing.
-/

namespace Olecf.Spec

/-- Every complete read of the damaged device gives what the whole one gives; other reads fail or are short. -/
def Damaged (damaged whole : Dev) : Prop :=
  ∀ o n b, damaged.get o n = some b → whole.get o n = some b

/-- A read, a position and a size, is complete. -/
def Readable (dev : Dev) (r : Nat × Nat) : Prop := dev.get r.1 r.2 ≠ none

/-- The item shows the document as far as it can be read: a stream has the size of the data, and every read at every
  position gives the data there or fails; a storage has as many sub items as parts, and they are, in some order, the
  parts with their names. -/
inductive ShowsPart (t : Tree) (f : FileCtx) : Item → Doc → Prop
  | stream {it : Item} {data : Bytes} : it.entry.type = 2 → numberOfSubItems t it = 0 →
      it.entry.size = data.length →
      (∀ cur size : Nat, size ≤ 2 ^ 63 - 1 →
        (streamRead f it.entry cur size).1.res = .err ∨
        (streamRead f it.entry cur size).1.res = .ok ((data.drop cur).take size)) →
      ShowsPart t f it (.stream data)
  | storage {it : Item} {kids kids' : List (Bytes × Doc)} {items : List Item} :
      it.entry.type = 1 ∨ it.entry.type = 5 →
      numberOfSubItems t it = items.length →
      (∀ (i : Nat) (c : Item), getSubItem t it i = .ok c ↔ items[i]? = some c) →
      kids'.Perm kids → items.length = kids'.length →
      (∀ (i : Nat) (c : Item) (k : Bytes × Doc), items[i]? = some c → kids'[i]? = some k →
        c.entry.name = k.1) →
      (∀ (i : Nat) (c : Item) (k : Bytes × Doc), items[i]? = some c → kids'[i]? = some k →
        ShowsPart t f c k.2) →
      ShowsPart t f it (.storage kids)

end Olecf.Spec
