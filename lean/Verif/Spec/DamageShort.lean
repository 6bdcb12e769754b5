import Verif.Spec.Damage

/-
  Specification of files of which the short sector table may be damaged.
-/

namespace Olecf.Spec

/-- The header, the sectors of the master table, those of the sector table and those of the directory can be read.
  Nothing is said about the sectors of the short sector table. -/
structure TablesRead (dev : Dev) (e : Endian) (h : HeaderFields) (sat : List Nat) : Prop where
  header : Readable dev (0, 512)
  sats : ∃ secs, MsatSectors dev e (2 ^ h.sectorExp) h.msatSector secs ∧ secs.length = h.msatSectors ∧
    ∀ id ∈ (h.msat ++ secs.flatMap (msatEntries e)).filter (· ≠ 0xffffffff), sector dev (2 ^ h.sectorExp) id ≠ none
  directory : ∀ ids, Chain sat h.rootDirSector ids 0xfffffffe → ∀ id ∈ ids, sector dev (2 ^ h.sectorExp) id ≠ none

/-- The item shows the document: the hierarchy, the names and the sizes of all streams; and every read of a stream
  of one of the given sizes gives the data or fails. -/
inductive ShowsSizes (sizes : Nat → Prop) (t : Tree) (f : FileCtx) : Item → Doc → Prop
  | stream {it : Item} {data : Bytes} : it.entry.type = 2 → numberOfSubItems t it = 0 →
      it.entry.size = data.length →
      (sizes data.length → ∀ cur size : Nat, size ≤ 2 ^ 63 - 1 →
        (streamRead f it.entry cur size).1.res = .err ∨
        (streamRead f it.entry cur size).1.res = .ok ((data.drop cur).take size)) →
      ShowsSizes sizes t f it (.stream data)
  | storage {it : Item} {kids kids' : List (Bytes × Doc)} {items : List Item} :
      it.entry.type = 1 ∨ it.entry.type = 5 →
      numberOfSubItems t it = items.length →
      (∀ (i : Nat) (c : Item), getSubItem t it i = .ok c ↔ items[i]? = some c) →
      kids'.Perm kids → items.length = kids'.length →
      (∀ (i : Nat) (c : Item) (k : Bytes × Doc), items[i]? = some c → kids'[i]? = some k →
        c.entry.name = k.1) →
      (∀ (i : Nat) (c : Item) (k : Bytes × Doc), items[i]? = some c → kids'[i]? = some k →
        ShowsSizes sizes t f c k.2) →
      ShowsSizes sizes t f it (.storage kids)

end Olecf.Spec
