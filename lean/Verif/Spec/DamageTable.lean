import Verif.Spec.DamageShort

/-
  Specification of files of which a part of the sector table may be damaged.
-/

namespace Olecf.Spec

/-- The number of sectors that the first `k` sectors of the sector table describe. -/
def described (h : HeaderFields) (k : Nat) : Nat := k * (2 ^ h.sectorExp / 4)

/-- The header, the sectors of the master table and the first `k` sectors of the sector table can be read, and so can
  the directory, which lies in sectors that these describe.  Nothing is said about the rest of the sector table and
  about the short sector table. -/
structure PartRead (dev : Dev) (e : Endian) (h : HeaderFields) (sat : List Nat) (k : Nat) : Prop where
  header : Readable dev (0, 512)
  sats : ∃ secs, MsatSectors dev e (2 ^ h.sectorExp) h.msatSector secs ∧ secs.length = h.msatSectors ∧
    ∀ id ∈ ((h.msat ++ secs.flatMap (msatEntries e)).filter (· ≠ 0xffffffff)).take k, sector dev (2 ^ h.sectorExp) id ≠ none
  directory : ∀ ids, Chain sat h.rootDirSector ids 0xfffffffe →
    ∀ id ∈ ids, id < described h k ∧ sector dev (2 ^ h.sectorExp) id ≠ none

/-- All sectors of the chain that starts at `start` are among the first `n` of the file. -/
def Within (sat : List Nat) (n start : Nat) : Prop := ∀ m, ∀ id ∈ follow sat m start, id < n

/-- The short sector table and the container of the short streams lie in sectors that the first `k` sectors of the
  sector table describe, and the short sector table can be read. -/
def ShortPart (dev : Dev) (h : HeaderFields) (sat : List Nat) (list : List DirEntry) (k : Nat) : Prop :=
  (∀ ids, Chain sat h.ssatSector ids 0xfffffffe →
    ∀ id ∈ ids, id < described h k ∧ sector dev (2 ^ h.sectorExp) id ≠ none) ∧
  ∀ root, list.find? (fun x => x.type = 5) = some root → Within sat (described h k) root.start

/-- The item shows the document: the hierarchy, the names and the sizes of all streams; and every read of one of the
  given streams gives the data or fails. -/
inductive ShowsWhere (streams : DirEntry → Prop) (t : Tree) (f : FileCtx) : Item → Doc → Prop
  | stream {it : Item} {data : Bytes} : it.entry.type = 2 → numberOfSubItems t it = 0 →
      it.entry.size = data.length →
      (streams it.entry → ∀ cur size : Nat, size ≤ 2 ^ 63 - 1 →
        (streamRead f it.entry cur size).1.res = .err ∨
        (streamRead f it.entry cur size).1.res = .ok ((data.drop cur).take size)) →
      ShowsWhere streams t f it (.stream data)
  | storage {it : Item} {kids kids' : List (Bytes × Doc)} {items : List Item} :
      it.entry.type = 1 ∨ it.entry.type = 5 →
      numberOfSubItems t it = items.length →
      (∀ (i : Nat) (c : Item), getSubItem t it i = .ok c ↔ items[i]? = some c) →
      kids'.Perm kids → items.length = kids'.length →
      (∀ (i : Nat) (c : Item) (k : Bytes × Doc), items[i]? = some c → kids'[i]? = some k →
        c.entry.name = k.1) →
      (∀ (i : Nat) (c : Item) (k : Bytes × Doc), items[i]? = some c → kids'[i]? = some k →
        ShowsWhere streams t f c k.2) →
      ShowsWhere streams t f it (.storage kids)

end Olecf.Spec
