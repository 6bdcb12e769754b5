import Verif.Spec.Header
import Verif.Spec.Directory
import Verif.Spec.Tree
import Verif.Spec.Stream
import Verif.Model.Item

/-
  Specification of a complete file: a document (a hierarchy of storages and streams), how a file
  holds a document, and how a document looks through the calls of the library.
-/

namespace Olecf.Spec

/-- A hierarchy of storages and streams with names. -/
inductive Doc where
  | storage (kids : List (Bytes × Doc))
  | stream (data : Bytes)

/-- The same document up to the order of the parts of storages. -/
inductive Same : Doc → Doc → Prop
  | stream (data : Bytes) : Same (.stream data) (.stream data)
  | storage {a a' b b' : List (Bytes × Doc)} : a'.Perm a → b'.Perm b → a'.length = b'.length →
      (∀ (i : Nat) (x y : Bytes × Doc), a'[i]? = some x → b'[i]? = some y → x.1 = y.1) →
      (∀ (i : Nat) (x y : Bytes × Doc), a'[i]? = some x → b'[i]? = some y → Same x.2 y.2) →
      Same (.storage a) (.storage b)

/-- The part of a document at a path of names. -/
inductive DocAt (root : Doc) : List Bytes → Doc → Prop
  | here : DocAt root [] root
  | sub {path : List Bytes} {kids : List (Bytes × Doc)} {n : Bytes} {d : Doc} :
      DocAt root path (.storage kids) → (n, d) ∈ kids → DocAt root (path ++ [n]) d

/-- The data of a part of a document: a storage has none. -/
def Doc.data : Doc → Bytes
  | .storage _ => []
  | .stream data => data

/-! ### How a file holds a document -/

/-- The sectors with the identifiers `ids` are complete and have the content `secs`. -/
def SectorsAre (content : Bytes) (ss : Nat) (ids : List Nat) (secs : List Bytes) : Prop :=
  ids.map (sector (Dev.ofBytes content) ss) = secs.map some

/-- The master table is `msat`: the 109 entries of the header, followed by those of the further
  sectors, as many as the header declares. -/
def MasterTable (content : Bytes) (e : Endian) (h : HeaderFields) (msat : List Nat) : Prop :=
  ∃ secs, MsatSectors (Dev.ofBytes content) e (2 ^ h.sectorExp) h.msatSector secs ∧
    secs.length = h.msatSectors ∧ msat = h.msat ++ secs.flatMap (msatEntries e)

/-- The entry of a slot at position `i`. -/
def SlotFields.entry (i : Nat) (f : SlotFields) : DirEntry :=
  { id := i, type := f.type, name := f.name.take f.nameSize, prev := f.prev, next := f.next,
    sub := f.sub, created := f.created, modified := f.modified, start := f.start, size := f.size }

/-- The entries of a directory: its slots in use, numbered by position. -/
def entriesOfSlots (slots : List SlotFields) : List DirEntry :=
  (slots.mapIdx fun i f => if f.type = 0 then none else some (f.entry i)).filterMap id

/-- A file with the given header, sector tables and directory, within the limits of the library:
  257 sectors of the master and of the short sector table, 2^25 entries per table, 1025 directory
  sectors. -/
structure Layout (content : Bytes) (e : Endian) (h : HeaderFields) (sat ssat : List Nat)
    (slots : List SlotFields) : Prop where
  fits : h.Fits
  sectorSize : 7 ≤ h.sectorExp
  header : encodeHeader e h <+: content
  msatLimit : h.msatSectors ≤ 257
  satLimit : h.satSectors * 2 ^ h.sectorExp ≤ 2 ^ 27
  ssatLimit : h.ssatSectors ≤ 257
  hsat : ∃ msat secs, MasterTable content e h msat ∧
    SectorsAre content (2 ^ h.sectorExp) (msat.filter (· ≠ 0xffffffff)) secs ∧
    secs.length = h.satSectors ∧ sat = secs.flatMap (words e)
  hssat : ∃ ids secs, Chain sat h.ssatSector ids 0xfffffffe ∧
    SectorsAre content (2 ^ h.sectorExp) ids secs ∧
    secs.length = h.ssatSectors ∧ ssat = secs.flatMap (words e)
  directory : ∃ ids secs, Chain sat h.rootDirSector ids 0xfffffffe ∧ ids ≠ [] ∧
    ids.length ≤ 1025 ∧ SectorsAre content (2 ^ h.sectorExp) ids secs ∧
    secs.flatten = (slots.map (encodeSlot e)).flatten
  hslots : ∀ s ∈ slots, s.Fits

/-- The links of a directory: the first slot is the root storage and the only one, it has a sub link
  and no siblings; all links in use lead to entries; no two links lead to the same entry, and none
  leads to the root. -/
structure GoodLinks (list : List DirEntry) (root : DirEntry) : Prop where
  hroot : list.find? (fun x => x.type = 5) = some root
  first : root.id = 0
  sub : root.sub ≠ 0xffffffff
  prev : root.prev = 0xffffffff
  next : root.next = 0xffffffff
  noRoot : ∀ d ∈ list, ∀ k, linkId d k ≠ 0
  leads : ∀ d ∈ list, ∀ k, linkId d k ≠ 0xffffffff → ∃ c ∈ list, c.id = linkId d k
  once : ∀ a ∈ list, ∀ b ∈ list, ∀ k l, linkId a k = linkId b l → linkId a k ≠ 0xffffffff →
    a = b ∧ k = l

/-- The entries of the binary tree of siblings that starts at the identifier `i`. -/
inductive Siblings (list : List DirEntry) : Nat → List DirEntry → Prop
  | none : Siblings list 0xffffffff []
  | node {d : DirEntry} {l r : List DirEntry} : d ∈ list → d.id ≠ 0xffffffff →
      Siblings list d.prev l → Siblings list d.next r → Siblings list d.id (l ++ d :: r)

/-- A long stream: a chain of sectors with the data and possibly more. -/
def LongData (content : Bytes) (ss : Nat) (sat : List Nat) (start : Nat) (data : Bytes) : Prop :=
  ∃ ids last secs, Chain sat start ids last ∧ ids.Nodup ∧ SectorsAre content ss ids secs ∧
    data <+: secs.flatten

/-- A short stream: a chain of short sectors of the container with the data and possibly more. -/
def ShortData (container : Bytes) (short : Nat) (ssat : List Nat) (start : Nat) (data : Bytes) :
    Prop :=
  ∃ ids last, Chain ssat start ids last ∧ ids.Nodup ∧
    (∀ n ∈ ids, (n + 1) * short ≤ container.length) ∧
    data <+: ids.flatMap (fun n => (container.drop (n * short)).take short)

/-- The entry `d` of the directory `list` holds the document: a stream has its data in sectors or, if
  it is smaller than the limit of the header, in short sectors, and no sub link; a storage has its
  parts in the siblings of its sub link. -/
inductive Holds (content : Bytes) (h : HeaderFields) (sat ssat : List Nat) (container : Bytes)
    (list : List DirEntry) : DirEntry → Doc → Prop
  | stream {d : DirEntry} {data : Bytes} : d.type = 2 → d.sub = 0xffffffff →
      d.size = data.length →
      (d.size < h.minStreamSize → ShortData container (2 ^ h.shortExp) ssat d.start data) →
      (h.minStreamSize ≤ d.size → LongData content (2 ^ h.sectorExp) sat d.start data) →
      Holds content h sat ssat container list d (.stream data)
  | storage {d : DirEntry} {kids : List (Bytes × Doc)} {es : List DirEntry} :
      d.type = 1 ∨ d.type = 5 → Siblings list d.sub es → es.length = kids.length →
      (∀ (i : Nat) (c : DirEntry) (k : Bytes × Doc), es[i]? = some c → kids[i]? = some k →
        c.name = k.1) →
      (∀ (i : Nat) (c : DirEntry) (k : Bytes × Doc), es[i]? = some c → kids[i]? = some k →
        Holds content h sat ssat container list c k.2) →
      Holds content h sat ssat container list d (.storage kids)

/-- The file holds the document, with the given header and directory. -/
def HeldBy (content : Bytes) (h : HeaderFields) (slots : List SlotFields) (doc : Doc) : Prop :=
  ∃ e sat ssat root cids clast csecs,
    Layout content e h sat ssat slots ∧
    GoodLinks (entriesOfSlots slots) root ∧
    h.shortExp ≤ h.sectorExp ∧
    Chain sat root.start cids clast ∧ SectorsAre content (2 ^ h.sectorExp) cids csecs ∧
    Holds content h sat ssat csecs.flatten (entriesOfSlots slots) root doc

/-- The file holds the document, with a directory whose entries have the given names. -/
def FileHolds (content : Bytes) (names : List Bytes) (doc : Doc) : Prop :=
  ∃ h slots, HeldBy content h slots doc ∧ names = (entriesOfSlots slots).map (·.name)

/-- The comparison of a name with the names of the two summary information streams does not fail;
  it takes place for names of exactly 28 and 20 bytes only. -/
def Comparable (cmp : Bytes → Bytes → Option Bool) (name : Bytes) : Prop :=
  (name.length = 28 → cmp docSummaryName name ≠ none) ∧
  (name.length = 20 → cmp summaryName name ≠ none)

/-! ### How a document looks through the library -/

/-- The item `it` of an opened file shows the document: a stream has no sub items and the size of the
  data, and every read at every position gives the data there; a storage has as many sub items as parts, and they
  are, in some order, the parts with their names. -/
inductive Shows (t : Tree) (f : FileCtx) : Item → Doc → Prop
  | stream {it : Item} {data : Bytes} : it.entry.type = 2 → numberOfSubItems t it = 0 →
      it.entry.size = data.length →
      (∀ cur size : Nat, size ≤ 2 ^ 63 - 1 →
        (streamRead f it.entry cur size).1.res = .ok ((data.drop cur).take size)) →
      Shows t f it (.stream data)
  | storage {it : Item} {kids kids' : List (Bytes × Doc)} {items : List Item} :
      it.entry.type = 1 ∨ it.entry.type = 5 →
      numberOfSubItems t it = items.length →
      (∀ (i : Nat) (c : Item), getSubItem t it i = .ok c ↔ items[i]? = some c) →
      kids'.Perm kids → items.length = kids'.length →
      (∀ (i : Nat) (c : Item) (k : Bytes × Doc), items[i]? = some c → kids'[i]? = some k →
        c.entry.name = k.1) →
      (∀ (i : Nat) (c : Item) (k : Bytes × Doc), items[i]? = some c → kids'[i]? = some k →
        Shows t f c k.2) →
      Shows t f it (.storage kids)

end Olecf.Spec
