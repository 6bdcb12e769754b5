import Verif.Spec.Layout

/-
  A writer of files: it stores a document as the format describes.  It is part of the
  specification; the library only reads.  Everything is stored in runs of consecutive sectors, in the
  order: directory, short sector table, short stream container, long streams, sector table, further
  sectors of the master table.
-/

namespace Olecf.Spec

/-- The markers of the tables: end of a chain, unused, sector of the sector table, sector of the
  master table; in links between entries 0xffffffff is "none". -/
def endOfChain : Nat := 0xfffffffe
def free : Nat := 0xffffffff
def satMark : Nat := 0xfffffffd
def msatMark : Nat := 0xfffffffc

/-- What an entry of the directory has besides name, links and data: color, class identifier, flags,
  the two times and the last four bytes. -/
structure EntryMarks where
  color : Nat := 1
  classId : Bytes := List.replicate 16 0
  flags : Nat := 0
  created : Nat := 0
  modified : Nat := 0
  reserved : Nat := 0

structure EntryMarks.Fits (m : EntryMarks) : Prop where
  color : m.color < 2 ^ 8
  classId : m.classId.length = 16
  flags : m.flags < 2 ^ 32
  created : m.created < 2 ^ 64
  modified : m.modified < 2 ^ 64
  reserved : m.reserved < 2 ^ 32

/-- What a file has besides its document: the signature of the beta versions or the usual one, class
  identifier, version, the unused bytes of the header and the transaction number, and what the entries
  have, by position: the root is at 0, the parts follow in the order of the document. -/
structure Marks where
  beta : Bool := false
  classId : Bytes := List.replicate 16 0
  minor : Nat := 0x3e
  major : Nat := 3
  reserved : Bytes := List.replicate 10 0
  transaction : Bytes := List.replicate 4 0
  entry : Nat → EntryMarks := fun _ => {}

structure Marks.Fits (m : Marks) : Prop where
  classId : m.classId.length = 16
  minor : m.minor < 2 ^ 16
  major : m.major < 2 ^ 16
  reserved : m.reserved.length = 10
  transaction : m.transaction.length = 4
  entry : ∀ i, (m.entry i).Fits

/-- The choices of a writer: the byte order, the size of sectors and of short sectors (as powers of
  two), the size from which on streams are stored in long sectors, and what the file has besides its
  document. -/
structure Writer where
  order : Endian
  sectorExp : Nat
  shortExp : Nat
  cutoff : Nat
  marks : Marks

def Writer.ss (w : Writer) : Nat := 2 ^ w.sectorExp
def Writer.short (w : Writer) : Nat := 2 ^ w.shortExp
/-- The number of table entries and of directory slots in a sector. -/
def Writer.perSector (w : Writer) : Nat := 2 ^ (w.sectorExp - 2)
def Writer.slotsPerSector (w : Writer) : Nat := 2 ^ (w.sectorExp - 7)

/-! ### Runs of sectors -/

/-- The number of units of `u` needed for `n`. -/
def units (u n : Nat) : Nat := (n + u - 1) / u

/-- Fill up to a multiple of `u`. -/
def padUp {α : Type} (u : Nat) (x : α) (l : List α) : List α :=
  l ++ List.replicate (units u l.length * u - l.length) x

/-- Cut into pieces of `u`. -/
def chunk {α : Type} (u : Nat) (l : List α) : List (List α) :=
  (List.range (l.length / u)).map fun i => (l.drop (u * i)).take u

/-- The sectors of `u` bytes of some data, the last one filled up with zeros. -/
def blocks (u : Nat) (d : Bytes) : List Bytes := chunk u (padUp u 0 d)

/-- The links of a run of `n` sectors from `b` on: each leads to the one after it. -/
def runLinks (b n : Nat) : List Nat :=
  (List.range n).map fun i => if i + 1 = n then endOfChain else b + i + 1

/-- The links of consecutive runs, of the given lengths, from `b` on. -/
def links : Nat → List Nat → List Nat
  | _, [] => []
  | b, n :: ns => runLinks b n ++ links (b + n) ns

/-- The start of a run: nothing is stored for an empty one. -/
def startOf (b n : Nat) : Nat := if n = 0 then endOfChain else b

/-! ### The directory -/

mutual
/-- The number of entries of a document. -/
def Doc.count : Doc → Nat
  | .stream _ => 1
  | .storage kids => 1 + countKids kids

def countKids : List (Bytes × Doc) → Nat
  | [] => 0
  | (_, d) :: r => d.count + countKids r
end

mutual
/-- The streams of a document, in the order of their entries. -/
def Doc.streams : Doc → List Bytes
  | .stream data => [data]
  | .storage kids => streamsOfKids kids

def streamsOfKids : List (Bytes × Doc) → List Bytes
  | [] => []
  | (_, d) :: r => d.streams ++ streamsOfKids r
end

mutual
/-- The names in a document. -/
def Doc.names : Doc → List Bytes
  | .stream _ => []
  | .storage kids => namesOfKids kids

def namesOfKids : List (Bytes × Doc) → List Bytes
  | [] => []
  | (n, d) :: r => n :: (d.names ++ namesOfKids r)
end

/-- The streams stored in long and in short sectors. -/
def Writer.longs (w : Writer) (ds : List Bytes) : List Bytes := ds.filter fun d => w.cutoff ≤ d.length
def Writer.shorts (w : Writer) (ds : List Bytes) : List Bytes := ds.filter fun d => d.length < w.cutoff

/-- The numbers of sectors and of short sectors of streams. -/
def Writer.longUnits (w : Writer) (ds : List Bytes) : Nat :=
  ((w.longs ds).map fun d => units w.ss d.length).sum
def Writer.shortUnits (w : Writer) (ds : List Bytes) : Nat :=
  ((w.shorts ds).map fun d => units w.short d.length).sum

/-- A slot without a previous sibling. -/
def plainSlot (m : EntryMarks) (name : Bytes) (type next sub start size : Nat) : SlotFields where
  name := name ++ List.replicate (64 - name.length) 0
  nameSize := name.length
  type := type
  color := m.color
  prev := free
  next := next
  sub := sub
  classId := m.classId
  flags := m.flags
  created := m.created
  modified := m.modified
  start := start
  size := size
  reserved := m.reserved

def emptySlot : SlotFields := plainSlot {} [] 0 free free 0 0

mutual
/-- The slots of a document from position `i` on: `l` and `s` are the next unused sector and short
  sector, `next` is the link to the next sibling. -/
def slotsOf (w : Writer) (l s i next : Nat) (name : Bytes) : Doc → List SlotFields
  | .stream data =>
    [plainSlot (w.marks.entry i) name 2 next free
      (if data.length < w.cutoff then startOf s (units w.short data.length)
       else startOf l (units w.ss data.length)) data.length]
  | .storage kids =>
    plainSlot (w.marks.entry i) name 1 next (if kids.isEmpty then free else i + 1) endOfChain 0 ::
      slotsOfKids w l s (i + 1) kids

def slotsOfKids (w : Writer) (l s i : Nat) : List (Bytes × Doc) → List SlotFields
  | [] => []
  | (name, d) :: r =>
    slotsOf w l s i (if r.isEmpty then free else i + d.count) name d ++
      slotsOfKids w (l + w.longUnits d.streams) (s + w.shortUnits d.streams) (i + d.count) r
end

/-! ### The file -/

section
variable (w : Writer) (kids : List (Bytes × Doc))

/-- The short sectors and the container they form. -/
def shortSectors : List Bytes := (w.shorts (streamsOfKids kids)).flatMap (blocks w.short)
def containerOf : Bytes := (shortSectors w kids).flatten
def containerSectors : List Bytes := blocks w.ss (containerOf w kids)

/-- The short sector table. -/
def ssatOf : List Nat :=
  padUp w.perSector free
    (links 0 ((w.shorts (streamsOfKids kids)).map fun d => units w.short d.length))
def ssatSectorsOf : List Bytes := (chunk w.perSector (ssatOf w kids)).map (enc32s w.order)

/-- The number of directory sectors; the first sectors of the short sector table, of the container
  and of the long streams. -/
def dirCount : Nat := units w.slotsPerSector (1 + countKids kids)
def ssatBase : Nat := dirCount w kids
def containerBase : Nat := ssatBase w kids + (ssatSectorsOf w kids).length
def longBase : Nat := containerBase w kids + (containerSectors w kids).length

/-- "Root Entry" with end-of-string character, two bytes per character. -/
def rootName (e : Endian) : Bytes :=
  ([82, 111, 111, 116, 32, 69, 110, 116, 114, 121, 0] : Bytes).flatMap fun c =>
    match e with
    | .little => [c, 0]
    | .big => [0, c]

def rootSlot : SlotFields :=
  plainSlot (w.marks.entry 0) (rootName w.order) 5 free 1
    (startOf (containerBase w kids) (containerSectors w kids).length) (containerOf w kids).length

def slotsOfFile : List SlotFields :=
  padUp w.slotsPerSector emptySlot
    (rootSlot w kids :: slotsOfKids w (longBase w kids) 0 1 kids)
def dirSectorsOf : List Bytes :=
  (chunk w.slotsPerSector (slotsOfFile w kids)).map fun c => (c.map (encodeSlot w.order)).flatten

/-- The runs of sectors of the file before the sector table. -/
def runs : List (List Bytes) :=
  dirSectorsOf w kids :: ssatSectorsOf w kids :: containerSectors w kids ::
    (w.longs (streamsOfKids kids)).map (blocks w.ss)
def runCount : Nat := ((runs w kids).map List.length).sum

/-- The numbers of sectors of the sector table (which has entries for its own sectors and those of
  the master table too) and of further sectors of the master table. -/
def satCount : Nat := units (w.perSector - 2) (runCount w kids)
def msatCount : Nat := units (w.perSector - 1) (satCount w kids - 109)

/-- The sector table. -/
def satOf : List Nat :=
  let used := links 0 ((runs w kids).map List.length) ++
    List.replicate (satCount w kids) satMark ++ List.replicate (msatCount w kids) msatMark
  used ++ List.replicate (satCount w kids * w.perSector - used.length) free
def satSectorsOf : List Bytes := (chunk w.perSector (satOf w kids)).map (enc32s w.order)

/-- The identifiers of the sectors of the sector table: 109 are in the header, the others in the
  sectors of the master table, which end with the identifier of the next one. -/
def satIds : List Nat := List.range' (runCount w kids) (satCount w kids)
def headerMsatOf : List Nat :=
  (satIds w kids).take 109 ++ List.replicate (109 - (satIds w kids).length) free
def msatBase : Nat := runCount w kids + satCount w kids
def msatSectorsOf : List Bytes :=
  (chunk (w.perSector - 1) (padUp (w.perSector - 1) free ((satIds w kids).drop 109))).mapIdx
    fun j c => enc32s w.order
      (c ++ [if j + 1 = msatCount w kids then endOfChain else msatBase w kids + j + 1])

def headerOfFile : HeaderFields where
  beta := w.marks.beta
  classId := w.marks.classId
  minor := w.marks.minor
  major := w.marks.major
  sectorExp := w.sectorExp
  shortExp := w.shortExp
  reserved := w.marks.reserved
  satSectors := satCount w kids
  rootDirSector := 0
  transaction := w.marks.transaction
  minStreamSize := w.cutoff
  ssatSector := startOf (ssatBase w kids) (ssatSectorsOf w kids).length
  ssatSectors := (ssatSectorsOf w kids).length
  msatSector := startOf (msatBase w kids) (msatCount w kids)
  msatSectors := msatCount w kids
  msat := headerMsatOf w kids

/-- The file with the document: the header takes the place of one sector. -/
def encodeFile : Bytes :=
  encodeHeader w.order (headerOfFile w kids) ++ List.replicate (w.ss - 512) 0 ++
    ((runs w kids).flatten ++ satSectorsOf w kids ++ msatSectorsOf w kids).flatten

/-- The document is within the limits of the format and of the library: there is something in it;
  names of at most 64 bytes; streams of less than 2^32 bytes; at most 257 sectors of the master table
  and of the short sector table, 2^25 entries of the sector table, 1025 directory sectors. -/
structure Storable : Prop where
  sectorExp : 9 ≤ w.sectorExp ∧ w.sectorExp ≤ 15
  shortExp : w.shortExp ≤ w.sectorExp
  cutoff : w.cutoff < 2 ^ 32
  marks : w.marks.Fits
  nonempty : kids ≠ []
  names : ∀ n ∈ namesOfKids kids, n.length ≤ 64
  streams : ∀ d ∈ streamsOfKids kids, d.length < 2 ^ 32
  container : (containerOf w kids).length < 2 ^ 32
  directory : dirCount w kids ≤ 1025
  ssat : (ssatSectorsOf w kids).length ≤ 257
  msat : msatCount w kids ≤ 257
  sat : satCount w kids * w.ss ≤ 2 ^ 27

end

end Olecf.Spec
