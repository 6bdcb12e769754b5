import Verif.Model.Stream
import Verif.Spec.Tables

/-
  Specification of the content of streams: where in the file byte `i` of a stream lies.
-/

namespace Olecf.Spec

/-- The `k`-th sector (from 0) of the chain that starts at `a`. -/
def nth (table : List Nat) (a : Nat) : Nat → Option Nat
  | 0 => some a
  | k + 1 => match table[a]? with
    | some b => nth table b k
    | none => none

/-- A small stream: it is stored in short sectors. -/
def Small (f : FileCtx) (d : DirEntry) : Prop := d.size < f.io.minStreamSize

instance (f d) : Decidable (Small f d) := inferInstanceAs (Decidable (_ < _))

/-- The size of the sectors of a stream, and the table that links them. -/
def unitOf (f : FileCtx) (d : DirEntry) : Nat :=
  if Small f d then f.io.shortSectorSize else f.io.sectorSize

def tableOf (f : FileCtx) (d : DirEntry) : List Nat :=
  if Small f d then f.ssat.ids else f.sat.ids

/-- The position in the file of byte `b` of the short stream container: the chain of (long)
  sectors from the start sector of the root storage. -/
def containerPos (f : FileCtx) (b : Nat) : Option Nat :=
  match nth f.sat.ids f.io.shortStreamStart (b / f.io.sectorSize) with
  | some c => some (sectorPos f.io.sectorSize c + b % f.io.sectorSize)
  | none => none

/-- The position in the file of byte `i` of a stream: byte `i mod u` of sector `i div u` of its
  chain, `u` being the sector size; short sector `n` is the bytes of the container from `n * u`
  on. -/
def bytePos (f : FileCtx) (d : DirEntry) (i : Nat) : Option Nat :=
  match nth (tableOf f d) d.start (i / unitOf f d) with
  | some id =>
    if Small f d then containerPos f (id * f.io.shortSectorSize + i % f.io.shortSectorSize)
    else some (sectorPos f.io.sectorSize id + i % f.io.sectorSize)
  | none => none

/-- Byte `i` of a stream of a file with the given content. -/
def streamByte (content : Bytes) (f : FileCtx) (d : DirEntry) (i : Nat) : Option UInt8 :=
  match bytePos f d i with
  | some p => content[p]?
  | none => none

/-- What an open file satisfies: sector sizes as a header can declare them (C03), tables within
  their limit and of 32-bit values (C06). -/
structure WellFormedCtx (f : FileCtx) : Prop where
  ss : 0 < f.io.sectorSize ∧ f.io.sectorSize ≤ 32768
  short : 0 < f.io.shortSectorSize ∧ f.io.shortSectorSize ≤ 32768
  start : f.io.shortStreamStart < 2 ^ 32
  sat : f.sat.ids.length ≤ 2 ^ 25 ∧ ∀ v ∈ f.sat.ids, v < 2 ^ 32
  ssat : f.ssat.ids.length ≤ 2 ^ 25 ∧ ∀ v ∈ f.ssat.ids, v < 2 ^ 32

/-- The ranges of the fields of a directory entry. -/
structure EntryFits (d : DirEntry) : Prop where
  start : d.start < 2 ^ 32
  size : d.size < 2 ^ 32

/-- What is assumed of a stream: its fields are in range, it is a stream, and its size needs at
  most 2^31 - 1 sectors (always the case for sectors of 4 bytes and more, see C50). -/
structure StreamOk (f : FileCtx) (d : DirEntry) : Prop where
  fits : EntryFits d
  isStream : d.type = 2
  sectors : d.size ≤ unitOf f d * 2147483647

/-- Short sectors do not straddle sectors.  Both sizes are powers of two (C03), so this says that
  the short sectors are not larger than the sectors. -/
def Nested (f : FileCtx) (d : DirEntry) : Prop :=
  Small f d → f.io.shortSectorSize ∣ f.io.sectorSize

/-! ### Histories -/

/-- An operation of a user on one of the items of an open file. -/
inductive StreamOp where
  | read (item size : Nat)
  | seek (item : Nat) (offset : Int) (whence : Whence)
  | readAt (item size : Nat) (offset : Int)

/-- The offsets of all items after one operation. -/
def StreamOp.run (f : FileCtx) (items : Nat → DirEntry) (st : Nat → Int) : StreamOp → Nat → Int
  | .read i size => fun k => if k = i then (streamRead f (items i) (st i) size).2 else st k
  | .seek i o w => fun k => if k = i then (streamSeek (items i) (st i) o w).2 else st k
  | .readAt i size o => fun k => if k = i then (streamReadAt f (items i) (st i) size o).2 else st k

/-- The offsets after a history that starts with fresh items (offset 0). -/
def offsetsAfter (f : FileCtx) (items : Nat → DirEntry) (ops : List StreamOp) : Nat → Int :=
  ops.foldl (fun st op => op.run f items st) (fun _ => 0)

/-- A sequence of reads: the data of every one, if all succeed. -/
def readAll (f : FileCtx) (d : DirEntry) : Int → List Nat → Option (List Bytes)
  | _, [] => some []
  | cur, size :: sizes =>
    match (streamRead f d cur size).1.res with
    | .ok data => (readAll f d (streamRead f d cur size).2 sizes).map (data :: ·)
    | _ => none

end Olecf.Spec
