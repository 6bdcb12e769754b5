import Verif.Spec.Bytes
import Verif.Model.AllocTable

/-
  Specification of the three allocation tables, in terms of the sectors a device
  delivers.  No reference to the table readers.
-/

namespace Olecf.Spec

/-- Position in the file of the sector with identifier `id`: sectors are numbered from 0
  after a header that takes the place of one sector.  (The library forms `id + 1` in 32
  bits, so that the identifier 0xffffffff, which marks unused entries and is no sector,
  has position 0.) -/
def sectorPos (ss id : Nat) : Nat := if id = 0xffffffff then 0 else (id + 1) * ss

/-- The sector with identifier `id`, if the device delivers all of it. -/
def sector (dev : Dev) (ss id : Nat) : Option Bytes := dev.get (sectorPos ss id) ss

/-- `Chain table a ids b`: following `table` from `a` visits exactly `ids`, in order, and
  the link of the last one is `b`. -/
inductive Chain (table : List Nat) : Nat → List Nat → Nat → Prop
  | nil (a : Nat) : Chain table a [] a
  | cons {a nxt b : Nat} {ids : List Nat} :
      table[a]? = some nxt → Chain table nxt ids b → Chain table a (a :: ids) b

/-- The first (at most) `n` sectors of the chain that starts at `a`: it ends at the
  markers 0xfffffffe (end of chain) and 0xffffffff (unused) and where the table has no
  entry. -/
def follow (table : List Nat) : Nat → Nat → List Nat
  | 0, _ => []
  | n + 1, a =>
    if a = 0xfffffffe ∨ a = 0xffffffff then []
    else a :: match table[a]? with
      | some nxt => follow table n nxt
      | none => []

/-- The table entries of a master table sector: all its words except the link. -/
def msatEntries (e : Endian) (s : Bytes) : List Nat := (words e s).dropLast

/-- The link to the next master table sector: the last word. -/
def msatLink (e : Endian) (s : Bytes) : Nat := (words e s).getLastD 0

/-- The first (at most) `n` sectors of the chain of master table sectors that starts at
  `a`, and the identifier that follows them; `none` if one of them cannot be read. -/
def msatChain (dev : Dev) (e : Endian) (ss : Nat) : Nat → Nat → Option (List Bytes × Nat)
  | 0, a => some ([], a)
  | n + 1, a =>
    if a = 0xfffffffe then some ([], a)
    else match sector dev ss a with
      | none => none
      | some s => match msatChain dev e ss n (msatLink e s) with
        | none => none
        | some (secs, b) => some (s :: secs, b)

/-- A readable chain of master table sectors: `MsatSectors dev e ss a secs` when the sectors
  met from identifier `a` to the end of the chain are `secs`. -/
inductive MsatSectors (dev : Dev) (e : Endian) (ss : Nat) : Nat → List Bytes → Prop
  | done : MsatSectors dev e ss 0xfffffffe []
  | step {a : Nat} {s : Bytes} {secs : List Bytes} :
      a ≠ 0xfffffffe → sector dev ss a = some s → MsatSectors dev e ss (msatLink e s) secs →
      MsatSectors dev e ss a (s :: secs)

/-- Extend a list with zeros to length `n`. -/
def padTo (n : Nat) (l : List Nat) : List Nat := l ++ List.replicate (n - l.length) 0

/-- The sectors of a list of identifiers up to the first one that cannot be read. -/
def readable (dev : Dev) (ss : Nat) : List Nat → List Bytes
  | [] => []
  | id :: ids => match sector dev ss id with
    | some s => s :: readable dev ss ids
    | none => []

/-- Number of entries of a table of `count` sectors of `entries` entries each, as the
  library computes it: in 32 bits, and no table at all above the limit of 2^25 entries.
  For every table within the limit this is `count * entries`. -/
def tableSize (count entries : Nat) : Nat :=
  if count * entries % 2 ^ 32 ≤ 2 ^ 25 then count * entries % 2 ^ 32 else 0

end Olecf.Spec
