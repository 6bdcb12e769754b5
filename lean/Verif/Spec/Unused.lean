import Verif.Spec.Layout

/-
  Specification: which bytes of a file are in use.  No reference to the code that reads files.
-/

namespace Olecf.Spec

/-- `OnMsat content e ss a j`: the chain of master table sectors that starts at `a` comes to the sector `j`. -/
inductive OnMsat (content : Bytes) (e : Endian) (ss : Nat) : Nat → Nat → Prop
  | here {a : Nat} : a ≠ 0xfffffffe → OnMsat content e ss a a
  | next {a j : Nat} {s : Bytes} : a ≠ 0xfffffffe → sector (Dev.ofBytes content) ss a = some s →
      OnMsat content e ss (msatLink e s) j → OnMsat content e ss a j

/-- The sectors to which anything in the file refers: the master table sectors; the sectors of the sector table; and
  the sectors, within the sector table, to which an entry of that table, the header or a directory entry refers. -/
inductive Referenced (content : Bytes) (e : Endian) (h : HeaderFields) (sat : List Nat) (slots : List SlotFields) :
    Nat → Prop
  | msat {j : Nat} : OnMsat content e (2 ^ h.sectorExp) h.msatSector j → Referenced content e h sat slots j
  | listed {j : Nat} : j ∈ h.msat → j ≠ 0xffffffff → Referenced content e h sat slots j
  | further {i j : Nat} {s : Bytes} : OnMsat content e (2 ^ h.sectorExp) h.msatSector i →
      sector (Dev.ofBytes content) (2 ^ h.sectorExp) i = some s → j ∈ msatEntries e s → j ≠ 0xffffffff →
      Referenced content e h sat slots j
  | link {j : Nat} : j ∈ sat → j < sat.length → Referenced content e h sat slots j
  | ssat : h.ssatSector < sat.length → Referenced content e h sat slots h.ssatSector
  | directory : h.rootDirSector < sat.length → Referenced content e h sat slots h.rootDirSector
  | start {d : DirEntry} : d ∈ entriesOfSlots slots → d.start < sat.length → Referenced content e h sat slots d.start

/-- The byte at position `p` is in use: it is in the header or in a sector to which something refers. -/
def InUse (content : Bytes) (e : Endian) (h : HeaderFields) (sat : List Nat) (slots : List SlotFields) (p : Nat) :
    Prop :=
  p < 512 ∨ ∃ j, Referenced content e h sat slots j ∧ sectorPos (2 ^ h.sectorExp) j ≤ p ∧
    p < sectorPos (2 ^ h.sectorExp) j + 2 ^ h.sectorExp

/-- Nothing refers to a sector that the sector table marks as free. -/
def FreeUnused (content : Bytes) (e : Endian) (h : HeaderFields) (sat : List Nat) (slots : List SlotFields) : Prop :=
  ∀ j, Referenced content e h sat slots j → sat[j]? ≠ some 0xffffffff

/-- The byte at position `p` is behind the header and in a sector that the sector table marks as free. -/
def InFree (h : HeaderFields) (sat : List Nat) (p : Nat) : Prop :=
  512 ≤ p ∧ ∃ i, sat[i]? = some 0xffffffff ∧ (i + 1) * 2 ^ h.sectorExp ≤ p ∧ p < (i + 2) * 2 ^ h.sectorExp

end Olecf.Spec
