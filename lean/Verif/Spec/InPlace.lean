import Verif.Spec.Unused

/-
  Specification: a file in which the data of one stream was replaced in place.  No reference to the code that reads
  files.
-/

namespace Olecf.Spec

/-- `Reaches table a j`: the chain that starts at `a` comes to `j`, which has an entry in the table. -/
inductive Reaches (table : List Nat) : Nat → Nat → Prop
  | here {a : Nat} : a < table.length → Reaches table a a
  | next {a n j : Nat} : table[a]? = some n → Reaches table n j → Reaches table a j

/-- The sectors of the tables and of the directory. -/
inductive TableSector (content : Bytes) (e : Endian) (h : HeaderFields) (sat : List Nat) : Nat → Prop
  | msat {j : Nat} : OnMsat content e (2 ^ h.sectorExp) h.msatSector j → TableSector content e h sat j
  | listed {j : Nat} : j ∈ h.msat → j ≠ 0xffffffff → TableSector content e h sat j
  | further {i j : Nat} {s : Bytes} : OnMsat content e (2 ^ h.sectorExp) h.msatSector i →
      sector (Dev.ofBytes content) (2 ^ h.sectorExp) i = some s → j ∈ msatEntries e s → j ≠ 0xffffffff →
      TableSector content e h sat j
  | ssat {j : Nat} : Reaches sat h.ssatSector j → TableSector content e h sat j
  | directory {j : Nat} : Reaches sat h.rootDirSector j → TableSector content e h sat j

/-- The sectors of the long streams other than `d`. -/
def OtherStreamSector (h : HeaderFields) (sat : List Nat) (list : List DirEntry) (d : DirEntry) (j : Nat) : Prop :=
  ∃ c ∈ list, c ≠ d ∧ c.type = 2 ∧ h.minStreamSize ≤ c.size ∧ Reaches sat c.start j

/-- The two files have the same bytes in the header and in all the sectors with `P`. -/
def SameIn (content content' : Bytes) (h : HeaderFields) (P : Nat → Prop) : Prop :=
  ∀ p, (p < 512 ∨ ∃ j, P j ∧ sectorPos (2 ^ h.sectorExp) j ≤ p ∧
    p < sectorPos (2 ^ h.sectorExp) j + 2 ^ h.sectorExp) → content'[p]? = content[p]?

/-- `Replaced list d data a doc doc'`: the documents of the entry `a` are the same, but for the streams that are held
  by the entry `d`, which have the data `data` in the second. -/
inductive Replaced (list : List DirEntry) (d : DirEntry) (data : Bytes) : DirEntry → Doc → Doc → Prop
  | this (old : Bytes) : Replaced list d data d (.stream old) (.stream data)
  | other {c : DirEntry} (x : Bytes) : c ≠ d → Replaced list d data c (.stream x) (.stream x)
  | storage {a : DirEntry} {es : List DirEntry} {kids kids' : List (Bytes × Doc)} : Siblings list a.sub es →
      es.length = kids.length → kids'.map (·.1) = kids.map (·.1) →
      (∀ (i : Nat) (c : DirEntry) (k k' : Bytes × Doc), es[i]? = some c → kids[i]? = some k → kids'[i]? = some k' →
        Replaced list d data c k.2 k'.2) →
      Replaced list d data a (.storage kids) (.storage kids')

end Olecf.Spec
