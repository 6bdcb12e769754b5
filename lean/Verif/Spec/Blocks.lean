import Verif.Spec.Layout

/-
  Specification of the unallocated blocks of a file.
-/

namespace Olecf.Spec

/-- A sector that is in the file and that the sector table marks as free. -/
def FreeSector (content : Bytes) (ss : Nat) (sat : List Nat) (i : Nat) : Prop :=
  sat[i]? = some 0xffffffff ∧ (i + 2) * ss ≤ content.length

/-- The byte at a position is in a free sector; the sectors follow a header of the size of a sector. -/
def FreeByte (content : Bytes) (ss : Nat) (sat : List Nat) (p : Nat) : Prop :=
  ∃ i, FreeSector content ss sat i ∧ (i + 1) * ss ≤ p ∧ p < (i + 2) * ss

/-- Blocks (offset, size) are the unallocated ones: they cover exactly the bytes of free sectors. -/
def AreUnallocated (content : Bytes) (ss : Nat) (sat : List Nat) (blocks : List (Nat × Nat)) : Prop :=
  ∀ p, FreeByte content ss sat p ↔ ∃ b ∈ blocks, b.1 ≤ p ∧ p < b.1 + b.2

end Olecf.Spec
