import Verif.Model.Base

/-
  libolecf/libolecf_allocation_table.c
-/

namespace Olecf

/-- `libolecf_allocation_table_t` (libolecf_allocation_table.h): the number of
  identifiers and the array are kept together, so the model has one list;
  `number_of_sector_identifiers` is its length. -/
structure AllocTable where
  ids : List Nat
  deriving Repr, DecidableEq

namespace AllocTable

/-- `number_of_sector_identifiers`. -/
abbrev n (t : AllocTable) : Nat := t.ids.length

/-- The number of identifiers `initialize` and `resize` accept
  (libolecf_allocation_table.c:63-64 and 218-219):
  `MEMORY_MAXIMUM_ALLOCATION_SIZE / sizeof( uint32_t )`. -/
def maxIds : Nat := MAX_ALLOC / 4

/-- `libolecf_allocation_table_initialize`, libolecf_allocation_table.c:33-158. -/
def init (k : Int) : Res AllocTable :=
  if k < 0 ∨ k.toNat > maxIds then .err
  else .ok ⟨List.replicate k.toNat 0⟩

/-- `libolecf_allocation_table_resize`, libolecf_allocation_table.c:198-268. -/
def resize (t : AllocTable) (k : Int) : Res AllocTable :=
  if k < 0 ∨ k.toNat > maxIds then .err
  else if (t.n : Int) < k then .ok ⟨t.ids ++ List.replicate (k.toNat - t.n) 0⟩
  else .ok t

/-- `libolecf_allocation_table_get_sector_identifier_by_index`,
  libolecf_allocation_table.c:273-318.  The array access is undefined outside of the
  array. -/
def get (t : AllocTable) (i : Int) : Res Nat :=
  if i < 0 ∨ i ≥ t.n then .err
  else match t.ids[i.toNat]? with
    | some v => .ok v
    | none => .ub

/-- The assignment `table->sector_identifiers[ index ] = value` performed by the
  table readers (libolecf_file_header.c:531-539, libolecf_io_handle.c:429-437,
  677-685, 941-943); undefined outside of the array. -/
def store (t : AllocTable) (i : Nat) (v : Nat) : Res AllocTable :=
  if i < t.n then .ok ⟨t.ids.set i v⟩ else .ub

/-- The successor of a sector in a chain, as every chain walk obtains it
  (libolecf_io_handle.c:966-995, 1351-1379, 1512-1539, 1580-1603, 1683-1711): an
  identifier above `INT_MAX` is an error, as is an index outside of the table. -/
def next (t : AllocTable) (id : Nat) : Res Nat :=
  if id > INT_MAX then .err else t.get id

end AllocTable
end Olecf
