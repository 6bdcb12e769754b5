import Verif.Model.Directory

/-
  libolecf/libolecf_directory_tree.c
-/

namespace Olecf

/-- A node of the directory tree (`libcdata_tree_node_t`): `none` is the root node,
  `some id` the node that was created for the entry with identifier `id`.  Because of the
  `set_in_tree` marks at most one node is ever created per entry in addition to the root
  node, so this names the nodes uniquely. -/
abbrev NodeKey := Option Nat

/-- The tree under construction: the entries whose `set_in_tree` flag is set, and for each
  node the values of its sub nodes, in order. -/
structure TreeState where
  marks : List Nat
  kids : NodeKey → List DirEntry

/-- `libcdata_tree_node_insert_node` with `libolecf_directory_entry_compare`
  (libolecf_directory_entry.c:186-224) and `LIBCDATA_INSERT_FLAG_UNIQUE_ENTRIES`: insertion
  in increasing order of the identifiers; `none` when an equal one is present (return value
  0).  Contract of libcdata, which is not part of the repository. -/
def insertUnique (c : DirEntry) : List DirEntry → Option (List DirEntry)
  | [] => some [c]
  | d :: rest =>
    if c.id < d.id then some (c :: d :: rest)
    else if c.id = d.id then none
    else match insertUnique c rest with
      | some rest => some (d :: rest)
      | none => none

/-- The check of a linked entry, the creation of its node, the insertion under `parent` and
  the mark: libolecf_directory_tree.c:426-480 (sub), 542-610 (previous), 672-740 (next).  A
  root node has no parent: `libcdata_tree_node_get_parent_node` gives NULL and the
  insertion fails. -/
def attach (parent : Option NodeKey) (c : DirEntry) (st : TreeState) : Res TreeState :=
  if c.id ∈ st.marks then .err
  else match parent with
    | none => .err
    | some p => match insertUnique c (st.kids p) with
      | none => .err
      | some l => .ok ⟨c.id :: st.marks, fun k => if k = p then l else st.kids k⟩

/-- The name of the document summary information stream as passed to libuna,
  libolecf_directory_tree.c:338 (28 bytes with the end of string). -/
def docSummaryName : Bytes :=
  [5, 68, 111, 99, 117, 109, 101, 110, 116, 83, 117, 109, 109, 97, 114, 121, 73, 110, 102, 111,
   114, 109, 97, 116, 105, 111, 110, 0]

/-- The name of the summary information stream, libolecf_directory_tree.c:364 (20 bytes). -/
def summaryName : Bytes :=
  [5, 83, 117, 109, 109, 97, 114, 121, 73, 110, 102, 111, 114, 109, 97, 116, 105, 111, 110, 0]

/-- The comparison of the name with those of the summary information streams,
  libolecf_directory_tree.c:334-387.  `cmp` stands for
  `libuna_utf8_string_compare_with_utf16_stream`, `none` for its return value -1.  The two
  pointers that are set on equality are never read in the library, and are left out. -/
def summaryCheck (cmp : Bytes → Bytes → Option Bool) (d : DirEntry) : Res Unit :=
  if d.name.length = 28 then
    match cmp docSummaryName d.name with
    | some _ => .ok ()
    | none => .err
  else if d.name.length = 20 then
    match cmp summaryName d.name with
    | some _ => .ok ()
    | none => .err
  else .ok ()

/-- `libolecf_directory_tree_create_process_entry`, libolecf_directory_tree.c:276-777.
  `node` and `parent` are the tree node of the entry `d` and its parent.  The recursion is
  bounded by `fuel`; `hang` stands for a recursion that goes deeper.  The casts of the
  previous and next identifiers to `int` are undone by the conversion to the `uint32_t`
  parameter. -/
def processEntry (list : List DirEntry) (cmp : Bytes → Bytes → Option Bool) (rootId : Nat) :
    Nat → NodeKey → Option NodeKey → DirEntry → TreeState → Res TreeState
  | 0, _, _, _, _ => .hang
  | fuel + 1, node, parent, d, st => do
    summaryCheck cmp d
    let st ← (
      if d.sub ≠ UNUSED ∧ d.sub ≠ 0 ∧ rootId = 0 then
        match dirLookup list d.sub with
        | none => .ok st
        | some c => do
          let st ← attach (some node) c st
          processEntry list cmp rootId fuel (some c.id) (some node) c st
      else .ok st : Res TreeState)
    let st ← (
      if d.prev ≠ UNUSED then
        match dirLookup list d.prev with
        | none => .ok st
        | some c => do
          let st ← attach parent c st
          processEntry list cmp rootId fuel (some c.id) parent c st
      else .ok st : Res TreeState)
    if d.next ≠ UNUSED then
      match dirLookup list d.next with
      | none => .err
      | some c => do
        let st ← attach parent c st
        processEntry list cmp rootId fuel (some c.id) parent c st
    else .ok st

/-- `LIBOLECF_ITEM_TYPE_ROOT_STORAGE`. -/
def typeRoot : Nat := 5

/-- The search for the root storage, libolecf_directory_tree.c:118-177. -/
def findRoot : List DirEntry → Option DirEntry
  | [] => none
  | d :: rest => if d.type = typeRoot then some d else findRoot rest

/-- The directory tree of an open file: the value of the root node and the sub nodes of each
  node. -/
structure Tree where
  root : DirEntry
  kids : NodeKey → List DirEntry

/-- What `libolecf_directory_tree_create` does: the value it stores in
  `short_sector_stream_start_sector_identifier` (also when it fails afterwards), the tree
  (`ok none`: return value 0) and the entries whose `set_in_tree` flag is set on success. -/
structure TreeOut where
  shortStart : Option Nat
  res : Res (Option (Tree × List Nat))

/-- `libolecf_directory_tree_create`, libolecf_directory_tree.c:39-271.  The recursion depth
  allowed is the number of entries plus one; `C17_terminates` shows that it is never
  exceeded. -/
def createTree (list : List DirEntry) (cmp : Bytes → Bytes → Option Bool) : TreeOut :=
  match list with
  | [] => ⟨none, .ok none⟩
  | _ :: _ =>
    match findRoot list with
    | none => ⟨none, .err⟩
    | some root =>
      if root.sub = UNUSED then ⟨none, .ok none⟩
      else
        match processEntry list cmp root.id (list.length + 1) none none root
            ⟨[], fun _ => []⟩ with
        | .ok st => ⟨some root.start, .ok (some (⟨root, st.kids⟩, root.id :: st.marks))⟩
        | .err => ⟨some root.start, .err⟩
        | .ub => ⟨some root.start, .ub⟩
        | .hang => ⟨some root.start, .hang⟩

end Olecf
