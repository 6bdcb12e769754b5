import Verif.Model.File

/-
  libolecf/libolecf_directory_tree.c and libolecf_file.c with a stack of limited size.
-/

namespace Olecf

/-- `libolecf_directory_tree_create`, libolecf_directory_tree.c:39-271, with a stack that has room for
  `depth` nested calls of `libolecf_directory_tree_create_process_entry` (276-777, which calls itself at
  482-503, 612-633 and 742-763).  A call for which there is no room is undefined behaviour. -/
def createTreeIn (depth : Nat) (list : List DirEntry) (cmp : Bytes → Bytes → Option Bool) :
    Res (Option (Tree × List Nat)) :=
  match list with
  | [] => .ok none
  | _ :: _ =>
    match findRoot list with
    | none => .err
    | some root =>
      if root.sub = UNUSED then .ok none
      else
        match processEntry list cmp root.id depth none none root ⟨[], fun _ => []⟩ with
        | .ok st => .ok (some (⟨root, st.kids⟩, root.id :: st.marks))
        | .err => .err
        | .ub => .ub
        | .hang => .ub

/-- `libolecf_file_open_read`, libolecf_file.c:880-1189, with a stack as above: the outcome.  The
  directory is read from the sectors at lines 1069-1085 and the tree made of it at 1106-1127; the
  calls before do not nest. -/
def openCoreIn (depth : Nat) (cmp : Bytes → Bytes → Option Bool) (dev : Dev) (io : IoHandle) :
    Res Loaded := do
  let msat ← AllocTable.init 109
  let empty ← AllocTable.init 0
  let (hdr, msat) ← (headerRead dev msat).res
  let io := io.withHeader hdr
  let msat ← (readMsat io dev msat hdr.msatSector hdr.msatSectors).res
  let sat ← (readSat io dev msat empty hdr.satSectors).res
  let ssat ← (readSsat io dev sat empty hdr.ssatSector hdr.ssatSectors).res
  let dir := readDirectory io dev sat [] hdr.rootDirSector
  dir.1.res
  let tree ← createTreeIn depth dir.2 cmp
  pure ⟨msat, sat, ssat, tree.map (·.1)⟩

end Olecf
