import Verif.Model.MemFile
import Verif.Spec.File
import Verif.Spec.MemSet

/-! What a file object holds of the memory. -/

namespace Olecf
namespace Spec

/-- The blocks of an allocation table: the structure and its array. -/
def tableBlocks (t : MTable) : List Nat := t.block :: t.ids.toList

/-- The blocks of a directory entry: the structure and its name. -/
def entryBlocks (d : MEntry) : List Nat := d.block :: d.name.toList

/-- The blocks of an element of the list of entries, with its entry. -/
def elemBlocks (x : MElem) : List Nat := x.block :: entryBlocks x.value

/-- The blocks of a node of the tree, with its entry. -/
def nodeBlocks (n : MNode) : List Nat := n.block :: entryBlocks n.value

/-- The blocks of the tree. -/
def treeBlocks (t : Option MTree) : List Nat :=
  match t with
  | some t => t.all.flatMap nodeBlocks
  | none => []

/-- The blocks of what an open loads. -/
def loadedBlocks (l : MLoaded) : List Nat :=
  tableBlocks l.msat ++ tableBlocks l.sat ++ tableBlocks l.ssat ++ treeBlocks l.tree

/-- What was loaded, without its blocks. -/
def loadedValue (l : MLoaded) : Loaded :=
  ⟨l.msat.table, l.sat.table, l.ssat.table, l.tree.map fun t => ⟨t.root.value.entry, t.kids⟩⟩

/-- The blocks a file object holds beside itself and its IO handle. -/
def contentBlocks (f : MFile) : List Nat :=
  f.handleBlock.toList ++ f.msat.toList.flatMap tableBlocks ++ f.sat.toList.flatMap tableBlocks ++
    f.ssat.toList.flatMap tableBlocks ++ treeBlocks f.tree

/-- The blocks of a file object. -/
def fileBlocks (f : MFile) : List Nat := f.block :: f.ioBlock :: contentBlocks f

/-- The file object without its blocks. -/
def MFile.value (f : MFile) : OleFile :=
  { io := f.io, abort := f.abort, handle := f.handle, openedInLibrary := f.openedInLibrary,
    createdInLibrary := f.createdInLibrary, msat := f.msat.map (·.table),
    sat := f.sat.map (·.table), ssat := f.ssat.map (·.table),
    tree := f.tree.map fun t => ⟨t.root.value.entry, t.kids⟩ }

/-- One step of a history, with the memory it takes: the file object afterwards and whether the
  call succeeded. -/
def FileOp.mem (cmp : Bytes → Bytes → Option Bool) (f : MFile) : FileOp → Mem World (MFile × Bool)
  | .openHandle n flags flt => memOpenHandle cmp (.user n) flags flt f
  | .openName dev flags flt => memOpenName cmp dev flags flt f
  | .close flt => memCloseFile flt f
  | .setCodepage cp => memSetCodepage f cp
  | .signalAbort => memSignalAbort f
  | .caller n b dev => do
    worldStep fun w => ((), if f.handle = some (.user n) then w
      else { w with isOpen := fun k => if k = .user n then b else w.isOpen k
                    dev := fun k => if k = .user n then dev else w.dev k })
    pure (f, true)

/-- A history of calls: the file object afterwards and the return values. -/
def memOps (cmp : Bytes → Bytes → Option Bool) : MFile → List FileOp → Mem World (MFile × List Bool)
  | f, [] => pure (f, [])
  | f, op :: ops => do
    let r ← op.mem cmp f
    let rest ← memOps cmp r.1 ops
    pure (rest.1, r.2 :: rest.2)

/-- A new file object and a history of calls on it. -/
def memHistory (cmp : Bytes → Bytes → Option Bool) (ops : List FileOp) :
    Mem World (MFile × List Bool) := do
  let f ← memNewFile
  memOps cmp f ops

/-- The whole life of a file object: it is made, used, and freed. -/
def memLife (cmp : Bytes → Bytes → Option Bool) (ops : List FileOp) (flt : Faults) :
    Mem World Unit := do
  let r ← memHistory cmp ops
  let _ ← memFreeFile flt r.1

/-- What a file object shows of a document agrees with what an open that is refused no memory loads
  of it, but for the table of the short sectors. -/
structure SameButShortTable (f : MFile) (io : IoHandle) (l : Loaded) : Prop where
  io : f.io = io
  msat : (MFile.value f).msat = some l.msat
  sat : (MFile.value f).sat = some l.sat
  tree : (MFile.value f).tree = l.tree

/-- A table without its contents: no identifiers, or all of them 0. -/
def Blank (t : Option AllocTable) : Prop := ∃ n, t = some ⟨List.replicate n 0⟩

end Spec
end Olecf
