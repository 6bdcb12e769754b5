import Verif.Model.MemSet
import Verif.Spec.PropSet

/-! What property sets hold of the memory. -/

namespace Olecf
namespace Spec

/-- The blocks of a value of libfvalue: the value and its data. -/
def fvalueBlocks (v : MFValue) : List Nat := v.block :: v.data.toList

/-- The blocks of a property. -/
def valueBlocks (v : MValue) : List Nat :=
  v.block :: (match v.data with | some d => fvalueBlocks d | none => [])

/-- The blocks of a section: the section, its array and its properties. -/
def sectionBlocks (s : MSection) : List Nat :=
  s.block :: s.array :: s.values.flatMap valueBlocks

/-- The blocks of a set: the set, its array and its sections. -/
def setBlocks (s : MSet) : List Nat :=
  s.block :: s.array :: s.sections.flatMap sectionBlocks

/-- A heap on which nothing went wrong so far: the blocks in use are different ones, and all were
  handed out. -/
structure Sound (h : Heap) : Prop where
  good : h.bad = false
  nodup : h.live.Nodup
  old : ∀ b ∈ h.live, b < h.asked

/-- The heap of a program that has not asked for anything yet. -/
def emptyHeap (grant : Nat → Bool) : Heap := ⟨grant, 0, [], false⟩

/-- There is memory for every request. -/
def Ample (h : Heap) : Prop := ∀ n, h.grant n = true

/-- The same blocks are in use. -/
def SameBlocks (h h' : Heap) : Prop := h'.live.Perm h.live

/-- The blocks in use are those from before and `l`. -/
def Gained (h : Heap) (l : List Nat) (h' : Heap) : Prop := h'.live.Perm (l ++ h.live)

/-- The stream has the 28 bytes of the header of a property set, with a byte order mark. -/
def HasMark (f : FileCtx) (d : DirEntry) : Prop :=
  ∃ b, streamContent f d 0 28 = some b ∧ (b.take 2 = [0xfe, 0xff] ∨ b.take 2 = [0xff, 0xfe])

/-- The heap after the set of a stream was asked for `n` times and nothing of what was given was
  kept: the sets were freed. -/
def afterReads (f : FileCtx) (d : DirEntry) : Nat → Int → Heap → Heap
  | 0, _, h => h
  | n + 1, cur, h =>
    match memGetSet f d cur h with
    | (.ok set, cur, h) => afterReads f d n cur (freeSet set cur h).2.2
    | (_, cur, h) => afterReads f d n cur h

end Spec
end Olecf
