import Verif.Model.Programs
import Verif.Props.FileLife

/-
  Lemmas about the opening of the input in the programs.
-/

namespace Olecf.Props
open Spec

theorem andThen_byteOrder {io : IoHandle} {o : Out α} {f g : α → Out β × IoHandle}
    (h : ∀ a, (f a).2.byteOrder = (g a).2.byteOrder) :
    (o.andThen io f).2.byteOrder = (o.andThen io g).2.byteOrder := by
  unfold Out.andThen
  cases o.res with
  | ok a => exact h a
  | err => rfl
  | ub => rfl
  | hang => rfl

/-- The byte order that is left behind does not depend on the comparison of names. -/
theorem openCore_byteOrder (cmp cmp' : Bytes → Bytes → Option Bool) (dev : Dev) (io : IoHandle) :
    (openCore cmp dev io).2.byteOrder = (openCore cmp' dev io).2.byteOrder := by
  unfold openCore
  split
  · refine andThen_byteOrder fun a => ?_
    refine andThen_byteOrder fun m => ?_
    refine andThen_byteOrder fun sat => ?_
    refine andThen_byteOrder fun ssat => ?_
    refine andThen_byteOrder fun _ => ?_
    have : ∀ (c : Bytes → Bytes → Option Bool) (l : List DirEntry) (io : IoHandle)
        (f : Option (Tree × List Nat) → Loaded),
        (Out.andThen (io.withShortStart (createTree l c).shortStart) (.of (createTree l c).res)
          fun tree => (.of (.ok (f tree)), io.withShortStart (createTree l c).shortStart)).2.byteOrder =
        io.byteOrder := by
      intro c l io f
      have h : (io.withShortStart (createTree l c).shortStart).byteOrder = io.byteOrder := by
        unfold IoHandle.withShortStart
        split <;> rfl
      unfold Out.andThen
      split <;> exact h
    exact (this cmp _ _ _).trans (this cmp' _ _ _).symm
  · rfl

/-- A state in which a handle delivers the content. -/
def handState (dev : Dev) : FileState := ⟨OleFile.new, { World.fresh with dev := fun _ => dev }⟩

theorem handState_reachable (cmp : Bytes → Bytes → Option Bool) (dev : Dev) :
    Reachable cmp (handState dev) := ⟨_, [], ⟨rfl, rfl⟩, rfl⟩

theorem new_empty : OleFile.new.handle = none → OleFile.new.Empty := by
  intro _
  exact ⟨rfl, rfl, rfl, rfl, rfl, rfl⟩

/-- The input is opened when a handle with the same content is, with the same result, and can be closed. -/
theorem openInput_of_open {p : Programs} {source : Bytes} {dev : Dev} (hs : p.source source = (dev, {}))
    (hok : (openHandle (p.u.cmp8 (fileOrder dev)) (.user 1) 1 {} (handState dev)).1 = .ok ()) :
    (p.openInput source).1 = .ok () ∧
    (p.openInput source).2.file =
      { (openHandle (p.u.cmp8 (fileOrder dev)) (.user 1) 1 {} (handState dev)).2.file with
        handle := some (.lib 0), createdInLibrary := true } ∧
    (closeFile {} (p.openInput source).2).1 = .ok () ∧
    (openHandle (p.u.cmp8 (fileOrder dev)) (.user 1) 1 {} (handState dev)).2.world.dev (.user 1) = dev := by
  unfold Programs.openInput
  rw [hs]
  generalize p.u.cmp8 (fileOrder dev) = cmp at hok ⊢
  dsimp only
  rw [openName_eq]
  simp only [Bool.false_eq_true, if_false]
  rcases openHandle_spec (cmp := cmp) (h := .user 1) (flags := 1) (flt := {}) (st := handState dev)
    new_empty with ⟨-, h1⟩ | ⟨-, ⟨l, hl, h1⟩ | ⟨hno, h1⟩⟩
  · rw [h1] at hok; cases hok
  · rw [h1]
    have hl' : (openCore cmp ((World.fresh.createH dev).2.dev (.lib 0)) OleFile.new.io).1.res = .ok l := by
      simpa [World.createH, World.fresh, handState] using hl
    rcases openHandle_spec (cmp := cmp) (h := .lib 0) (flags := 1) (flt := {})
      (st := ⟨OleFile.new, (World.fresh.createH dev).2⟩) new_empty with
      ⟨hc, -⟩ | ⟨-, ⟨l', hl2, h2⟩ | ⟨hno, -⟩⟩
    · rcases hc with hc | hc | hc | ⟨-, hc⟩
      · cases hc
      · exact absurd ((readOnly_iff 1).2 rfl) hc
      · cases hc
      · cases hc
    · have : l' = l := by
        dsimp only at hl2
        rw [hl'] at hl2
        cases hl2; rfl
      subst this
      have e : openHandle cmp (.lib World.fresh.made) 1 {} ⟨OleFile.new, (World.fresh.createH dev).2⟩ =
        _ := h2
      rw [e, if_pos rfl]
      refine ⟨rfl, ?_, ?_, rfl⟩
      · have : ((World.fresh.createH dev).2.dev (.lib 0)) = (handState dev).world.dev (.user 1) := by
          simp [World.createH, World.fresh, handState]
        dsimp only
        rw [this]
        simp [OleFile.loaded, handState, World.createH, World.fresh]
      · rw [closeFile_eq (h := .lib 0) rfl]
        simp [OleFile.loaded, World.closeH, World.ensureOpen, World.openH, World.createH, World.fresh]
    · exact absurd hl' (hno l)
  · exfalso
    rw [h1] at hok
    dsimp only at hok
    cases hr : (openCore cmp ((handState dev).world.dev (.user 1)) (handState dev).file.io).1.res with
    | ok l => exact hno l hr
    | err => rw [hr] at hok; cases hok
    | ub => rw [hr] at hok; cases hok
    | hang => rw [hr] at hok; cases hok

end Olecf.Props
