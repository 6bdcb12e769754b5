import Verif.Props.FileState
import Verif.Props.Sample

/-
  Concrete cases of the theorems about file objects (C04, C34 - C37, C51, C52): the sample file can be
  opened, a file that is only a header cannot.
-/

namespace Olecf.Props
open Olecf.Spec

/-- A world in which the handles of the caller deliver the sample file; the even ones are open. -/
def sampleWorld : World where
  isOpen := fun | .user n => n % 2 = 0 | .lib _ => false
  dev := fun _ => Dev.ofBytes (sampleFile .little)
  made := 0
  events := []

def sampleState : FileState := ⟨OleFile.new, sampleWorld⟩

theorem sampleState_initial : Initial sampleState := ⟨rfl, rfl⟩

theorem sampleState_reachable : Reachable cmpNone sampleState := ⟨sampleState, [], sampleState_initial, rfl⟩

/-- The sample file can be opened with any handle (C34_open_iff, C52_opened_well_formed). -/
theorem sample_opens (n : Nat) : (openHandle cmpNone (.user n) 1 {} sampleState).1 = .ok () := by
  obtain ⟨l, hl, _⟩ := sample_loaded
  refine (C34_open_iff cmpNone sampleState sampleState_reachable (.user n) 1 {}).1.2
    ⟨rfl, rfl, rfl, Or.inr rfl, l, ?_⟩
  have hd : sampleState.world.dev (.user n) = Dev.ofBytes (sampleFile .little) := rfl
  rw [hd]
  exact hl

theorem sample_opens_tree (n : Nat) :
    (openHandle cmpNone (.user n) 1 {} sampleState).2.file.tree.isSome := by
  obtain ⟨l, hl, ht⟩ := sample_loaded
  have he : sampleState.file.handle = none → sampleState.file.Empty :=
    fun _ => ⟨rfl, rfl, rfl, rfl, rfl, rfl⟩
  obtain ⟨l', hdr, t0, list, tree, ho, hf, _⟩ := openHandle_loaded he (sample_opens n)
  have hl' := ((openCore_ok_iff (io' := _)).2 ⟨_, _, _, _, ho⟩).1
  have hd : sampleState.world.dev (.user n) = Dev.ofBytes (sampleFile .little) := rfl
  have hio : sampleState.file.io = .cleared := rfl
  rw [hd, hio, hl] at hl'
  cases hl'
  rw [hf]
  exact ht

/-- The sample document is what one sees (C47_document_shown). -/
example (n : Nat) : ∃ t f it, (openHandle cmpNone (.user n) 1 {} sampleState).2.file.tree = some t ∧
    (openHandle cmpNone (.user n) 1 {} sampleState).2.file.ctx
      ((openHandle cmpNone (.user n) 1 {} sampleState).2.world.dev (.user n)) = some f ∧
    rootItem (some t) = some it ∧ Shows t f it sampleDoc :=
  (C47_document_shown (sample_holds .little) cmpNone (sample_comparable _) sampleState
    sampleState_reachable rfl (.user n) rfl 1 rfl).2

/-- Opening by name. -/
example : (openName cmpNone (Dev.ofBytes (sampleFile .little)) 1 {} sampleState).1 = .ok () := by
  obtain ⟨l, hl, _⟩ := sample_loaded
  exact (C34_open_name_iff cmpNone sampleState sampleState_reachable _ 1 {}).1.2
    ⟨rfl, rfl, rfl, rfl, rfl, rfl, l, hl⟩

/-- A history that opens, fails to open, closes and opens again (C34_two_states, C35, C37). -/
def sampleOps : List FileOp :=
  [.openHandle 1 1 {}, .openHandle 0 1 {}, .setCodepage 1250, .setCodepage 3, .close {},
   .close {}, .openName (Dev.ofBytes (sampleFile .little)) 1 {}]

example : Reachable cmpNone (runOps cmpNone sampleState sampleOps) :=
  ⟨sampleState, sampleOps, sampleState_initial, rfl⟩

/-- Handle 1 was closed and is opened by the library, handle 0 was open already: only the first is
  closed with the file. -/
example :
    (openHandle cmpNone (.user 1) 1 {} sampleState).2.file.openedInLibrary = true ∧
    (openHandle cmpNone (.user 0) 1 {} sampleState).2.file.openedInLibrary = false ∧
    CallersOpen 0 sampleState ∧ ¬ CallersOpen 1 sampleState := by
  have he : sampleState.file.handle = none → sampleState.file.Empty :=
    fun _ => ⟨rfl, rfl, rfl, rfl, rfl, rfl⟩
  refine ⟨?_, ?_, ⟨rfl, by rintro ⟨h, _⟩; cases h⟩, fun h => by cases h.1⟩
  · obtain ⟨_, _, _, _, _, _, hf, _⟩ := openHandle_loaded he (sample_opens 1)
    rw [hf]; rfl
  · obtain ⟨_, _, _, _, _, _, hf, _⟩ := openHandle_loaded he (sample_opens 0)
    rw [hf]; rfl

/-- The signature check of the sample file, of another file and of a file that is too short. -/
example : (checkSignature (.user 1) {} sampleWorld).1 = .ok true := by
  obtain ⟨l, hl, _⟩ := sample_loaded
  exact C04_opened_passes cmpNone .cleared _ l hl (.user 1) sampleWorld rfl
example (w : World) (h : w.dev (.user 1) = Dev.ofBytes (List.replicate 8 0)) :
    (checkSignature (.user 1) {} w).1 = .ok false := by
  rw [C04_check_content _ _ _ h]; decide
example (w : World) (h : w.dev (.user 1) = Dev.ofBytes (List.replicate 7 0)) :
    (checkSignature (.user 1) {} w).1 = .err := by
  rw [C04_check_content _ _ _ h]; decide

/-- A failed open: write access (C35_failed_open_restores, C36_failed_open_invisible_partial); for a
  file that fails while it is loaded see `C36_failed_open_changes_getters_violated`. -/
example : ((FileOp.openHandle 1 2 {}).run cmpNone sampleState).1 ≠ .ok () := by
  intro h
  have := (C34_open_iff cmpNone sampleState sampleState_reachable (.user 1) 2 {}).1.1 h
  simp at this

/-- C51: the marked entries of the sample directory, and one that is not in the hierarchy. -/
example : (match (createTree (sampleDir ++ [entry 9 2 UNUSED UNUSED UNUSED]) cmpNone).res with
    | .ok (some (_, m)) => some (m.contains 9, [0, 1, 2, 3, 4].all (m.contains ·))
    | _ => none) = some (false, true) := by decide

end Olecf.Props
