import Verif.Lemmas.MemLife
import Verif.Spec.MemItem

/-! The memory of items. -/

namespace Olecf
namespace Lemmas

open Olecf.Spec Olecf.Props

variable {σ α β γ δ : Type}

/-! ### The nodes of a tree -/

/-- Every entry below a node has its node. -/
def Linked (nodes : List MNode) (kids : NodeKey → List DirEntry) : Prop :=
  ∀ key, ∀ c ∈ kids key, ∃ n, nodes.find? (fun n => n.value.entry.id = c.id) = some n ∧
    n.value.entry = c

/-- The nodes under construction are linked. -/
structure StateLinked (st : MTreeState) : Prop where
  marks : st.nodes.map (·.value.entry.id) = st.state.marks
  linked : Linked st.nodes st.state.kids

theorem memAttach_linked {parent : Option NodeKey} {c : MEntry} {st : MTreeState}
    (hst : StateLinked st) :
    Ensures (memAttach parent c st : Mem σ MTreeState) StateLinked := by
  unfold memAttach
  refine ensures_bind (ensures_true _) fun _ _ => ?_
  split
  · intro s h a ha; cases ha
  rename_i hnew
  refine ensures_bind (ensures_true _) fun n _ => ?_
  refine ensures_bind (ensures_onError ensures_of) fun s hs => ensures_pure ?_
  unfold attach at hs
  rw [if_neg hnew] at hs
  cases parent with
  | none => cases hs
  | some p =>
    dsimp only at hs
    cases hi : insertUnique c.entry (st.state.kids p) with
    | none => rw [hi] at hs; cases hs
    | some l =>
      rw [hi] at hs
      cases hs
      constructor
      · rw [List.map_cons, hst.marks]
      · intro key x hx
        have hold : ∀ y, (∃ key, y ∈ st.state.kids key) →
            ∃ m, (⟨n, c⟩ :: st.nodes).find? (fun n => n.value.entry.id = y.id) = some m ∧
              m.value.entry = y := by
          intro y ⟨k, hy⟩
          obtain ⟨m, hm, he⟩ := hst.linked k y hy
          refine ⟨m, ?_, he⟩
          rw [List.find?_cons_of_neg]
          · exact hm
          · have hmem : y.id ∈ st.state.marks := by
              rw [← hst.marks]
              exact List.mem_map.2 ⟨m, List.mem_of_find?_eq_some hm, by rw [he]⟩
            simp only [decide_eq_true_eq]
            intro h
            exact hnew (h ▸ hmem)
        dsimp only at hx
        split at hx
        · rcases (insertUnique_mem hi).1 hx with rfl | hx
          · exact ⟨⟨n, c⟩, List.find?_cons_of_pos (by simp), rfl⟩
          · exact hold x ⟨p, hx⟩
        · exact hold x ⟨key, hx⟩

theorem link_linked {parent : Option NodeKey} {c : MEntry} {st : MTreeState}
    (hst : StateLinked st) {k : MTreeState → Mem σ (MTreeState × Bool)}
    (hk : ∀ st, StateLinked st → Ensures (k st) (fun r => StateLinked r.1)) :
    Ensures (do
      match ← (memAttach parent c st).attempt with
      | none => pure (st, false)
      | some st => k st : Mem σ (MTreeState × Bool)) (fun r => StateLinked r.1) :=
  ensures_try (memAttach_linked hst) (ensures_pure hst) hk

theorem memProcessEntry_linked (list : List MElem) (cmp : Bytes → Bytes → Option Bool)
    (rootId : Nat) :
    ∀ (fuel : Nat) (node : NodeKey) (parent : Option NodeKey) (d : MEntry) (st : MTreeState),
      StateLinked st →
      Ensures (memProcessEntry list cmp rootId fuel node parent d st : Mem σ (MTreeState × Bool))
        (fun r => StateLinked r.1) := by
  intro fuel
  induction fuel with
  | zero => intro node parent d st _ s h a ha; cases ha
  | succ fuel ih =>
    intro node parent d st hst
    unfold memProcessEntry
    refine ensures_bind (ensures_true _) fun _ _ => ?_
    refine ensures_try (ensures_true _) (ensures_pure hst) fun _ _ => ?_
    refine ensures_bind (Q := fun r => StateLinked r.1) ?_ fun r1 h1 => ?_
    · split
      · split
        · exact ensures_pure hst
        · exact link_linked hst fun st hst => ih _ _ _ st hst
      · exact ensures_pure hst
    refine ensures_bind (Q := fun r => StateLinked r.1) ?_ fun r2 h2 => ?_
    · split
      · split
        · exact ensures_pure h1
        · exact link_linked h1 fun st hst => ih _ _ _ st hst
      · exact ensures_pure h1
    split
    · split
      · exact ensures_pure h2
      · exact link_linked h2 fun st hst => ih _ _ _ st hst
    · exact ensures_pure h2

/-- Every entry of the tree has its node. -/
def TreeOk (t : Option MTree) : Prop := ∀ x, t = some x → Linked x.nodes x.kids

theorem treeOk_none : TreeOk none := fun _ h => (by cases h)

theorem memCreateTree_linked (list : List MElem) (cmp : Bytes → Bytes → Option Bool) :
    Ensures (memCreateTree list cmp : Mem σ MTreeOut) (fun t => TreeOk t.tree) := by
  unfold memCreateTree
  split
  · exact ensures_pure treeOk_none
  split
  · exact ensures_pure treeOk_none
  split
  · exact ensures_pure treeOk_none
  refine ensures_try (ensures_true _) (ensures_pure treeOk_none) fun n _ => ?_
  refine ensures_bind (memProcessEntry_linked _ cmp _ _ none none _ ⟨⟨[], fun _ => []⟩, []⟩
    ⟨rfl, fun _ _ h => (by cases h)⟩) fun r hr => ?_
  split
  · exact ensures_pure fun x h => (by cases h; exact hr.linked)
  · exact ensures_bind (ensures_true _) fun _ _ => ensures_pure treeOk_none

/-- The tree of what was loaded. -/
def LoadedOk (r : IoHandle × Option MLoaded) : Prop := ∀ l, r.2 = some l → TreeOk l.tree

theorem memOpenCore_linked (cmp : Bytes → Bytes → Option Bool) (dev : Dev) (io : IoHandle) :
    Ensures (memOpenCore cmp dev io : Mem σ (IoHandle × Option MLoaded)) LoadedOk := by
  have hno : ∀ io, LoadedOk (io, none) := fun _ _ h => (by cases h)
  have htree : ∀ io header msat sat ssat list elems,
      Ensures (memOpenTree cmp io header msat sat ssat list elems :
        Mem σ (IoHandle × Option MLoaded)) LoadedOk := by
    intro io header msat sat ssat list elems
    unfold memOpenTree
    refine ensures_bind (ensures_true _) fun _ _ => ?_
    refine ensures_bind (memCreateTree_linked _ _) fun t ht => ?_
    split
    · exact ensures_bind (ensures_true _) fun _ _ => ensures_pure fun l h => (by cases h; exact ht)
    · exact ensures_bind (ensures_true _) fun _ _ => ensures_pure (hno _)
  have hdir : ∀ io hdr header msat sat ssat,
      Ensures (memOpenDirectory cmp dev io hdr header msat sat ssat :
        Mem σ (IoHandle × Option MLoaded)) LoadedOk := by
    intro io hdr header msat sat ssat
    unfold memOpenDirectory
    refine ensures_try (ensures_true _) (ensures_cleanup (hno _)) fun list _ => ?_
    refine ensures_bind (ensures_true _) fun r _ => ?_
    split
    · exact htree _ _ _ _ _ _ _
    · exact ensures_cleanup (hno _)
  have hssat : ∀ io hdr header msat sat,
      Ensures (memOpenSsat cmp dev io hdr header msat sat :
        Mem σ (IoHandle × Option MLoaded)) LoadedOk := by
    intro io hdr header msat sat
    unfold memOpenSsat
    refine ensures_try (ensures_true _) (ensures_cleanup (hno _)) fun list _ => ?_
    refine ensures_bind (ensures_true _) fun r _ => ?_
    split
    · exact hdir _ _ _ _ _ _
    · exact ensures_cleanup (hno _)
  have hsat : ∀ io hdr header msat,
      Ensures (memOpenSat cmp dev io hdr header msat :
        Mem σ (IoHandle × Option MLoaded)) LoadedOk := by
    intro io hdr header msat
    unfold memOpenSat
    refine ensures_try (ensures_true _) (ensures_cleanup (hno _)) fun list _ => ?_
    refine ensures_bind (ensures_true _) fun r _ => ?_
    split
    · exact hssat _ _ _ _ _
    · exact ensures_cleanup (hno _)
  unfold memOpenCore
  refine ensures_try (ensures_true _) (ensures_pure (hno _)) fun header _ => ?_
  refine ensures_try (ensures_true _) (ensures_cleanup (hno _)) fun msat _ => ?_
  refine ensures_try (ensures_true _) (ensures_cleanup (hno _)) fun hm _ => ?_
  refine ensures_bind (ensures_true _) fun r _ => ?_
  split
  · exact hsat _ _ _ _
  · exact ensures_cleanup (hno _)

/-- What a call does to the tree: it stays linked, and while the file is open nothing but a close
  changes it, the handle or the block of the handle. -/
structure Persists (f : MFile) (g : MFile) : Prop where
  treeOk : TreeOk f.tree → TreeOk g.tree
  same : f.handle.isSome → g.tree = f.tree ∧ g.handle = f.handle ∧ g.handleBlock = f.handleBlock

theorem Persists.refl (f : MFile) : Persists f f := ⟨fun h => h, fun _ => ⟨rfl, rfl, rfl⟩⟩

theorem memOpenRead_linked (cmp : Bytes → Bytes → Option Bool) (dev : Dev) (f : MFile) :
    Ensures (memOpenRead cmp dev f : Mem σ (MFile × Bool))
      (fun r => TreeOk f.tree → TreeOk r.1.tree) := by
  unfold memOpenRead
  refine ensures_bind (ensures_true _) fun _ _ => ?_
  split
  · exact ensures_pure fun h => h
  refine ensures_bind (ensures_true _) fun _ _ => ensures_bind (memOpenCore_linked _ _ _) fun r hr => ?_
  split
  · exact ensures_pure fun _ => hr _ ‹_›
  · exact ensures_pure fun h => h

theorem memOpenHandle_stays (cmp : Bytes → Bytes → Option Bool) (h : HandleId) (flags : Nat)
    (flt : Faults) (f : MFile) :
    Ensures (memOpenHandle cmp h flags flt f) (fun r => Persists f r.1) := by
  unfold memOpenHandle
  refine ensures_bind (ensures_true _) fun _ _ => ?_
  split
  · exact ensures_pure (Persists.refl f)
  rename_i hc
  split
  · exact ensures_pure (Persists.refl f)
  split
  · exact ensures_pure (Persists.refl f)
  split
  · exact ensures_pure ⟨fun h => h, fun h => absurd h hc⟩
  refine ensures_bind (ensures_true _) fun wasOpen _ => ?_
  refine ensures_bind (ensures_true _) fun opened _ => ?_
  split
  · exact ensures_pure ⟨fun h => h, fun h => absurd h hc⟩
  refine ensures_bind (ensures_true _) fun dev _ => ?_
  refine ensures_bind (Q := fun r => TreeOk f.tree → TreeOk r.1.tree) ?_ fun r hr => ?_
  · cases wasOpen
    · exact memOpenRead_linked cmp dev { f with openedInLibrary := true }
    · exact memOpenRead_linked cmp dev f
  split
  · exact ensures_pure ⟨hr, fun h => absurd h hc⟩
  split
  · exact ensures_bind (ensures_true _) fun _ _ => ensures_pure ⟨hr, fun h => absurd h hc⟩
  · exact ensures_pure ⟨hr, fun h => absurd h hc⟩

theorem memOpenHandle_failed (cmp : Bytes → Bytes → Option Bool) (h : HandleId) (flags : Nat)
    (flt : Faults) (f : MFile) (ho : f.handle.isSome = true) :
    Ensures (memOpenHandle cmp h flags flt f) (fun r => r = (f, false)) := by
  unfold memOpenHandle
  refine ensures_bind (ensures_true _) fun _ _ => ?_
  rw [if_pos ho]
  exact ensures_pure rfl

theorem memOpenName_stays (cmp : Bytes → Bytes → Option Bool) (dev : Dev) (flags : Nat)
    (flt : Faults) (f : MFile) :
    Ensures (memOpenName cmp dev flags flt f) (fun r => Persists f r.1) := by
  unfold memOpenName
  split
  · exact ensures_pure (Persists.refl f)
  refine ensures_try (ensures_true _) (ensures_pure (Persists.refl f)) fun hb _ => ?_
  refine ensures_bind (ensures_true _) fun h _ => ?_
  split
  · exact ensures_bind (ensures_true _) fun _ _ => ensures_bind (ensures_true _) fun _ _ =>
      ensures_pure (Persists.refl f)
  refine ensures_bind (Q := fun r => Persists f r.1 ∧ (f.handle.isSome = true → r = (f, false))) ?_
    fun r hr => ?_
  · intro s hp a ha
    exact ⟨memOpenHandle_stays cmp h flags flt f s hp a ha,
      fun ho => memOpenHandle_failed cmp h flags flt f ho s hp a ha⟩
  split
  · refine ensures_pure ⟨hr.1.treeOk, fun ho => ?_⟩
    have := hr.2 ho
    subst this
    cases ‹(f, false).2 = true›
  · exact ensures_bind (ensures_true _) fun _ _ => ensures_bind (ensures_true _) fun _ _ =>
      ensures_pure hr.1

/-- Whether a call is a close. -/
def isClose : FileOp → Bool
  | .close _ => true
  | _ => false

theorem op_stays (cmp : Bytes → Bytes → Option Bool) (op : FileOp) (f : MFile) :
    Ensures (FileOp.mem cmp f op)
      (fun r => (TreeOk f.tree → TreeOk r.1.tree) ∧ (isClose op = false → Persists f r.1)) := by
  cases op with
  | openHandle n flags flt =>
    intro s h a ha
    have := memOpenHandle_stays cmp (.user n) flags flt f s h a ha
    exact ⟨this.treeOk, fun _ => this⟩
  | openName dev flags flt =>
    intro s h a ha
    have := memOpenName_stays cmp dev flags flt f s h a ha
    exact ⟨this.treeOk, fun _ => this⟩
  | close flt =>
    unfold FileOp.mem memCloseFile
    refine ensures_bind (ensures_true _) fun _ _ => ?_
    split
    · exact ensures_pure ⟨fun h => h, fun h => (by cases h)⟩
    refine ensures_bind (ensures_true _) fun _ _ => ensures_bind (ensures_true _) fun _ _ =>
      ensures_bind (ensures_true _) fun _ _ => ensures_bind (ensures_true _) fun _ _ =>
      ensures_bind (ensures_true _) fun _ _ => ensures_bind (ensures_true _) fun _ _ =>
      ensures_bind (ensures_true _) fun _ _ => ensures_bind (ensures_true _) fun _ _ =>
      ensures_pure ⟨fun _ => treeOk_none, fun h => (by cases h)⟩
  | setCodepage cp =>
    unfold FileOp.mem memSetCodepage
    refine ensures_bind (ensures_true _) fun _ _ => ?_
    split
    · exact ensures_pure ⟨fun h => h, fun _ => Persists.refl f⟩
    · exact ensures_bind (ensures_true _) fun _ _ => ensures_pure
        ⟨fun h => h, fun _ => ⟨fun h => h, fun _ => ⟨rfl, rfl, rfl⟩⟩⟩
  | signalAbort =>
    unfold FileOp.mem memSignalAbort
    exact ensures_bind (ensures_true _) fun _ _ => ensures_bind (ensures_true _) fun _ _ =>
      ensures_pure
        ⟨fun h => h, fun _ => ⟨fun h => h, fun _ => ⟨rfl, rfl, rfl⟩⟩⟩
  | caller n b dev =>
    unfold FileOp.mem
    exact ensures_bind (ensures_true _) fun _ _ => ensures_pure ⟨fun h => h, fun _ => Persists.refl f⟩

end Lemmas
end Olecf
