import Verif.Lemmas.Memory
import Verif.Lemmas.File
import Verif.Spec.MemFile

/-! The blocks of files. -/

namespace Olecf
namespace Lemmas

open Olecf.Spec

variable {σ α β : Type}

/-- Rearrangement of lists of blocks. -/
macro "blocks" : tactic => `(tactic| (
  rw [List.perm_iff_count]
  intro x
  simp only [tableBlocks, entryBlocks, elemBlocks, nodeBlocks, treeBlocks, loadedBlocks,
    contentBlocks, fileBlocks, MTree.all, List.count_append, List.count_cons, List.count_nil,
    List.flatMap_cons, List.flatMap_nil, List.flatMap_append, List.map_cons, List.map_nil,
    Option.toList_some, Option.toList_none, List.append_nil, List.nil_append]
  try omega))

theorem triple_use' {b : Nat} {k : Unit → Mem σ β} {pre : List Nat} {post : β → List Nat}
    {exc : List Nat → Prop} (hb : b ∈ pre) (hk : Triple pre (k ()) post exc) :
    Triple pre (Mem.use b >>= k) post exc :=
  triple_bind (triple_use hb) fun _ => hk

/-- Sequencing after a call whose failure is a value. -/
theorem triple_try {pre l' : List Nat} {m : Mem σ α} {k : Option α → Mem σ β}
    {mid : α → List Nat} {post : β → List Nat} {exc : List Nat → Prop}
    (hm : Triple pre m mid (·.Perm l')) (hn : Triple l' (k none) post exc)
    (hs : ∀ a, Triple (mid a) (k (some a)) post exc) :
    Triple pre (m.attempt >>= k) post exc :=
  triple_bind (triple_attempt hm) fun o => match o with
    | none => hn
    | some a => hs a

/-- Sequencing, with what is known of the value. -/
theorem triple_bind_val {pre : List Nat} {m : Mem σ α} {k : α → Mem σ β} {mid : α → List Nat}
    {post : β → List Nat} {exc : List Nat → Prop} {P : α → Prop} (hm : Triple pre m mid exc)
    (hv : ∀ s h a, (m s h).1 = .ok a → P a) (hk : ∀ a, P a → Triple (mid a) (k a) post exc) :
    Triple pre (m >>= k) post exc := by
  intro s h rest hok hl
  obtain ⟨h1, h2, h3, h4⟩ := hm s h rest hok hl
  have hv := hv s h
  rw [mem_bind]
  unfold Mem.bind
  revert h1 h2 h3 h4 hv
  rcases m s h with ⟨r, s', h'⟩
  intro h1 h2 h3 h4 hv
  cases r with
  | ok a =>
    obtain ⟨k1, k2, k3, k4⟩ := hk a (hv a rfl) s' h' rest h1 (h3 a rfl)
    exact ⟨k1, k2.trans h2, k3, k4⟩
  | err => exact ⟨h1, h2, fun _ h => (by cases h), fun _ => h4 rfl⟩
  | ub => exact ⟨h1, h2, fun _ h => (by cases h), fun h => (by cases h)⟩
  | hang => exact ⟨h1, h2, fun _ h => (by cases h), fun h => (by cases h)⟩

theorem triple_pre {pre pre' : List Nat} {m : Mem σ α} {post : α → List Nat}
    {exc : List Nat → Prop} (h : Triple pre m post exc) (hp : pre'.Perm pre) :
    Triple pre' m post exc := triple_weaken h hp (fun _ => .refl _) (fun _ h => h)

/-! ### Tables -/

theorem memTableInit_spec (k : Int) (fr : List Nat) :
    Triple fr (memTableInit k : Mem σ MTable) (fun t => tableBlocks t ++ fr) (·.Perm fr) := by
  unfold memTableInit
  refine triple_bind (triple_of (.refl _)) fun t => ?_
  refine triple_bind (triple_alloc (.refl _)) fun b => ?_
  split
  · refine triple_bind (mid := fun i => i :: b :: fr) ?_ fun i => triple_pure (by blocks)
    exact triple_onError_eq (triple_alloc (.refl _)) (.refl _) triple_release_head
  · exact triple_pure (by blocks)

theorem freeTable_spec (t : MTable) (fr : List Nat) {exc : List Nat → Prop} :
    Triple (tableBlocks t ++ fr) (freeTable t : Mem σ Unit) (fun _ => fr) exc := by
  unfold freeTable
  refine triple_use' (by simp [tableBlocks]) ?_
  refine triple_bind (mid := fun _ => t.block :: fr) ?_ fun _ => triple_release_head
  exact triple_pre triple_releaseOpt (by blocks)

theorem memTableResize_spec (t : MTable) (k : Int) (fr : List Nat) :
    Triple (tableBlocks t ++ fr) (memTableResize t k : Mem σ MTable) (fun t => tableBlocks t ++ fr)
      (·.Perm (tableBlocks t ++ fr)) := by
  unfold memTableResize
  refine triple_bind (triple_of (.refl _)) fun t' => ?_
  split
  · refine triple_use' (by simp [tableBlocks]) ?_
    refine triple_bind (mid := fun i => i :: t.block :: fr) ?_ fun i => triple_pure (by blocks)
    exact triple_pre (triple_realloc (by blocks)) (by blocks)
  · exact triple_pure (.refl _)

theorem memGrow_spec (t : MTable) (k : Int) (fr : List Nat) {exc : List Nat → Prop} :
    Triple (tableBlocks t ++ fr) (memGrow t k : Mem σ (Option MTable))
      (fun o => tableBlocks (o.getD t) ++ fr) exc := by
  unfold memGrow
  split
  · refine triple_weaken (triple_attempt (memTableResize_spec t k fr)) (.refl _) (fun o => ?_)
      (fun _ h => h)
    cases o <;> exact .refl _
  · exact triple_pure (.refl _)

theorem memWithBuffer_spec (o : Res AllocTable) (fr : List Nat) {exc : List Nat → Prop} :
    Triple fr (memWithBuffer o : Mem σ (Option AllocTable)) (fun _ => fr) exc := by
  unfold memWithBuffer
  refine triple_try (triple_alloc (.refl _)) (triple_pure (.refl _)) fun b => ?_
  refine triple_bind (mid := fun _ => b :: fr) ?_ fun r => ?_
  · refine triple_weaken (triple_attempt (triple_of (.refl _))) (.refl _) (fun o => ?_) (fun _ h => h)
    cases o <;> exact .refl _
  · exact triple_bind triple_release_head fun _ => triple_pure (.refl _)

/-- Growing and filling. -/
theorem fill_spec (t : MTable) (k : Int) (o : MTable → Res AllocTable) (ok : Bool) (fr : List Nat)
    {exc : List Nat → Prop} :
    Triple (tableBlocks t ++ fr) (do
      match ← memGrow t k with
      | none => pure (t, ok)
      | some t =>
        match ← memWithBuffer (o t) with
        | none => pure (t, ok)
        | some ids => pure ({ t with table := ids }, true) : Mem σ (MTable × Bool))
      (fun r => tableBlocks r.1 ++ fr) exc := by
  refine triple_bind (memGrow_spec t k fr) fun r => ?_
  cases r with
  | none => exact triple_pure (.refl _)
  | some t' =>
    refine triple_bind (memWithBuffer_spec _ _) fun r => ?_
    cases r <;> exact triple_pure (.refl _)

theorem memReadMsat_spec (io : IoHandle) (dev : Dev) (t : MTable) (id count : Nat) (fr : List Nat)
    {exc : List Nat → Prop} :
    Triple (tableBlocks t ++ fr) (memReadMsat io dev t id count : Mem σ (MTable × Bool))
      (fun r => tableBlocks r.1 ++ fr) exc := by
  unfold memReadMsat
  split
  · exact triple_pure (.refl _)
  split
  · exact triple_pure (.refl _)
  split
  · exact triple_pure (.refl _)
  split
  · exact triple_pure (.refl _)
  dsimp only
  split
  · exact triple_pure (.refl _)
  · exact fill_spec t _ (fun t => (msatLoop io dev _ tableFuel id 109 t.table).res) false fr

theorem memReadSat_spec (io : IoHandle) (dev : Dev) (msat : AllocTable) (t : MTable) (count : Nat)
    (fr : List Nat) {exc : List Nat → Prop} :
    Triple (tableBlocks t ++ fr) (memReadSat io dev msat t count : Mem σ (MTable × Bool))
      (fun r => tableBlocks r.1 ++ fr) exc := by
  unfold memReadSat
  split
  · exact triple_pure (.refl _)
  · exact fill_spec t _ (fun t => (satLoop io dev _ msat.ids 0 t.table).res) true fr

theorem memReadSsat_spec (io : IoHandle) (dev : Dev) (sat : AllocTable) (t : MTable)
    (id count : Nat) (fr : List Nat) {exc : List Nat → Prop} :
    Triple (tableBlocks t ++ fr) (memReadSsat io dev sat t id count : Mem σ (MTable × Bool))
      (fun r => tableBlocks r.1 ++ fr) exc := by
  unfold memReadSsat
  split
  · exact triple_pure (.refl _)
  · exact fill_spec t _ (fun t => (ssatLoop io dev sat _ count tableFuel id 0 0 t.table).res) true fr

/-! ### The directory -/

theorem freeEntry_spec (d : MEntry) (fr : List Nat) {exc : List Nat → Prop} :
    Triple (entryBlocks d ++ fr) (freeEntry d : Mem σ Unit) (fun _ => fr) exc := by
  unfold freeEntry
  refine triple_use' (by simp [entryBlocks]) ?_
  refine triple_bind (mid := fun _ => d.block :: fr) ?_ fun _ => triple_release_head
  exact triple_pre triple_releaseOpt (by blocks)

theorem freeElem_spec (x : MElem) (fr : List Nat) {exc : List Nat → Prop} :
    Triple (elemBlocks x ++ fr) (freeElem freeEntry x : Mem σ Unit) (fun _ => fr) exc := by
  unfold freeElem
  refine triple_use' (by simp [elemBlocks]) ?_
  refine triple_bind (mid := fun _ => x.block :: fr) ?_ fun _ => triple_release_head
  exact triple_pre (freeEntry_spec _ _) (by blocks)

theorem memReadEntry_spec (e : Endian) (index : Nat) (data : Bytes) (fr : List Nat) :
    Triple fr (memReadEntry e index data : Mem σ (Option MEntry))
      (fun o => o.toList.flatMap entryBlocks ++ fr) (·.Perm fr) := by
  unfold memReadEntry
  refine triple_bind (triple_alloc (.refl _)) fun b => ?_
  refine triple_bind (mid := fun _ => b :: fr) ?_ fun o => ?_
  · exact triple_onError_eq (triple_of (.refl _)) (.refl _) triple_release_head
  cases o with
  | none =>
    dsimp only
    exact triple_use' (by simp) (triple_bind triple_release_head fun _ => triple_pure (.refl _))
  | some d =>
    dsimp only
    split
    · refine triple_bind (mid := fun i => i :: b :: fr) ?_ fun i => triple_pure (by blocks)
      exact triple_onError_eq (triple_alloc (.refl _)) (.refl _) triple_release_head
    · exact triple_pure (by blocks)

theorem memSlotLoop_spec (e : Endian) (sector : Bytes) (fr : List Nat) {exc : List Nat → Prop} :
    ∀ (k pos index : Nat) (acc : List MElem),
      Triple (acc.flatMap elemBlocks ++ fr)
        (memSlotLoop e sector k pos index acc : Mem σ (List MElem × Bool))
        (fun r => r.1.flatMap elemBlocks ++ fr) exc
  | 0, _, _, _ => triple_pure (.refl _)
  | k + 1, pos, index, acc => by
    unfold memSlotLoop
    refine triple_try (mid := fun o => o.toList.flatMap entryBlocks ++
      (acc.flatMap elemBlocks ++ fr)) (l' := acc.flatMap elemBlocks ++ fr) ?_
      (triple_pure (.refl _)) fun o => ?_
    · exact triple_bind (triple_of (.refl _)) fun data => memReadEntry_spec e index data _
    cases o with
    | none => exact memSlotLoop_spec e sector fr k _ _ acc
    | some d =>
      dsimp only
      refine triple_try (mid := fun x => (acc ++ [(⟨x, d⟩ : MElem)]).flatMap elemBlocks ++ fr)
        (l' := acc.flatMap elemBlocks ++ fr) ?_ (triple_pure (.refl _)) fun x =>
          memSlotLoop_spec e sector fr k _ _ _
      refine triple_onError_eq (pre' := entryBlocks d ++ (acc.flatMap elemBlocks ++ fr)) ?_ (.refl _)
        (freeEntry_spec d _)
      refine triple_weaken (triple_alloc (.refl _)) (by blocks) (fun x => ?_) (fun _ h => h)
      blocks

theorem memDirLoop_spec (io : IoHandle) (dev : Dev) (sat : AllocTable) (fr : List Nat)
    {exc : List Nat → Prop} : ∀ (fuel id : Nat) (seen : List Nat) (index : Nat) (acc : List MElem),
      Triple (acc.flatMap elemBlocks ++ fr)
        (memDirLoop io dev sat fuel id seen index acc : Mem σ (List MElem × Bool))
        (fun r => r.1.flatMap elemBlocks ++ fr) exc := by
  intro fuel
  induction fuel with
  | zero =>
    intro id seen index acc
    unfold memDirLoop
    split <;> exact triple_pure (.refl _)
  | succ fuel ih =>
    intro id seen index acc
    unfold memDirLoop
    split
    · exact triple_pure (.refl _)
    dsimp only
    split
    · exact triple_pure (.refl _)
    split
    · exact triple_pure (.refl _)
    refine triple_bind (memSlotLoop_spec _ _ fr _ _ _ _) fun r => ?_
    split
    · refine triple_try (mid := fun _ => r.1.flatMap elemBlocks ++ fr)
        (l' := r.1.flatMap elemBlocks ++ fr) ?_ (triple_pure (.refl _)) fun n => ih n _ _ _
      exact triple_bind (triple_ask (.refl _)) fun _ => triple_of (.refl _)
    · exact triple_pure (.refl _)

theorem memEmptyList_spec (acc : List MElem) (fr : List Nat) {exc : List Nat → Prop} :
    Triple (acc.flatMap elemBlocks ++ fr) (memEmptyList acc : Mem σ (List MElem × Bool))
      (fun r => r.1.flatMap elemBlocks ++ fr) exc := by
  unfold memEmptyList
  exact triple_bind (triple_forEach (fun a fr => freeElem_spec a fr) acc fr) fun _ =>
    triple_pure (.refl _)

theorem memReadDirectory_spec (io : IoHandle) (dev : Dev) (sat : AllocTable) (list : List MElem)
    (root : Nat) (fr : List Nat) {exc : List Nat → Prop} :
    Triple (list.flatMap elemBlocks ++ fr)
      (memReadDirectory io dev sat list root : Mem σ (List MElem × Bool))
      (fun r => r.1.flatMap elemBlocks ++ fr) exc := by
  unfold memReadDirectory
  split
  · exact triple_pure (.refl _)
  split
  · exact triple_pure (.refl _)
  refine triple_try (triple_alloc (.refl _)) (memEmptyList_spec _ _) fun b => ?_
  refine triple_try (triple_alloc (.refl _))
    (triple_bind triple_release_head fun _ => memEmptyList_spec _ _) fun c => ?_
  refine triple_bind (mid := fun r => r.1.flatMap elemBlocks ++ (c :: b :: fr)) ?_ fun r => ?_
  · exact triple_pre (memDirLoop_spec io dev sat (c :: b :: fr) _ _ _ _ _) (by blocks)
  refine triple_bind (mid := fun _ => r.1.flatMap elemBlocks ++ (b :: fr)) ?_ fun _ => ?_
  · refine triple_pre triple_release_head ?_
    blocks
  refine triple_bind (mid := fun _ => r.1.flatMap elemBlocks ++ fr) ?_ fun _ => ?_
  · refine triple_pre triple_release_head ?_
    blocks
  split
  · exact triple_pure (.refl _)
  · exact memEmptyList_spec _ _

/-! ### The tree -/

theorem memLookup_mem {list : List MElem} {id : Nat} {d : MEntry} (h : memLookup list id = some d) :
    ∃ x ∈ list, x.value = d := by
  induction list with
  | nil => cases h
  | cons x rest ih =>
    unfold memLookup at h
    split at h
    · cases h
      exact ⟨x, List.mem_cons_self, rfl⟩
    · obtain ⟨y, hy, he⟩ := ih h
      exact ⟨y, List.mem_cons_of_mem _ hy, he⟩

theorem memFindRoot_mem {list : List MElem} {d : MEntry} (h : memFindRoot list = some d) :
    ∃ x ∈ list, x.value = d := by
  induction list with
  | nil => cases h
  | cons x rest ih =>
    unfold memFindRoot at h
    split at h
    · cases h
      exact ⟨x, List.mem_cons_self, rfl⟩
    · obtain ⟨y, hy, he⟩ := ih h
      exact ⟨y, List.mem_cons_of_mem _ hy, he⟩

theorem memAttach_spec (parent : Option NodeKey) (c : MEntry) (st : MTreeState) (fr : List Nat)
    (hc : c.block ∈ fr) :
    Triple (st.nodes.map (·.block) ++ fr) (memAttach parent c st : Mem σ MTreeState)
      (fun st => st.nodes.map (·.block) ++ fr) (·.Perm (st.nodes.map (·.block) ++ fr)) := by
  unfold memAttach
  refine triple_use' (List.mem_append_right _ hc) ?_
  split
  · exact triple_fail (.refl _)
  refine triple_bind (triple_alloc (.refl _)) fun n => ?_
  refine triple_bind (mid := fun _ => n :: (st.nodes.map (·.block) ++ fr)) ?_ fun s =>
    triple_pure (.refl _)
  exact triple_onError_eq (triple_of (.refl _)) (.refl _) triple_release_head

/-- A link: the node is made and the entry is processed. -/
theorem link_spec {parent : Option NodeKey} {c : MEntry} {st : MTreeState} {fr : List Nat}
    (hc : c.block ∈ fr) {k : MTreeState → Mem σ (MTreeState × Bool)} {exc : List Nat → Prop}
    (hk : ∀ st, Triple (st.nodes.map (·.block) ++ fr) (k st)
      (fun r => r.1.nodes.map (·.block) ++ fr) exc) :
    Triple (st.nodes.map (·.block) ++ fr) (do
      match ← (memAttach parent c st).attempt with
      | none => pure (st, false)
      | some st => k st : Mem σ (MTreeState × Bool))
      (fun r => r.1.nodes.map (·.block) ++ fr) exc :=
  triple_try (memAttach_spec parent c st fr hc) (triple_pure (.refl _)) hk

theorem memProcessEntry_spec (list : List MElem) (cmp : Bytes → Bytes → Option Bool) (rootId : Nat)
    (fr : List Nat) (hl : ∀ x ∈ list, x.value.block ∈ fr) {exc : List Nat → Prop} :
    ∀ (fuel : Nat) (node : NodeKey) (parent : Option NodeKey) (d : MEntry) (st : MTreeState),
      d.block ∈ fr →
      Triple (st.nodes.map (·.block) ++ fr)
        (memProcessEntry list cmp rootId fuel node parent d st : Mem σ (MTreeState × Bool))
        (fun r => r.1.nodes.map (·.block) ++ fr) exc := by
  have hlk : ∀ {id c}, memLookup list id = some c → c.block ∈ fr := by
    intro id c h
    obtain ⟨x, hx, rfl⟩ := memLookup_mem h
    exact hl x hx
  intro fuel
  induction fuel with
  | zero =>
    intro node parent d st _ s h rest hok hl
    exact ⟨hok, rfl, fun _ h => (by cases h), fun h => (by cases h)⟩
  | succ fuel ih =>
    intro node parent d st hd
    unfold memProcessEntry
    refine triple_use' (List.mem_append_right _ hd) ?_
    refine triple_try (triple_of (.refl _)) (triple_pure (.refl _)) fun _ => ?_
    refine triple_bind (mid := fun r => r.1.nodes.map (·.block) ++ fr) ?_ fun r1 => ?_
    · split
      · split
        · exact triple_pure (.refl _)
        · exact link_spec (hlk ‹_›) fun st => ih _ _ _ st (hlk ‹_›)
      · exact triple_pure (.refl _)
    refine triple_bind (mid := fun r => r.1.nodes.map (·.block) ++ fr) ?_ fun r2 => ?_
    · split
      · split
        · exact triple_pure (.refl _)
        · exact link_spec (hlk ‹_›) fun st => ih _ _ _ st (hlk ‹_›)
      · exact triple_pure (.refl _)
    split
    · split
      · exact triple_pure (.refl _)
      · exact link_spec (hlk ‹_›) fun st => ih _ _ _ st (hlk ‹_›)
    · exact triple_pure (.refl _)

theorem freeNodesOnly_spec : ∀ (l : List MNode) (fr : List Nat) {exc : List Nat → Prop},
    Triple (l.map (·.block) ++ fr) (freeNodesOnly l : Mem σ Unit) (fun _ => fr) exc := by
  intro l fr exc
  have := triple_forEach (σ := σ) (f := freeNode fun _ => pure ())
    (blocks := fun n : MNode => [n.block]) (exc := exc) (fun n fr => by
      unfold freeNode
      refine triple_use' (by simp) ?_
      exact triple_bind (triple_pure (.refl _)) fun _ => triple_release_head) l fr
  have he : l.flatMap (fun n => [n.block]) = l.map (·.block) := by
    clear this
    induction l with
    | nil => rfl
    | cons a l ih => simp [List.flatMap_cons, ih]
  rwa [he] at this

/-- The nodes of a tree, without the entries. -/
def treeNodes (t : Option MTree) : List Nat := t.elim [] fun t => t.all.map (·.block)

theorem memCreateTree_spec (list : List MElem) (cmp : Bytes → Bytes → Option Bool)
    (fr : List Nat) (hl : ∀ x ∈ list, x.value.block ∈ fr) {exc : List Nat → Prop} :
    Triple fr (memCreateTree list cmp : Mem σ MTreeOut) (fun t => treeNodes t.tree ++ fr) exc := by
  unfold memCreateTree
  split
  · exact triple_pure (.refl _)
  split
  · exact triple_pure (.refl _)
  rename_i root hroot
  split
  · exact triple_pure (.refl _)
  refine triple_try (triple_alloc (.refl _)) (triple_pure (.refl _)) fun n => ?_
  obtain ⟨x, hx, hxr⟩ := memFindRoot_mem hroot
  have hr : root.block ∈ n :: fr := by rw [← hxr]; exact List.mem_cons_of_mem _ (hl x hx)
  refine triple_bind (mid := fun r => r.1.nodes.map (·.block) ++ (n :: fr)) ?_ fun r => ?_
  · exact memProcessEntry_spec _ cmp _ (n :: fr) (fun x hx => List.mem_cons_of_mem _ (hl x hx)) _ _ _ _
      ⟨⟨[], fun _ => []⟩, []⟩ hr
  split
  · refine triple_pure ?_
    simp only [treeNodes, Option.elim_some]
    blocks
  · refine triple_bind (mid := fun _ => fr) ?_ fun _ => triple_pure (.refl _)
    refine triple_pre (freeNodesOnly_spec _ fr) ?_
    blocks

end Lemmas
end Olecf
