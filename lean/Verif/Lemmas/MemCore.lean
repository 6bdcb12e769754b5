import Verif.Lemmas.MemStage

/-! The steps of opening a file. -/

namespace Olecf
namespace Lemmas

open Olecf.Spec Olecf.Props

variable {σ α β γ δ : Type}

/-! ### Freeing -/

/-- The blocks of the list of entries. -/
def listBlocks (l : Nat × List MElem) : List Nat := l.1 :: l.2.flatMap elemBlocks

theorem freeList_spec (l : Nat × List MElem) (fr : List Nat) {exc : List Nat → Prop} :
    Triple (listBlocks l ++ fr) (freeList freeEntry l : Mem σ Unit) (fun _ => fr) exc := by
  unfold freeList listBlocks
  refine triple_use' (by simp) ?_
  refine triple_bind (mid := fun _ => l.1 :: fr) ?_ fun _ => triple_release_head
  exact triple_pre (triple_forEach (fun a fr => freeElem_spec a fr) _ _) (by blocks)

theorem freeRestList_spec (marks : List Nat) (l : Nat × List MElem) (fr : List Nat)
    {exc : List Nat → Prop} :
    Triple (listBlocks l ++ fr) (freeList (freeEntryNotInTree marks) l : Mem σ Unit)
      (fun _ => l.2.flatMap (kept marks) ++ fr) exc := by
  unfold freeList listBlocks
  refine triple_use' (by simp) ?_
  refine triple_bind (mid := fun _ => l.1 :: (l.2.flatMap (kept marks) ++ fr)) ?_
    fun _ => triple_release_head
  refine triple_weaken (freeRest_spec marks l.2 (l.1 :: fr)) (by blocks) (fun _ => by blocks)
    (fun _ h => h)

theorem openCleanup_spec (header : Option Nat) (msat sat ssat : Option MTable)
    (list : Option (Nat × List MElem)) (fr : List Nat) {exc : List Nat → Prop} :
    Triple (header.toList ++ (msat.toList.flatMap tableBlocks ++ (sat.toList.flatMap tableBlocks ++
        (ssat.toList.flatMap tableBlocks ++ (list.toList.flatMap listBlocks ++ fr)))))
      (openCleanup header msat sat ssat list : Mem σ Unit) (fun _ => fr) exc := by
  unfold openCleanup
  have ht : ∀ (t : Option MTable) (fr : List Nat), Triple (t.toList.flatMap tableBlocks ++ fr)
      (Mem.forEach freeTable t.toList : Mem σ Unit) (fun _ => fr) exc := fun t fr =>
    triple_forEach (fun a fr => freeTable_spec a fr) _ _
  refine triple_bind (mid := fun _ => ssat.toList.flatMap tableBlocks ++ (sat.toList.flatMap tableBlocks ++
    (msat.toList.flatMap tableBlocks ++ (header.toList ++ fr)))) ?_ fun _ => ?_
  · exact triple_pre (triple_forEach (fun a fr => freeList_spec a fr) _ _) (by blocks)
  refine triple_bind (ht _ _) fun _ => triple_bind (ht _ _) fun _ => triple_bind (ht _ _) fun _ => ?_
  exact triple_releaseOpt

/-- A cleanup, then a failure. -/
theorem stage_cleanup {pre : List Nat} {header : Option Nat} {msat sat ssat : Option MTable}
    {list : Option (Nat × List MElem)} {io : IoHandle} {fr : List Nat}
    (hp : pre.Perm (header.toList ++ (msat.toList.flatMap tableBlocks ++ (sat.toList.flatMap tableBlocks ++
        (ssat.toList.flatMap tableBlocks ++ (list.toList.flatMap listBlocks ++ fr)))))) :
    Stage pre (do
        openCleanup header msat sat ssat list
        pure (io, none) : Mem σ (IoHandle × Option MLoaded))
      (fun r => r.2.elim [] loadedBlocks ++ fr) :=
  stage_quiet (quiet_openCleanup _ _ _ _ _) (triple_pre (openCleanup_spec _ _ _ _ _ fr) hp)
    (stage_pure (.refl _))

/-! ### What the header says -/

/-- The header that was read. -/
structure HeaderOk (io : IoHandle) (hdr : FileHeader) (k : Nat) : Prop where
  k_le : k ≤ 15
  size : io.sectorSize = 2 ^ k
  root : hdr.rootDirSector < 2 ^ 32
  ssat : hdr.ssatSector < 2 ^ 32

/-! ### Blocks -/

theorem memOpenTree_stage (cmp : Bytes → Bytes → Option Bool) (io : IoHandle) (header : Nat)
    (msat sat ssat : MTable) (list : Nat) (elems : List MElem) (fr : List Nat)
    (hnd : ((entriesOf' elems).map (·.id)).Nodup) :
    Stage (header :: (tableBlocks msat ++ (tableBlocks sat ++ (tableBlocks ssat ++
        (listBlocks (list, elems) ++ fr)))))
      (memOpenTree cmp io header msat sat ssat list elems : Mem σ (IoHandle × Option MLoaded))
      (fun r => r.2.elim [] loadedBlocks ++ fr) := by
  unfold memOpenTree
  refine stage_quiet (quiet_release _) triple_release_head ?_
  refine stage_bind (Q := fun t => TreeMade elems t ∧
      (t.ok = true → (createTree (entriesOf' elems) cmp).res = .ok (treeValue t)))
    ⟨memCreateTree_spec elems cmp _ ?_, safe_tracks (memCreateTree_tracks elems cmp) (C17_terminates _ _)⟩
    (fun s h a ha => ⟨memCreateTree_made elems cmp s h a ha,
      tracks_ensures (memCreateTree_tracks elems cmp) s h a ha⟩) fun t ht => ?_
  · intro x hx
    simp only [List.mem_append, listBlocks, List.mem_cons]
    right; right; right; left; right
    exact List.mem_flatMap.2 ⟨x, hx, by simp [elemBlocks, entryBlocks]⟩
  obtain ⟨hmade, hval⟩ := ht
  cases hok : t.ok with
  | true =>
    rw [if_pos rfl]
    refine stage_quiet (mid := elems.flatMap (kept t.marks) ++ (treeNodes t.tree ++ (tableBlocks msat ++
      (tableBlocks sat ++ (tableBlocks ssat ++ fr))))) (quiet_freeList (quiet_freeEntryNotInTree _) _)
      (triple_pre (freeRestList_spec t.marks (list, elems) _) ?_) (stage_pure ?_)
    · blocks
    cases htree : t.tree with
    | none =>
      have hm := hmade.none_marks hok htree
      have : elems.flatMap (kept t.marks) = [] := by
        rw [hm]; simp [kept]
      rw [this]
      simp only [treeNodes, Option.elim_none, Option.elim_some]
      blocks
    | some x =>
      have hv := hval hok
      rw [treeValue, htree] at hv
      have hnm := createTree_marks hnd hv
      have hm := hmade.marks x hok htree
      have hk := kept_nodes (list := elems) (nodes := x.all) hnd (by rw [hm]; exact hnm)
        (hmade.values x htree)
      rw [hm] at hk
      simp only [treeNodes, Option.elim_some]
      rw [← List.append_assoc]
      refine (hk.append_right _).trans ?_
      blocks
  | false =>
    rw [if_neg (by simp), hmade.failed hok]
    refine stage_cleanup ?_
    simp only [treeNodes, Option.elim_none]
    blocks

theorem memOpenDirectory_stage (cmp : Bytes → Bytes → Option Bool) (dev : Dev) (io : IoHandle)
    (hdr : FileHeader) (header : Nat) (msat sat ssat : MTable) (fr : List Nat) {k : Nat}
    (hh : HeaderOk io hdr k) (hw : sat.table.WF) :
    Stage (header :: (tableBlocks msat ++ (tableBlocks sat ++ (tableBlocks ssat ++ fr))))
      (memOpenDirectory cmp dev io hdr header msat sat ssat : Mem σ (IoHandle × Option MLoaded))
      (fun r => r.2.elim [] loadedBlocks ++ fr) := by
  unfold memOpenDirectory
  refine stage_try (triple_alloc (.refl _)) safe_alloc (ensures_true _) (stage_cleanup (by blocks))
    fun list _ => ?_
  have hd : (directoryValue io dev sat.table hdr.rootDirSector).Defined := by
    unfold directoryValue
    rcases (C14_directory_safe io dev sat.table.ids [] hdr.rootDirSector hw.size hw.lt hh.root).1 with
      h | ⟨h, _⟩ <;> rw [h] <;> trivial
  refine stage_bind (mid := fun r => r.1.flatMap elemBlocks ++ (list :: header :: (tableBlocks msat ++
      (tableBlocks sat ++ (tableBlocks ssat ++ fr)))))
    ⟨triple_pre (memReadDirectory_spec io dev sat.table [] _ _) (.refl _),
      safe_tracks (memReadDirectory_tracks io dev sat.table _) hd⟩
    (tracks_ensures (memReadDirectory_tracks io dev sat.table _)) fun r hr => ?_
  cases hok : r.2 with
  | true =>
    rw [if_pos rfl]
    refine stage_pre (memOpenTree_stage cmp io header msat sat ssat list r.1 fr ?_) ?_
    · have hv := hr hok
      unfold directoryValue at hv
      cases hres : (readDirectory io dev sat.table [] hdr.rootDirSector).1.res with
      | ok u =>
        rw [hres] at hv
        have hv : (readDirectory io dev sat.table [] hdr.rootDirSector).2 = entriesOf' r.1 :=
          Res.ok.inj hv
        rw [← hv]
        exact (readDirectory_entries hw hh.root hres).1.imp fun h => Nat.ne_of_lt h
      | err => rw [hres] at hv; cases hv
      | ub => rw [hres] at hv; cases hv
      | hang => rw [hres] at hv; cases hv
    · unfold listBlocks; blocks
  | false =>
    rw [if_neg (by simp)]
    refine stage_cleanup ?_
    unfold listBlocks
    blocks

theorem init0_ensures : Ensures (memTableInit 0 : Mem σ MTable) fun t => t.table = ⟨[]⟩ := by
  intro s h a ha
  have := tracks_ensures (memTableInit_tracks 0) s h a ha rfl
  rw [init0] at this
  exact (Res.ok.inj this).symm

theorem init0_safe : Safe (memTableInit 0 : Mem σ MTable) :=
  safe_tracks (memTableInit_tracks 0) (by rw [init0]; trivial)

theorem init109_ensures : Ensures (memTableInit 109 : Mem σ MTable) fun t =>
    t.table = ⟨List.replicate 109 0⟩ := by
  intro s h a ha
  have := tracks_ensures (memTableInit_tracks 109) s h a ha rfl
  rw [init109] at this
  exact (Res.ok.inj this).symm

theorem init109_safe : Safe (memTableInit 109 : Mem σ MTable) :=
  safe_tracks (memTableInit_tracks 109) (by rw [init109]; trivial)

theorem memOpenSsat_stage (cmp : Bytes → Bytes → Option Bool) (dev : Dev) (io : IoHandle)
    (hdr : FileHeader) (header : Nat) (msat sat : MTable) (fr : List Nat) {k : Nat}
    (hh : HeaderOk io hdr k) (hw : sat.table.WF) :
    Stage (header :: (tableBlocks msat ++ (tableBlocks sat ++ fr)))
      (memOpenSsat cmp dev io hdr header msat sat : Mem σ (IoHandle × Option MLoaded))
      (fun r => r.2.elim [] loadedBlocks ++ fr) := by
  unfold memOpenSsat
  refine stage_try (memTableInit_spec 0 _) init0_safe init0_ensures (stage_cleanup (by blocks))
    fun ssat hs => ?_
  refine stage_bind ⟨memReadSsat_spec io dev sat.table ssat _ _ _,
      memReadSsat_safe hs hh.k_le hh.size hw hh.ssat⟩
    (memReadSsat_ensures hs hh.k_le hh.size) fun r hr => ?_
  rw [hr.1, if_pos rfl]
  refine stage_pre (memOpenDirectory_stage cmp dev io hdr header msat sat r.1 fr hh hw) ?_
  blocks

theorem memOpenSat_stage (cmp : Bytes → Bytes → Option Bool) (dev : Dev) (io : IoHandle)
    (hdr : FileHeader) (header : Nat) (msat : MTable) (fr : List Nat) {k : Nat}
    (hh : HeaderOk io hdr k) (hw : msat.table.WF) :
    Stage (header :: (tableBlocks msat ++ fr))
      (memOpenSat cmp dev io hdr header msat : Mem σ (IoHandle × Option MLoaded))
      (fun r => r.2.elim [] loadedBlocks ++ fr) := by
  unfold memOpenSat
  refine stage_try (memTableInit_spec 0 _) init0_safe init0_ensures (stage_cleanup (by blocks))
    fun sat hs => ?_
  refine stage_bind ⟨memReadSat_spec io dev msat.table sat _ _,
      memReadSat_safe hs hh.k_le hh.size hw.lt⟩
    (memReadSat_ensures hs hh.k_le hh.size) fun r hr => ?_
  obtain ⟨v, hv, hvw, _⟩ := readSat_safe io dev msat.table hdr.satSectors k hh.k_le hh.size hw.lt
  rw [hr.1, if_pos rfl]
  refine stage_pre (memOpenSsat_stage cmp dev io hdr header msat r.1 fr hh (hr.2.wf hv hvw)) ?_
  blocks

theorem headerRead_defined (dev : Dev) (t : AllocTable) : (headerRead dev t).res.Defined := by
  rcases Classical.em (∃ d, dev.read 0 512 = some d ∧ d.length = 512 ∧ AcceptableHeader d) with h | h
  · obtain ⟨a, b, h'⟩ := (C01_header_acceptance dev t).1.2 h
    rw [h']; trivial
  · rw [(C01_header_acceptance dev _).2.1 h]; trivial

/-- The facts about a header that was read. -/
theorem headerOk {dev : Dev} {hdr : FileHeader} {t0 : AllocTable} (io : IoHandle)
    (h : (headerRead dev ⟨List.replicate 109 0⟩).res = .ok (hdr, t0)) :
    t0.WF ∧ hdr.msatSector < 2 ^ 32 ∧ ∃ k, HeaderOk (io.withHeader hdr) hdr k := by
  obtain ⟨hl, hv, h1, h2, h3, h4, h5, h6, h7⟩ := headerRead_fits h
  obtain ⟨⟨k, hk, hks⟩, _⟩ := headerRead_sizes h
  exact ⟨⟨by show t0.ids.length ≤ _; omega, hv⟩, h3, k, hk, hks, h1, h2⟩

theorem readMsat_defined {io : IoHandle} {dev : Dev} {t : AllocTable} {id count : Nat}
    (hid : id < 2 ^ 32) (hw : t.WF) : (readMsat io dev t id count).res.Defined := by
  rcases (readMsat_safe io dev t id count hid hw).1 with h | ⟨t, h, _⟩ <;> rw [h] <;> trivial

theorem readMsat_wf {io : IoHandle} {dev : Dev} {t v : AllocTable} {id count : Nat}
    (hid : id < 2 ^ 32) (hw : t.WF) (h : (readMsat io dev t id count).res = .ok v) : v.WF := by
  rcases (readMsat_safe io dev t id count hid hw).1 with h' | ⟨t, h', hw, _⟩
  · rw [h] at h'; cases h'
  · rw [h] at h'; cases h'; exact hw

theorem memOpenCore_stage (cmp : Bytes → Bytes → Option Bool) (dev : Dev) (io : IoHandle)
    (fr : List Nat) :
    Stage fr (memOpenCore cmp dev io : Mem σ (IoHandle × Option MLoaded))
      (fun r => r.2.elim [] loadedBlocks ++ fr) := by
  unfold memOpenCore
  refine stage_try (triple_alloc (.refl _)) safe_alloc (ensures_true _) (stage_pure (.refl _))
    fun header _ => ?_
  refine stage_try (memTableInit_spec 109 _) init109_safe init109_ensures (stage_cleanup (by blocks))
    fun msat hm => ?_
  refine stage_try (triple_of (.refl _)) (safe_tracks (tracks_of _) (headerRead_defined _ _))
    ensures_of (stage_cleanup (by blocks)) fun x hx => ?_
  rw [hm] at hx
  obtain ⟨hw, hid, k, hh⟩ := headerOk io hx
  refine stage_bind ⟨triple_pre (memReadMsat_spec (io.withHeader x.1) dev
      ⟨msat.block, msat.ids, x.2⟩ _ _ (header :: fr)) (by blocks),
      safe_tracks (memReadMsat_tracks _ _ _ _ _) (readMsat_defined hid hw)⟩
    (tracks_ensures (memReadMsat_tracks _ _ _ _ _)) fun r hr => ?_
  cases hok : r.2 with
  | true =>
    rw [if_pos rfl]
    exact stage_pre (memOpenSat_stage cmp dev _ x.1 header r.1 fr hh (readMsat_wf hid hw (hr hok)))
      (by blocks)
  | false =>
    rw [if_neg (by simp)]
    exact stage_cleanup (by blocks)

end Lemmas
end Olecf
