import Verif.Lemmas.MemValue

/-! File objects and their histories: blocks and values. -/

namespace Olecf
namespace Lemmas

open Olecf.Spec Olecf.Props

variable {σ α β γ δ : Type}

/-! ### Blocks -/

theorem stage_use {pre : List Nat} {b : Nat} {k : Unit → Mem σ β} {post : β → List Nat}
    (hb : b ∈ pre) (hk : Stage pre (k ()) post) : Stage pre (Mem.use b >>= k) post :=
  stage_quiet (quiet_use _) (triple_use hb) hk

theorem triple_world {pre : List Nat} {g : World → α × World} {exc : List Nat → Prop} :
    Triple pre (worldStep g) (fun _ => pre) exc := by
  intro s h rest hok hl
  exact ⟨hok, rfl, fun _ _ => hl, fun he => by cases he⟩

theorem stage_world {pre : List Nat} {g : World → α × World} {k : α → Mem World β}
    {post : β → List Nat} (hk : ∀ a, Stage pre (k a) post) : Stage pre (worldStep g >>= k) post :=
  stage_bind ⟨triple_world, fun _ _ => trivial⟩ (ensures_true _) fun a _ => hk a

/-- What holds of every file object between two calls. -/
structure FileOk (f : MFile) : Prop where
  block : f.handle = none → f.handleBlock = none
  msat : f.handle = none → f.msat = none
  sat : f.handle = none → f.sat = none
  ssat : f.handle = none → f.ssat = none
  tree : f.handle = none → f.tree = none
  created : f.createdInLibrary = f.handleBlock.isSome

theorem closed_blocks {f : MFile} (hf : FileOk f) (hc : f.handle = none) :
    fileBlocks f = [f.block, f.ioBlock] := by
  unfold fileBlocks contentBlocks treeBlocks
  rw [hf.block hc, hf.msat hc, hf.sat hc, hf.ssat hc, hf.tree hc]
  rfl

/-- A closed file object. -/
structure Closed (f : MFile) : Prop where
  block : f.handleBlock = none
  msat : f.msat = none
  sat : f.sat = none
  ssat : f.ssat = none
  tree : f.tree = none

/-- What `memOpenRead` makes of a closed file object. -/
structure ReadPost (f : MFile) (r : MFile × Bool) : Prop where
  block : r.1.block = f.block
  ioBlock : r.1.ioBlock = f.ioBlock
  handle : r.1.handle = f.handle
  handleBlock : r.1.handleBlock = f.handleBlock
  opened : r.1.openedInLibrary = f.openedInLibrary
  created : r.1.createdInLibrary = f.createdInLibrary
  failed : r.2 = false → Closed f → Closed r.1

theorem memOpenRead_stage (cmp : Bytes → Bytes → Option Bool) (dev : Dev) (f : MFile)
    (hf : Closed f) (fr : List Nat) :
    Stage (f.block :: f.ioBlock :: fr) (memOpenRead cmp dev f : Mem σ (MFile × Bool))
      (fun r => fileBlocks r.1 ++ fr) := by
  unfold memOpenRead
  refine stage_use (by simp) ?_
  rw [if_neg (by rw [hf.msat, hf.sat, hf.ssat, hf.tree]; simp)]
  refine stage_use (by simp) ?_
  refine stage_bind (memOpenCore_stage cmp dev f.io _) (ensures_true _) fun r _ => ?_
  cases hr : r.2 with
  | some l =>
    refine stage_pure ?_
    simp only [Option.elim_some, fileBlocks, contentBlocks, hf.block]
    blocks
  | none =>
    refine stage_pure ?_
    simp only [Option.elim_none, fileBlocks, contentBlocks, hf.block, hf.msat, hf.sat, hf.ssat, hf.tree]
    blocks

theorem memOpenRead_post (cmp : Bytes → Bytes → Option Bool) (dev : Dev) (f : MFile) :
    Ensures (memOpenRead cmp dev f : Mem σ (MFile × Bool)) (ReadPost f) := by
  unfold memOpenRead
  refine ensures_bind (ensures_true _) fun _ _ => ?_
  split
  · exact ensures_pure ⟨rfl, rfl, rfl, rfl, rfl, rfl, fun _ h => h⟩
  refine ensures_bind (ensures_true _) fun _ _ => ensures_bind (ensures_true _) fun r _ => ?_
  split
  · exact ensures_pure ⟨rfl, rfl, rfl, rfl, rfl, rfl, fun h => (by cases h)⟩
  · exact ensures_pure ⟨rfl, rfl, rfl, rfl, rfl, rfl, fun _ h => ⟨h.1, h.2, h.3, h.4, h.5⟩⟩

theorem FileOk.isClosed {f : MFile} (hf : FileOk f) (hc : f.handle = none) : Closed f :=
  ⟨hf.block hc, hf.msat hc, hf.sat hc, hf.ssat hc, hf.tree hc⟩

/-- What `memOpenHandle` makes of a file object. -/
structure HandlePost (f : MFile) (r : MFile × Bool) : Prop where
  block : r.1.block = f.block
  ioBlock : r.1.ioBlock = f.ioBlock
  ok : FileOk r.1
  success : r.2 = true → f.handle = none ∧ r.1.handle.isSome = true ∧ r.1.handleBlock = none
  failure : r.2 = false → r.1.handle.isSome = f.handle.isSome

theorem Closed.fileOk {f : MFile} (h : Closed f) (hc : f.createdInLibrary = false) : FileOk f :=
  ⟨fun _ => h.1, fun _ => h.2, fun _ => h.3, fun _ => h.4, fun _ => h.5, by rw [hc, h.1]; rfl⟩

theorem stage_outcome {pre : List Nat} {m : Mem σ α} {post : α → List Nat}
    (hm : Stage pre m post) (s : σ) {h : Heap} {rest : List Nat} (hs : Sound h)
    (hl : h.live.Perm (pre ++ rest)) : Sound (m s h).2.2 ∧
      ∃ a, (m s h).1 = .ok a ∧ (m s h).2.2.live.Perm (post a ++ rest) := by
  obtain ⟨h1, -, h3, h4⟩ := hm.1 s h rest hs hl
  refine ⟨h1, ?_⟩
  have h5 := hm.2 s h
  cases hr : (m s h).1 with
  | ok a => exact ⟨a, rfl, h3 a hr⟩
  | err => obtain ⟨l, hl, -⟩ := h4 hr; exact hl.elim
  | ub => rw [hr] at h5; exact h5.elim
  | hang => rw [hr] at h5; exact h5.elim

/-- Stages with a fact about their result. -/
structure Call (pre : List Nat) (m : Mem σ α) (post : α → List Nat) (Q : α → Prop) : Prop where
  stage : Stage pre m post
  ensures : Ensures m Q

theorem call_pure {pre : List Nat} {a : α} {post : α → List Nat} {Q : α → Prop}
    (h : pre.Perm (post a)) (hq : Q a) : Call pre (pure a : Mem σ α) post Q :=
  ⟨stage_pure h, ensures_pure hq⟩

theorem call_use {pre : List Nat} {b : Nat} {k : Unit → Mem σ β} {post : β → List Nat}
    {Q : β → Prop} (hb : b ∈ pre) (hk : Call pre (k ()) post Q) : Call pre (Mem.use b >>= k) post Q :=
  ⟨stage_use hb hk.stage, ensures_bind (ensures_true _) fun _ _ => hk.ensures⟩

theorem call_quiet {pre mid : List Nat} {c : Mem σ Unit} {k : Unit → Mem σ β}
    {post : β → List Nat} {Q : β → Prop} (hc : Quiet c)
    (ht : Triple pre c (fun _ => mid) (fun _ => False)) (hk : Call mid (k ()) post Q) :
    Call pre (c >>= k) post Q :=
  ⟨stage_quiet hc ht hk.stage, ensures_bind (ensures_true _) fun _ _ => hk.ensures⟩

theorem call_world {pre : List Nat} {g : World → α × World} {k : α → Mem World β}
    {post : β → List Nat} {Q : β → Prop} (hk : ∀ a, Call pre (k a) post Q) :
    Call pre (worldStep g >>= k) post Q :=
  ⟨stage_world fun a => (hk a).stage, ensures_bind (ensures_true _) fun a _ => (hk a).ensures⟩

theorem call_bind {pre : List Nat} {m : Mem σ α} {k : α → Mem σ β} {mid : α → List Nat}
    {post : β → List Nat} {P : α → Prop} {Q : β → Prop} (hm : Call pre m mid P)
    (hk : ∀ a, P a → Call (mid a) (k a) post Q) : Call pre (m >>= k) post Q :=
  ⟨stage_bind hm.stage hm.ensures fun a ha => (hk a ha).stage,
    ensures_bind hm.ensures fun a ha => (hk a ha).ensures⟩

theorem memOpenHandle_call (cmp : Bytes → Bytes → Option Bool) (h : HandleId) (flags : Nat)
    (flt : Faults) (f : MFile) (hf : FileOk f) (fr : List Nat) :
    Call (fileBlocks f ++ fr) (memOpenHandle cmp h flags flt f) (fun r => fileBlocks r.1 ++ fr)
      (HandlePost f) := by
  unfold memOpenHandle
  refine call_use (by simp [fileBlocks]) ?_
  have hsame : HandlePost f (f, false) := ⟨rfl, rfl, hf, fun h => (by cases h), fun _ => rfl⟩
  split
  · exact call_pure (.refl _) hsame
  split
  · exact call_pure (.refl _) hsame
  split
  · exact call_pure (.refl _) hsame
  rename_i hh _ _
  have hc : f.handle = none := by
    cases hx : f.handle with
    | none => rfl
    | some x => rw [hx] at hh; simp at hh
  have hcl := hf.isClosed hc
  have hcr : f.createdInLibrary = false := by rw [hf.created, hcl.block]; rfl
  have hreset : HandlePost f ({ f with handle := none }, false) :=
    ⟨rfl, rfl, (⟨hcl.1, hcl.2, hcl.3, hcl.4, hcl.5⟩ : Closed { f with handle := none }).fileOk hcr,
      fun h => (by cases h), fun _ => (by rw [hc])⟩
  split
  · exact call_pure (.refl _) hreset
  refine call_world fun wasOpen => call_world fun opened => ?_
  split
  · exact call_pure (.refl _) hreset
  refine call_world fun dev => ?_
  have key : ∀ g : MFile, g.block = f.block → g.ioBlock = f.ioBlock → g.handle = none → Closed g →
      g.createdInLibrary = false →
      Call (fileBlocks f ++ fr) (do
        let r ← memOpenRead cmp dev g
        if r.2 then pure ({ r.1 with handle := some h }, true)
        else if !wasOpen && r.1.openedInLibrary then do
          let _ ← worldStep fun w => w.closeH flt h
          pure ({ r.1 with openedInLibrary := false, handle := none }, false)
        else pure ({ r.1 with handle := none }, false)) (fun r => fileBlocks r.1 ++ fr)
        (HandlePost f) := by
    intro g hg1 hg2 hg3 hg hg4
    rw [closed_blocks hf hc, ← hg1, ← hg2]
    refine call_bind ⟨memOpenRead_stage cmp dev g hg fr, memOpenRead_post cmp dev g⟩ fun r hr => ?_
    cases hok : r.2 with
    | true =>
      rw [if_pos rfl]
      refine call_pure (.refl _) ⟨hr.block.trans hg1, hr.ioBlock.trans hg2,
        ⟨fun h => (by cases h), fun h => (by cases h), fun h => (by cases h), fun h => (by cases h),
          fun h => (by cases h), ?_⟩, fun _ => ⟨hc, rfl, hr.handleBlock.trans hg.block⟩,
        fun h => (by cases h)⟩
      show r.1.createdInLibrary = r.1.handleBlock.isSome
      rw [hr.created, hr.handleBlock, hg4, hg.block]
      rfl
    | false =>
      rw [if_neg (by simp)]
      have hrc := hr.failed hok hg
      split
      · refine call_world fun _ => call_pure (.refl _) ⟨hr.block.trans hg1, hr.ioBlock.trans hg2,
          (⟨hrc.1, hrc.2, hrc.3, hrc.4, hrc.5⟩ :
            Closed { r.1 with openedInLibrary := false, handle := none }).fileOk
              (hr.created.trans hg4), fun h => (by cases h), fun _ => (by rw [hc])⟩
      · exact call_pure (.refl _) ⟨hr.block.trans hg1, hr.ioBlock.trans hg2,
          (⟨hrc.1, hrc.2, hrc.3, hrc.4, hrc.5⟩ : Closed { r.1 with handle := none }).fileOk
              (hr.created.trans hg4), fun h => (by cases h), fun _ => (by rw [hc])⟩
  cases wasOpen with
  | true => exact key f rfl rfl hc hcl hcr
  | false =>
    exact key { f with openedInLibrary := true } rfl rfl hc ⟨hcl.1, hcl.2, hcl.3, hcl.4, hcl.5⟩ hcr

/-- What one call makes of a file object. -/
structure OpPost (f : MFile) (r : MFile × Bool) : Prop where
  block : r.1.block = f.block
  ioBlock : r.1.ioBlock = f.ioBlock
  ok : FileOk r.1

theorem HandlePost.op {f : MFile} {r : MFile × Bool} (h : HandlePost f r) : OpPost f r :=
  ⟨h.block, h.ioBlock, h.ok⟩

theorem memOpenName_call (cmp : Bytes → Bytes → Option Bool) (dev : Dev) (flags : Nat)
    (flt : Faults) (f : MFile) (hf : FileOk f) (fr : List Nat) :
    Call (fileBlocks f ++ fr) (memOpenName cmp dev flags flt f) (fun r => fileBlocks r.1 ++ fr)
      (OpPost f) := by
  unfold memOpenName
  have hsame : OpPost f (f, false) := ⟨rfl, rfl, hf⟩
  split
  · exact call_pure (.refl _) hsame
  refine call_bind (P := fun _ => True)
    (mid := fun o => o.elim (fileBlocks f ++ fr) fun b => b :: (fileBlocks f ++ fr))
    ⟨⟨triple_attempt (triple_alloc (.refl _)), safe_attempt safe_alloc⟩, ensures_true _⟩ fun o _ => ?_
  cases o with
  | none => exact call_pure (.refl _) hsame
  | some hb =>
    refine call_world fun h => ?_
    split
    · exact call_world fun _ => call_quiet (quiet_release _) triple_release_head
        (call_pure (.refl _) hsame)
    have hcall := memOpenHandle_call cmp h flags flt f hf (hb :: fr)
    have hpre : (hb :: (fileBlocks f ++ fr)).Perm (fileBlocks f ++ (hb :: fr)) := by blocks
    refine call_bind (mid := fun r => fileBlocks r.1 ++ (hb :: fr))
      ⟨stage_pre hcall.stage hpre, hcall.ensures⟩ fun r hr => ?_
    cases hok : r.2 with
    | true =>
      rw [if_pos rfl]
      obtain ⟨h1, h2, h3⟩ := hr.success hok
      refine call_pure ?_ ⟨hr.block, hr.ioBlock, ?_⟩
      · simp only [fileBlocks, contentBlocks, h3]
        blocks
      · have hne : ({ r.1 with createdInLibrary := true, handleBlock := some hb } : MFile).handle ≠ none := by
          show r.1.handle ≠ none
          intro h; rw [h] at h2; cases h2
        exact ⟨fun h => absurd h hne, fun h => absurd h hne, fun h => absurd h hne,
          fun h => absurd h hne, fun h => absurd h hne, rfl⟩
    | false =>
      rw [if_neg (by simp)]
      refine call_world fun _ => call_quiet (mid := fileBlocks r.1 ++ fr) (quiet_release _)
        (triple_pre triple_release_head (by blocks)) (call_pure (.refl _) ⟨hr.block, hr.ioBlock, hr.ok⟩)

theorem freeNodes_spec : ∀ (l : List MNode) (fr : List Nat) {exc : List Nat → Prop},
    Triple (l.flatMap nodeBlocks ++ fr) (Mem.forEach (freeNode freeEntry) l : Mem σ Unit) (fun _ => fr) exc := by
  intro l fr exc
  refine triple_forEach (fun n fr => ?_) l fr
  unfold freeNode
  refine triple_use' (by simp [nodeBlocks]) ?_
  refine triple_bind (mid := fun _ => n.block :: fr) ?_ fun _ => triple_release_head
  exact triple_pre (freeEntry_spec _ _) (by blocks)

theorem memCloseFile_call (flt : Faults) (f : MFile) (hf : FileOk f) (fr : List Nat) :
    Call (fileBlocks f ++ fr) (memCloseFile flt f) (fun r => fileBlocks r.1 ++ fr)
      (fun r => OpPost f r ∧ r.1.handle = none) := by
  unfold memCloseFile
  refine call_use (by simp [fileBlocks]) ?_
  cases hh : f.handle with
  | none => exact call_pure (.refl _) ⟨⟨rfl, rfl, hf⟩, hh⟩
  | some h =>
    refine call_world fun ok1 => call_world fun ok2 => ?_
    have ht : ∀ (t : Option MTable) (fr : List Nat), Triple (t.toList.flatMap tableBlocks ++ fr)
        (Mem.forEach freeTable t.toList : Mem World Unit) (fun _ => fr) (fun _ => False) := fun t fr =>
      triple_forEach (fun a fr => freeTable_spec a fr) _ _
    have hq : ∀ t : Option MTable, Quiet (Mem.forEach freeTable t.toList : Mem World Unit) :=
      fun t => quiet_forEach quiet_freeTable _
    have key : Call (f.msat.toList.flatMap tableBlocks ++ (f.sat.toList.flatMap tableBlocks ++
        (f.ssat.toList.flatMap tableBlocks ++ (treeBlocks f.tree ++ (f.block :: f.ioBlock :: fr))))) (do
          Mem.use f.ioBlock
          Mem.forEach freeTable f.msat.toList
          Mem.forEach freeTable f.sat.toList
          Mem.forEach freeTable f.ssat.toList
          Mem.forEach (freeNode freeEntry) (f.tree.elim [] MTree.all)
          pure ({ f with io := .cleared, abort := false, handle := none, handleBlock := none,
                         openedInLibrary := false, createdInLibrary := false, msat := none, sat := none,
                         ssat := none, tree := none }, ok1 && ok2) : Mem World (MFile × Bool))
        (fun r => fileBlocks r.1 ++ fr) (fun r => OpPost f r ∧ r.1.handle = none) := by
      refine call_use (by simp) ?_
      refine call_quiet (hq _) (ht _ _) (call_quiet (hq _) (ht _ _) (call_quiet (hq _) (ht _ _) ?_))
      refine call_quiet (mid := f.block :: f.ioBlock :: fr)
        (quiet_forEach (quiet_freeNode quiet_freeEntry) _) ?_ (call_pure (.refl _)
          ⟨⟨rfl, rfl, fun _ => rfl, fun _ => rfl, fun _ => rfl, fun _ => rfl, fun _ => rfl, rfl⟩, rfl⟩)
      have := freeNodes_spec (σ := World) (f.tree.elim [] MTree.all) (f.block :: f.ioBlock :: fr)
        (exc := fun _ => False)
      refine triple_pre this ?_
      cases f.tree <;> exact .refl _
    cases hcr : f.createdInLibrary with
    | true =>
      refine call_quiet (mid := f.msat.toList.flatMap tableBlocks ++ (f.sat.toList.flatMap tableBlocks ++
        (f.ssat.toList.flatMap tableBlocks ++ (treeBlocks f.tree ++ (f.block :: f.ioBlock :: fr)))))
        (by rw [if_pos rfl]; exact quiet_releaseOpt _)
        (by rw [if_pos rfl]; exact triple_pre triple_releaseOpt (by blocks)) key
    | false =>
      have hb : f.handleBlock = none := by
        have := hf.created
        rw [hcr] at this
        cases hx : f.handleBlock with
        | none => rfl
        | some x => rw [hx] at this; cases this
      refine call_quiet (mid := f.msat.toList.flatMap tableBlocks ++ (f.sat.toList.flatMap tableBlocks ++
        (f.ssat.toList.flatMap tableBlocks ++ (treeBlocks f.tree ++ (f.block :: f.ioBlock :: fr)))))
        (by rw [if_neg (by simp)]; exact quiet_pure)
        (by
          rw [if_neg (by simp)]
          refine triple_pure ?_
          simp only [fileBlocks, contentBlocks, hb]
          blocks) key

theorem op_call (cmp : Bytes → Bytes → Option Bool) (op : FileOp) (f : MFile) (hf : FileOk f)
    (fr : List Nat) :
    Call (fileBlocks f ++ fr) (FileOp.mem cmp f op) (fun r => fileBlocks r.1 ++ fr) (OpPost f) := by
  cases op with
  | openHandle n flags flt =>
    have := memOpenHandle_call cmp (.user n) flags flt f hf fr
    exact ⟨this.stage, fun s h a ha => (this.ensures s h a ha).op⟩
  | openName dev flags flt => exact memOpenName_call cmp dev flags flt f hf fr
  | close flt =>
    have := memCloseFile_call flt f hf fr
    exact ⟨this.stage, fun s h a ha => (this.ensures s h a ha).1⟩
  | setCodepage cp =>
    unfold FileOp.mem memSetCodepage
    refine call_use (by simp [fileBlocks]) ?_
    split
    · exact call_pure (.refl _) ⟨rfl, rfl, hf⟩
    · exact call_use (by simp [fileBlocks]) (call_pure (.refl _)
        ⟨rfl, rfl, hf.1, hf.2, hf.3, hf.4, hf.5, hf.6⟩)
  | signalAbort =>
    unfold FileOp.mem memSignalAbort
    exact call_use (by simp [fileBlocks]) (call_use (by simp [fileBlocks])
      (call_pure (.refl _) ⟨rfl, rfl, hf.1, hf.2, hf.3, hf.4, hf.5, hf.6⟩))
  | caller n b dev =>
    unfold FileOp.mem
    exact call_world fun _ => call_pure (.refl _) ⟨rfl, rfl, hf⟩

theorem ops_call (cmp : Bytes → Bytes → Option Bool) (ops : List FileOp) : ∀ (f : MFile), FileOk f →
    ∀ fr : List Nat, Call (fileBlocks f ++ fr) (memOps cmp f ops) (fun r => fileBlocks r.1 ++ fr)
      (fun r => r.1.block = f.block ∧ r.1.ioBlock = f.ioBlock ∧ FileOk r.1) := by
  induction ops with
  | nil => intro f hf fr; exact call_pure (.refl _) ⟨rfl, rfl, hf⟩
  | cons op ops ih =>
    intro f hf fr
    unfold memOps
    refine call_bind (op_call cmp op f hf fr) fun r hr => ?_
    refine call_bind (ih r.1 hr.ok fr) fun r' hr' => call_pure (.refl _) ?_
    exact ⟨hr'.1.trans hr.block, hr'.2.1.trans hr.ioBlock, hr'.2.2⟩

theorem memNewFile_spec (fr : List Nat) :
    Triple fr (memNewFile : Mem σ MFile) (fun f => fileBlocks f ++ fr) (·.Perm fr) := by
  unfold memNewFile
  refine triple_bind (triple_alloc (.refl _)) fun b => ?_
  refine triple_bind (mid := fun i => i :: b :: fr) ?_ fun i => triple_pure (by blocks)
  exact triple_onError_eq (triple_alloc (.refl _)) (.refl _) triple_release_head

theorem memNewFile_tracks : Tracks (memNewFile : Mem σ MFile) (.ok OleFile.new) (fun _ => true)
    MFile.value := by
  unfold memNewFile
  refine tracks_step (v := .ok ()) (w := fun _ => .ok OleFile.new) tracks_alloc fun b _ => ?_
  exact tracks_step (v := .ok ()) (w := fun _ => .ok OleFile.new)
    (tracks_onError tracks_alloc (quiet_release _)) fun i _ => tracks_ret rfl rfl

theorem memNewFile_ok : Ensures (memNewFile : Mem σ MFile) fun f => FileOk f ∧ f.handle = none := by
  unfold memNewFile
  exact ensures_bind (ensures_true _) fun _ _ => ensures_bind (ensures_true _) fun _ _ =>
    ensures_pure ⟨⟨fun _ => rfl, fun _ => rfl, fun _ => rfl, fun _ => rfl, fun _ => rfl, rfl⟩, rfl⟩

theorem memFreeFile_call (flt : Faults) (f : MFile) (hf : FileOk f) (fr : List Nat) :
    Call (fileBlocks f ++ fr) (memFreeFile flt f) (fun _ => fr) (fun _ => True) := by
  unfold memFreeFile
  refine call_use (by simp [fileBlocks]) ?_
  have key : ∀ r : MFile × Bool, (OpPost f r ∧ r.1.handle = none) →
      Call (fileBlocks r.1 ++ fr) (do
        Mem.release r.1.ioBlock
        Mem.release r.1.block
        pure r.2 : Mem World Bool) (fun _ => fr) (fun _ => True) := by
    intro r hr
    rw [closed_blocks hr.1.ok hr.2]
    exact call_quiet (mid := r.1.block :: fr) (quiet_release _)
      (triple_pre triple_release_head (by blocks))
      (call_quiet (quiet_release _) triple_release_head (call_pure (.refl _) trivial))
  cases hh : f.handle with
  | none =>
    rw [if_neg (by simp), mem_pure_bind]
    exact key (f, true) ⟨⟨rfl, rfl, hf⟩, hh⟩
  | some h =>
    rw [if_pos (by simp)]
    exact call_bind (memCloseFile_call flt f hf fr) key

/-! ### Values -/

/-- What the program computes from a state, if every request is granted. -/
def At (m : Mem σ α) (s : σ) (v : Res γ) (s' : σ) (view : α → γ) : Prop :=
  ∀ h, Ample h → Ample (m s h).2.2 ∧ (m s h).2.1 = s' ∧
    match (m s h).1 with
    | .ok a => v = .ok (view a)
    | .err => v = .err
    | .ub => v = .ub
    | .hang => v = .hang

theorem at_pure {a : α} {s : σ} {v : Res γ} {view : α → γ} (h : v = .ok (view a)) :
    At (pure a : Mem σ α) s v s view := fun _ ha => ⟨ha, rfl, h⟩

theorem at_quiet {c : Mem σ Unit} {k : Unit → Mem σ β} {s s' : σ} {v : Res γ} {view : β → γ}
    (hc : Quiet c) (hk : At (k ()) s v s' view) : At (c >>= k) s v s' view := by
  intro h ha
  obtain ⟨h', hg, he⟩ := quiet_bind_eq hc k s h
  rw [he]
  exact hk h' ((ample_congr hg).2 ha)

theorem at_world {g : World → α × World} {k : α → Mem World β} {s s' : World} {v : Res γ}
    {view : β → γ} (hk : At (k (g s).1) (g s).2 v s' view) : At (worldStep g >>= k) s v s' view :=
  fun h ha => hk h ha

theorem at_bind {m : Mem σ α} {k : α → Mem σ β} {s s1 s' : σ} {v : Res γ} {w : Res δ}
    {view : α → γ} {view' : β → δ} (hm : At m s v s1 view) (hv : ∃ c, v = .ok c)
    (hk : ∀ a, v = .ok (view a) → At (k a) s1 w s' view') : At (m >>= k) s w s' view' := by
  intro h ha
  obtain ⟨k1, k2, k3⟩ := hm h ha
  rw [mem_bind]
  unfold Mem.bind
  revert k1 k2 k3
  rcases m s h with ⟨r, t, h'⟩
  intro k1 k2 k3
  dsimp only at k1 k2 k3
  subst k2
  obtain ⟨c, rfl⟩ := hv
  cases r with
  | ok a => exact hk a k3 h' k1
  | err => cases k3
  | ub => cases k3
  | hang => cases k3

theorem at_alloc {k : Option Nat → Mem σ β} {s s' : σ} {v : Res γ} {view : β → γ}
    (hk : ∀ b, At (k (some b)) s v s' view) : At (Mem.alloc.attempt >>= k) s v s' view := by
  intro h ha
  have h1 : (Mem.alloc.attempt : Mem σ (Option Nat)) s h = (.ok (some h.asked), s,
      { h with asked := h.asked + 1, live := h.asked :: h.live }) := by
    unfold Mem.attempt Mem.alloc
    rw [if_pos (ha _)]
  rw [mem_bind]
  unfold Mem.bind
  rw [h1]
  exact hk _ _ ha

/-- The view of a call on a file object. -/
def callView (r : MFile × Bool) : OleFile × Bool := (MFile.value r.1, r.2)

/-- The outcome of a call as a value. -/
def callValue (r : Res Unit) (f : OleFile) : Res (OleFile × Bool) :=
  match r with
  | .ok _ => .ok (f, true)
  | .err => .ok (f, false)
  | .ub => .ub
  | .hang => .hang

theorem memOpenRead_at (cmp : Bytes → Bytes → Option Bool) (dev : Dev) (f : MFile) (s : σ) :
    At (memOpenRead cmp dev f : Mem σ (MFile × Bool)) s
      (callValue (openRead cmp dev (MFile.value f)).1.res (openRead cmp dev (MFile.value f)).2) s callView := by
  unfold memOpenRead
  refine at_quiet (quiet_use _) ?_
  have hiff : ((MFile.value f).msat.isSome ∨ (MFile.value f).sat.isSome ∨ (MFile.value f).ssat.isSome ∨
      (MFile.value f).tree.isSome) ↔ (f.msat.isSome ∨ f.sat.isSome ∨ f.ssat.isSome ∨ f.tree.isSome) := by
    unfold MFile.value
    simp only [Option.isSome_map]
  by_cases hc : f.msat.isSome ∨ f.sat.isSome ∨ f.ssat.isSome ∨ f.tree.isSome
  · rw [if_pos hc]
    unfold openRead
    rw [if_pos (hiff.2 hc)]
    exact at_pure rfl
  · rw [if_neg hc]
    refine at_quiet (quiet_use _) ?_
    have hcore := memOpenCore_computes (σ := σ) cmp dev f.io s
    unfold openRead
    rw [if_neg (mt hiff.1 hc)]
    have hio : (MFile.value f).io = f.io := rfl
    rw [hio]
    have hd := openCore_defined cmp dev f.io
    refine at_bind (v := openValue (openCore cmp dev f.io)) (view := openView) hcore ?_ fun r hr => ?_
    · unfold openValue
      cases h : (openCore cmp dev f.io).1.res with
      | ok l => exact ⟨_, rfl⟩
      | err => exact ⟨_, rfl⟩
      | ub => rw [h] at hd; exact hd.elim
      | hang => rw [h] at hd; exact hd.elim
    · unfold openValue openView at hr
      obtain ⟨r1, r2⟩ := r
      dsimp only at hr ⊢
      cases h : (openCore cmp dev f.io).1.res with
      | ok l =>
        rw [h] at hr
        simp only [Res.ok.injEq, Prod.mk.injEq] at hr
        obtain ⟨hr1, hr2⟩ := hr
        cases r2 with
        | none => cases hr2
        | some l' =>
          simp only [Option.map_some, Option.some.injEq] at hr2
          refine at_pure ?_
          rw [hr1, hr2]
          rfl
      | err =>
        rw [h] at hr
        simp only [Res.ok.injEq, Prod.mk.injEq] at hr
        obtain ⟨hr1, hr2⟩ := hr
        cases r2 with
        | none =>
          refine at_pure ?_
          rw [hr1]
          rfl
        | some l' => cases hr2
      | ub => rw [h] at hd; exact hd.elim
      | hang => rw [h] at hd; exact hd.elim

theorem openRead_defined (cmp : Bytes → Bytes → Option Bool) (dev : Dev) (f : OleFile) :
    (openRead cmp dev f).1.res = .ok () ∨ (openRead cmp dev f).1.res = .err := by
  unfold openRead
  split
  · exact .inr rfl
  · have hd := openCore_defined cmp dev f.io
    dsimp only
    cases h : (openCore cmp dev f.io).1.res with
    | ok l => exact .inl rfl
    | err => exact .inr rfl
    | ub => rw [h] at hd; exact hd.elim
    | hang => rw [h] at hd; exact hd.elim

/-- The rest of `openHandle` once the handle is open. -/
def handleTail (cmp : Bytes → Bytes → Option Bool) (h : HandleId) (flt : Faults) (wasOpen : Bool)
    (file : OleFile) (world : World) : Res Unit × FileState :=
  let (out, file) := openRead cmp (world.dev h) file
  match out.res with
  | .ok _ => (.ok (), ⟨{ file with handle := some h }, world⟩)
  | r =>
    if !wasOpen && file.openedInLibrary then
      (r.failed, ⟨{ file with openedInLibrary := false, handle := none }, (world.closeH flt h).2⟩)
    else (r.failed, ⟨{ file with handle := none }, world⟩)

theorem openHandle_tail (cmp : Bytes → Bytes → Option Bool) (h : HandleId) (flags : Nat)
    (flt : Faults) (st : FileState) :
    openHandle cmp h flags flt st =
      if st.file.handle.isSome then (.err, st)
      else if !flagRead flags && !flagWrite flags then (.err, st)
      else if flagWrite flags then (.err, st)
      else if flt.isOpen then (.err, ⟨{ st.file with handle := none }, st.world⟩)
      else if st.world.isOpen h then handleTail cmp h flt true st.file st.world
      else if !(st.world.openH flt h).1 then
        (.err, ⟨{ st.file with handle := none }, (st.world.openH flt h).2⟩)
      else handleTail cmp h flt false { st.file with openedInLibrary := true } (st.world.openH flt h).2 := by
  unfold openHandle handleTail
  cases st.world.isOpen h <;> rfl

theorem handleTail_at (cmp : Bytes → Bytes → Option Bool) (h : HandleId) (flt : Faults)
    (wasOpen : Bool) (g : MFile) (w1 : World) :
    At (do
      let dev ← worldStep fun w => (w.dev h, w)
      let r ← memOpenRead cmp dev g
      if r.2 then pure ({ r.1 with handle := some h }, true)
      else if !wasOpen && r.1.openedInLibrary then do
        let _ ← worldStep fun w => w.closeH flt h
        pure ({ r.1 with openedInLibrary := false, handle := none }, false)
      else pure ({ r.1 with handle := none }, false)) w1
      (callValue (handleTail cmp h flt wasOpen (MFile.value g) w1).1
        (handleTail cmp h flt wasOpen (MFile.value g) w1).2.file)
      (handleTail cmp h flt wasOpen (MFile.value g) w1).2.world callView := by
  unfold handleTail
  refine at_world ?_
  dsimp only
  have hd := openRead_defined cmp (w1.dev h) (MFile.value g)
  have hr := memOpenRead_at cmp (w1.dev h) g w1
  revert hd hr
  generalize openRead cmp (w1.dev h) (MFile.value g) = o
  obtain ⟨⟨reads, res⟩, file⟩ := o
  intro hd hr
  dsimp only at hd hr ⊢
  refine at_bind hr ?_ fun r hrv => ?_
  · rcases hd with rfl | rfl <;> exact ⟨_, rfl⟩
  · rcases hd with rfl | rfl
    · replace hrv : (file, true) = callView r := Res.ok.inj hrv
      obtain ⟨r1, r2⟩ := r
      unfold callView at hrv
      simp only [Prod.mk.injEq] at hrv
      obtain ⟨rfl, rfl⟩ := hrv
      rw [if_pos rfl]
      exact at_pure rfl
    · replace hrv : (file, false) = callView r := Res.ok.inj hrv
      obtain ⟨r1, r2⟩ := r
      unfold callView at hrv
      simp only [Prod.mk.injEq] at hrv
      obtain ⟨rfl, rfl⟩ := hrv
      rw [if_neg (by simp)]
      have ho : (MFile.value r1).openedInLibrary = r1.openedInLibrary := rfl
      dsimp only
      rw [ho]
      cases (!wasOpen && r1.openedInLibrary)
      · exact at_pure rfl
      · exact at_world (at_pure rfl)

theorem memOpenHandle_at (cmp : Bytes → Bytes → Option Bool) (h : HandleId) (flags : Nat)
    (flt : Faults) (f : MFile) (w : World) :
    At (memOpenHandle cmp h flags flt f) w
      (callValue (openHandle cmp h flags flt ⟨MFile.value f, w⟩).1
        (openHandle cmp h flags flt ⟨MFile.value f, w⟩).2.file)
      (openHandle cmp h flags flt ⟨MFile.value f, w⟩).2.world callView := by
  rw [openHandle_tail]
  unfold memOpenHandle
  refine at_quiet (quiet_use _) ?_
  have hh : (MFile.value f).handle.isSome = f.handle.isSome := rfl
  dsimp only
  rw [hh]
  cases f.handle.isSome with
  | true => exact at_pure rfl
  | false =>
    rw [if_neg Bool.false_ne_true, if_neg Bool.false_ne_true]
    cases (!flagRead flags && !flagWrite flags) with
    | true => exact at_pure rfl
    | false =>
      rw [if_neg Bool.false_ne_true, if_neg Bool.false_ne_true]
      cases flagWrite flags with
      | true => exact at_pure rfl
      | false =>
        rw [if_neg Bool.false_ne_true, if_neg Bool.false_ne_true]
        cases flt.isOpen with
        | true => exact at_pure rfl
        | false =>
          rw [if_neg Bool.false_ne_true, if_neg Bool.false_ne_true]
          refine at_world ?_
          dsimp only
          cases w.isOpen h with
          | true =>
            refine at_world ?_
            exact handleTail_at cmp h flt true f w
          | false =>
            refine at_world ?_
            show At (if !(w.openH flt h).1 then _ else _) (w.openH flt h).2 _ _ _
            rw [if_neg Bool.false_ne_true]
            cases (w.openH flt h).1 with
            | false => exact at_pure rfl
            | true => exact handleTail_at cmp h flt false { f with openedInLibrary := true } (w.openH flt h).2

theorem openHandle_defined (cmp : Bytes → Bytes → Option Bool) (h : HandleId) (flags : Nat)
    (flt : Faults) (st : FileState) :
    (openHandle cmp h flags flt st).1 = .ok () ∨ (openHandle cmp h flags flt st).1 = .err := by
  unfold openHandle
  split
  · exact .inr rfl
  split
  · exact .inr rfl
  split
  · exact .inr rfl
  split
  · exact .inr rfl
  dsimp only
  generalize (if st.world.isOpen h = true then (true, st.world) else st.world.openH flt h) = ow
  obtain ⟨opened, w1⟩ := ow
  cases opened with
  | false => exact .inr rfl
  | true =>
    dsimp only [Bool.not_true]
    rw [if_neg (by simp)]
    have hd := openRead_defined cmp (w1.dev h)
      (if st.world.isOpen h = true then st.file else { st.file with openedInLibrary := true })
    revert hd
    generalize openRead cmp (w1.dev h) _ = o
    obtain ⟨⟨reads, res⟩, file⟩ := o
    intro hd
    dsimp only at hd ⊢
    rcases hd with rfl | rfl
    · exact .inl rfl
    · dsimp only
      split <;> exact .inr rfl

theorem memOpenName_at (cmp : Bytes → Bytes → Option Bool) (dev : Dev) (flags : Nat)
    (flt : Faults) (f : MFile) (w : World) :
    At (memOpenName cmp dev flags flt f) w
      (callValue (openName cmp dev flags flt ⟨MFile.value f, w⟩).1
        (openName cmp dev flags flt ⟨MFile.value f, w⟩).2.file)
      (openName cmp dev flags flt ⟨MFile.value f, w⟩).2.world callView := by
  unfold memOpenName openName
  split
  · exact at_pure rfl
  refine at_alloc fun hb => at_world ?_
  dsimp only
  split
  · exact at_world (at_quiet (quiet_release _) (at_pure rfl))
  have hd := openHandle_defined cmp (w.createH dev).1 flags flt ⟨MFile.value f, (w.createH dev).2⟩
  have hr := memOpenHandle_at cmp (w.createH dev).1 flags flt f (w.createH dev).2
  revert hd hr
  generalize openHandle cmp (w.createH dev).1 flags flt ⟨MFile.value f, (w.createH dev).2⟩ = o
  obtain ⟨res, ⟨file, w1⟩⟩ := o
  intro hd hr
  dsimp only at hd hr ⊢
  refine at_bind hr ?_ fun r hrv => ?_
  · rcases hd with rfl | rfl <;> exact ⟨_, rfl⟩
  · rcases hd with rfl | rfl
    · replace hrv : (file, true) = callView r := Res.ok.inj hrv
      obtain ⟨r1, r2⟩ := r
      unfold callView at hrv
      simp only [Prod.mk.injEq] at hrv
      obtain ⟨rfl, rfl⟩ := hrv
      rw [if_pos rfl]
      exact at_pure rfl
    · replace hrv : (file, false) = callView r := Res.ok.inj hrv
      obtain ⟨r1, r2⟩ := r
      unfold callView at hrv
      simp only [Prod.mk.injEq] at hrv
      obtain ⟨rfl, rfl⟩ := hrv
      rw [if_neg (by simp)]
      exact at_world (at_quiet (quiet_release _) (at_pure rfl))

theorem memCloseFile_at (flt : Faults) (f : MFile) (w : World) :
    At (memCloseFile flt f) w
      (callValue (closeFile flt ⟨MFile.value f, w⟩).1 (closeFile flt ⟨MFile.value f, w⟩).2.file)
      (closeFile flt ⟨MFile.value f, w⟩).2.world callView := by
  unfold memCloseFile closeFile
  refine at_quiet (quiet_use _) ?_
  have hh : (MFile.value f).handle = f.handle := rfl
  have ho : (MFile.value f).openedInLibrary = f.openedInLibrary := rfl
  have hc : (MFile.value f).createdInLibrary = f.createdInLibrary := rfl
  dsimp only
  rw [hh, ho, hc]
  cases f.handle with
  | none => exact at_pure rfl
  | some h =>
    refine at_world ?_
    dsimp only
    generalize (if f.openedInLibrary = true then w.closeH flt h else (true, w)) = p
    obtain ⟨ok1, w1⟩ := p
    refine at_world ?_
    dsimp only
    generalize (if f.createdInLibrary = true then (!flt.free, w1.freeH h) else (true, w1)) = p
    obtain ⟨ok2, w2⟩ := p
    have hq : Quiet (if f.createdInLibrary then Mem.releaseOpt f.handleBlock else pure () : Mem World Unit) := by
      split
      · exact quiet_releaseOpt _
      · exact quiet_pure
    refine at_quiet hq (at_quiet (quiet_use _) (at_quiet (quiet_forEach quiet_freeTable _)
      (at_quiet (quiet_forEach quiet_freeTable _) (at_quiet (quiet_forEach quiet_freeTable _)
        (at_quiet (quiet_forEach (quiet_freeNode quiet_freeEntry) _) (at_pure ?_))))))
    dsimp only
    cases (ok1 && ok2) <;> rfl

theorem op_at (cmp : Bytes → Bytes → Option Bool) (op : FileOp) (f : MFile) (w : World) :
    At (FileOp.mem cmp f op) w
      (callValue (op.run cmp ⟨MFile.value f, w⟩).1 (op.run cmp ⟨MFile.value f, w⟩).2.file)
      (op.run cmp ⟨MFile.value f, w⟩).2.world callView := by
  cases op with
  | openHandle n flags flt => exact memOpenHandle_at cmp (.user n) flags flt f w
  | openName dev flags flt => exact memOpenName_at cmp dev flags flt f w
  | close flt => exact memCloseFile_at flt f w
  | setCodepage cp =>
    show At (memSetCodepage f cp) w (callValue (setCodepage (MFile.value f) cp).1
      (setCodepage (MFile.value f) cp).2) w callView
    unfold memSetCodepage setCodepage
    refine at_quiet (quiet_use _) ?_
    split
    · exact at_pure rfl
    · exact at_quiet (quiet_use _) (at_pure rfl)
  | signalAbort =>
    unfold FileOp.mem FileOp.run memSignalAbort signalAbort
    exact at_quiet (quiet_use _) (at_quiet (quiet_use _) (at_pure rfl))
  | caller n b dev =>
    unfold FileOp.mem FileOp.run
    have hh : (MFile.value f).handle = f.handle := rfl
    refine at_world ?_
    dsimp only
    rw [hh]
    split
    · exact at_pure rfl
    · exact at_pure rfl

theorem op_defined (cmp : Bytes → Bytes → Option Bool) (op : FileOp) (st : FileState) :
    (op.run cmp st).1 = .ok () ∨ (op.run cmp st).1 = .err := by
  cases op with
  | openHandle n flags flt => exact openHandle_defined cmp (.user n) flags flt st
  | openName dev flags flt =>
    show (openName cmp dev flags flt st).1 = .ok () ∨ (openName cmp dev flags flt st).1 = .err
    unfold openName
    split
    · exact .inr rfl
    dsimp only
    split
    · exact .inr rfl
    have hd := openHandle_defined cmp (st.world.createH dev).1 flags flt ⟨st.file, (st.world.createH dev).2⟩
    revert hd
    generalize openHandle cmp (st.world.createH dev).1 flags flt ⟨st.file, (st.world.createH dev).2⟩ = o
    obtain ⟨res, st'⟩ := o
    intro hd
    dsimp only at hd ⊢
    rcases hd with rfl | rfl
    · exact .inl rfl
    · exact .inr rfl
  | close flt =>
    show (closeFile flt st).1 = .ok () ∨ (closeFile flt st).1 = .err
    unfold closeFile
    cases st.file.handle with
    | none => exact .inr rfl
    | some h =>
      dsimp only
      generalize ((if st.file.openedInLibrary = true then st.world.closeH flt h else (true, st.world)).1 && _) = b
      cases b
      · exact .inr rfl
      · exact .inl rfl
  | setCodepage cp =>
    show (setCodepage st.file cp).1 = .ok () ∨ (setCodepage st.file cp).1 = .err
    unfold setCodepage
    split
    · exact .inr rfl
    · exact .inl rfl
  | signalAbort => exact .inl rfl
  | caller n b dev => exact .inl rfl

/-- The outcome of a call from its return value. -/
def returned (b : Bool) : Res Unit := if b then .ok () else .err

theorem ops_at (cmp : Bytes → Bytes → Option Bool) (ops : List FileOp) : ∀ (f : MFile) (w : World)
    (h : Heap), Ample h → ∃ f' bs h', Ample h' ∧
      memOps cmp f ops w h = (.ok (f', bs), (runOps cmp ⟨MFile.value f, w⟩ ops).world, h') ∧
      MFile.value f' = (runOps cmp ⟨MFile.value f, w⟩ ops).file ∧
      outcomes cmp ⟨MFile.value f, w⟩ ops = bs.map returned := by
  induction ops with
  | nil => intro f w h ha; exact ⟨f, [], h, ha, rfl, rfl, rfl⟩
  | cons op ops ih =>
    intro f w h ha
    obtain ⟨k1, k2, k3⟩ := op_at cmp op f w h ha
    have hd := op_defined cmp op ⟨MFile.value f, w⟩
    unfold memOps outcomes
    rw [mem_bind]
    unfold Mem.bind
    have hrun : runOps cmp ⟨MFile.value f, w⟩ (op :: ops) =
        runOps cmp (op.run cmp ⟨MFile.value f, w⟩).2 ops := rfl
    rw [hrun]
    revert k1 k2 k3 hd
    generalize op.run cmp ⟨MFile.value f, w⟩ = o
    obtain ⟨res, ⟨file, w1⟩⟩ := o
    rcases FileOp.mem cmp f op w h with ⟨r, t, h'⟩
    intro k1 k2 k3 hd
    dsimp only at k1 k2 k3 hd ⊢
    subst k2
    cases r with
    | ok a =>
      obtain ⟨f1, b⟩ := a
      have hv : file = MFile.value f1 ∧ res = returned b := by
        rcases hd with rfl | rfl
        · have := Res.ok.inj k3
          unfold callView at this
          simp only [Prod.mk.injEq] at this
          exact ⟨this.1, by rw [← this.2]; rfl⟩
        · have := Res.ok.inj k3
          unfold callView at this
          simp only [Prod.mk.injEq] at this
          exact ⟨this.1, by rw [← this.2]; rfl⟩
      obtain ⟨rfl, rfl⟩ := hv
      obtain ⟨f', bs, h'', j1, j2, j3, j4⟩ := ih f1 t h' k1
      refine ⟨f', b :: bs, h'', j1, ?_, j3, ?_⟩
      · dsimp only
        rw [mem_bind]
        unfold Mem.bind
        rw [j2]
        rfl
      · rw [j4]; rfl
    | err => rcases hd with rfl | rfl <;> cases k3
    | ub => rcases hd with rfl | rfl <;> cases k3
    | hang => rcases hd with rfl | rfl <;> cases k3

end Lemmas
end Olecf
