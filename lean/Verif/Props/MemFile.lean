import Verif.Lemmas.MemLife
import Verif.Props.FileExamples

/-
  C93, C94: the memory of file objects, and what an open shows that was refused memory.
-/

namespace Olecf.Props
open Olecf Olecf.Spec Olecf.Lemmas

/-! ### C93: what is freed -/

theorem newFile_heap (w : World) {h : Heap} (hs : Sound h) :
    Sound (memNewFile w h).2.2 ∧ (memNewFile w h).2.2.grant = h.grant ∧
    (memNewFile w h).2.1 = w ∧
    ((memNewFile w h).1 = .err ∧ SameBlocks h (memNewFile w h).2.2 ∧ ¬ Ample h ∨
      ∃ f, (memNewFile w h).1 = .ok f ∧ Gained h (fileBlocks f) (memNewFile w h).2.2 ∧
        FileOk f ∧ f.handle = none ∧ MFile.value f = OleFile.new) := by
  obtain ⟨h1, hg, h3, h4⟩ := memNewFile_spec (σ := World) [] w h h.live hs (.refl _)
  obtain ⟨t1, -, t3⟩ := memNewFile_tracks (σ := World) w h
  have hok := memNewFile_ok (σ := World) w h
  refine ⟨h1, hg, t1, ?_⟩
  cases hr : (memNewFile w h).1 with
  | ok f =>
    rw [hr] at t3
    refine .inr ⟨f, rfl, ?_, (hok f hr).1, (hok f hr).2, (Res.ok.inj t3).symm⟩
    have := h3 f hr
    dsimp only at this
    rwa [List.append_nil] at this
  | err =>
    rw [hr] at t3
    obtain ⟨l, hl, hp⟩ := h4 hr
    refine .inl ⟨rfl, ?_, fun ha => ?_⟩
    · rw [List.perm_nil.1 hl] at hp; exact hp
    · cases t3.2 ha
  | ub => rw [hr] at t3; cases t3
  | hang => rw [hr] at t3; cases t3

theorem history_heap (cmp : Bytes → Bytes → Option Bool) (ops : List FileOp) (w : World) {h : Heap}
    (hs : Sound h) :
    Sound (memHistory cmp ops w h).2.2 ∧
    ((memHistory cmp ops w h).1 = .err ∧ (memNewFile w h).1 = .err ∧
        SameBlocks h (memHistory cmp ops w h).2.2 ∨
      ∃ f bs, (memHistory cmp ops w h).1 = .ok (f, bs) ∧ (∃ g, (memNewFile w h).1 = .ok g) ∧
        Gained h (fileBlocks f) (memHistory cmp ops w h).2.2 ∧ FileOk f) := by
  obtain ⟨h1, hg, hw, h3⟩ := newFile_heap w hs
  unfold memHistory
  rw [mem_bind]
  unfold Mem.bind
  rcases h3 with ⟨h3, h4, -⟩ | ⟨f, h3, h4, h5, -, -⟩
  · revert h1 hw h3 h4
    rcases memNewFile w h with ⟨r, w', h'⟩
    intro h1 hw h3 h4
    dsimp only at h1 hw h3 h4
    subst h3
    exact ⟨h1, .inl ⟨rfl, rfl, h4⟩⟩
  · revert h1 hw h3 h4
    rcases memNewFile w h with ⟨r, w', h'⟩
    intro h1 hw h3 h4
    dsimp only at h1 hw h3 h4
    subst h3
    dsimp only
    have hc := ops_call cmp ops f h5 []
    obtain ⟨k1, ⟨f', bs⟩, k2, k3⟩ := stage_outcome hc.stage w' (rest := h.live) h1
      (by rw [List.append_nil]; exact h4)
    refine ⟨k1, .inr ⟨f', bs, k2, ⟨f, rfl⟩, ?_, (hc.ensures _ _ _ k2).2.2⟩⟩
    dsimp only at k3
    rwa [List.append_nil] at k3

/-- C93: whatever the files contain, whichever calls of libbfio and requests for memory fail, every
  call of a history returns a value, and no block is freed twice, freed by nobody or used after it
  was freed.  The object holds its own blocks and no others are lost; when it is not open, these are
  itself and its IO handle. -/
theorem C93_history (cmp : Bytes → Bytes → Option Bool) (ops : List FileOp) (w : World) {h : Heap}
    (hs : Sound h) :
    Sound (memHistory cmp ops w h).2.2 ∧ (memHistory cmp ops w h).1.Defined ∧
    ((memHistory cmp ops w h).1 = .err → SameBlocks h (memHistory cmp ops w h).2.2) ∧
    ∀ f bs, (memHistory cmp ops w h).1 = .ok (f, bs) →
      Gained h (fileBlocks f) (memHistory cmp ops w h).2.2 ∧
      (f.handle = none → fileBlocks f = [f.block, f.ioBlock]) := by
  obtain ⟨h1, h2 | ⟨f, bs, h2, -, h3, h4⟩⟩ := history_heap cmp ops w hs
  · refine ⟨h1, by rw [h2.1]; trivial, fun _ => h2.2.2, fun f bs he => ?_⟩
    rw [h2.1] at he; cases he
  · refine ⟨h1, by rw [h2]; trivial, fun he => ?_, fun f' bs' he => ?_⟩
    · rw [h2] at he; cases he
    · rw [h2] at he; cases he; exact ⟨h3, closed_blocks h4⟩

/-- C93: a history has no return values only if the object itself or its IO handle could not be
  made. -/
theorem C93_only_new_fails (cmp : Bytes → Bytes → Option Bool) (ops : List FileOp) (w : World)
    {h : Heap} (hs : Sound h) :
    (memHistory cmp ops w h).1 = .err ↔
      h.grant h.asked = false ∨ h.grant (h.asked + 1) = false := by
  have hnew : (memNewFile w h).1 = .err ↔
      h.grant h.asked = false ∨ h.grant (h.asked + 1) = false := by
    unfold memNewFile
    rw [mem_bind]
    unfold Mem.bind Mem.alloc
    cases h1 : h.grant h.asked with
    | false => simp
    | true =>
      rw [if_pos rfl]
      dsimp only
      rw [mem_bind]
      unfold Mem.bind Mem.onError
      dsimp only
      cases h2 : h.grant (h.asked + 1) with
      | false =>
        refine ⟨fun _ => .inr rfl, fun _ => ?_⟩
        rw [if_neg Bool.false_ne_true]
        dsimp only
        unfold Mem.bind Mem.release
        dsimp only
        rw [if_pos List.mem_cons_self]
        rfl
      | true =>
        refine ⟨fun he => (by cases he), fun he => ?_⟩
        rcases he with he | he <;> cases he
  rw [← hnew]
  obtain ⟨-, ⟨h2, h3, -⟩ | ⟨f, bs, h2, ⟨g, h3⟩, -⟩⟩ := history_heap cmp ops w hs
  · exact ⟨fun _ => h3, fun _ => h2⟩
  · rw [h2, h3]; simp

/-- C93: when the object is freed after a history, open or not, all the memory it took is given
  back. -/
theorem C93_life (cmp : Bytes → Bytes → Option Bool) (ops : List FileOp) (flt : Faults) (w : World)
    {h : Heap} (hs : Sound h) :
    Sound (memLife cmp ops flt w h).2.2 ∧ (memLife cmp ops flt w h).1.Defined ∧
    SameBlocks h (memLife cmp ops flt w h).2.2 := by
  unfold memLife
  rw [mem_bind]
  unfold Mem.bind
  obtain ⟨h1, h2 | ⟨f, bs, h2, -, h3, h4⟩⟩ := history_heap cmp ops w hs
  · obtain ⟨h2, -, h3⟩ := h2
    revert h1 h2 h3
    rcases memHistory cmp ops w h with ⟨r, w', h'⟩
    intro h1 h2 h3
    dsimp only at h1 h2 h3
    subst h2
    exact ⟨h1, trivial, h3⟩
  · revert h1 h2 h3
    rcases memHistory cmp ops w h with ⟨r, w', h'⟩
    intro h1 h2 h3
    dsimp only at h1 h2 h3
    subst h2
    dsimp only
    have hc := memFreeFile_call flt f h4 []
    obtain ⟨k1, b, k2, k3⟩ := stage_outcome hc.stage w' (rest := h.live) h1
      (by rw [List.append_nil]; exact h3)
    rw [mem_bind]
    unfold Mem.bind
    revert k1 k2 k3
    rcases memFreeFile flt f w' h' with ⟨r, w'', h''⟩
    intro k1 k2 k3
    dsimp only at k1 k2 k3
    subst k2
    exact ⟨k1, trivial, k3⟩

/-- C93: with memory for every request, a history has the return values, the object and the handles
  of the model of which C34 to C37, C51 and C52 speak. -/
theorem C93_same_outcome (cmp : Bytes → Bytes → Option Bool) (ops : List FileOp) (w : World)
    {h : Heap} (hs : Sound h) (ha : Ample h) :
    ∃ f bs h', memHistory cmp ops w h =
        (.ok (f, bs), (runOps cmp ⟨OleFile.new, w⟩ ops).world, h') ∧
      MFile.value f = (runOps cmp ⟨OleFile.new, w⟩ ops).file ∧
      outcomes cmp ⟨OleFile.new, w⟩ ops = bs.map fun b => if b then .ok () else .err := by
  obtain ⟨-, hg, hw, h3⟩ := newFile_heap w hs
  rcases h3 with ⟨-, -, h3⟩ | ⟨f, h3, -, -, -, hv⟩
  · exact absurd ha h3
  unfold memHistory
  rw [mem_bind]
  unfold Mem.bind
  revert hg hw h3
  rcases memNewFile w h with ⟨r, w', h'⟩
  intro hg hw h3
  dsimp only at hg hw h3
  subst h3 hw
  dsimp only
  obtain ⟨f', bs, h'', -, k1, k2, k3⟩ := ops_at cmp ops f w' h' ((ample_congr hg).2 ha)
  rw [hv] at k1 k2 k3
  exact ⟨f', bs, h'', k1, k2, k3⟩

/-! ### C94: what is shown -/

/-- What is known of a value, from the handles at the start. -/
def EnsuresAt {α : Type} (m : Mem World α) (w : World) (P : α → Prop) : Prop :=
  ∀ h a, (m w h).1 = .ok a → P a

theorem ensuresAt_use {β : Type} {b : Nat} {k : Unit → Mem World β} {w : World} {P : β → Prop}
    (hk : EnsuresAt (k ()) w P) : EnsuresAt (Mem.use b >>= k) w P := by
  intro h
  obtain ⟨h', -, he⟩ := quiet_bind_eq (quiet_use b) k w h
  rw [he]
  exact hk h'

theorem ensuresAt_world {α β : Type} {g : World → α × World} {k : α → Mem World β} {w : World}
    {P : β → Prop} (hk : EnsuresAt (k (g w).1) (g w).2 P) : EnsuresAt (worldStep g >>= k) w P :=
  fun h => hk h

theorem ensuresAt_pure {α : Type} {a : α} {w : World} {P : α → Prop} (h : P a) :
    EnsuresAt (pure a : Mem World α) w P := fun hp b hb => ensures_pure h w hp b hb

theorem ensuresAt_of {α : Type} {m : Mem World α} {P : α → Prop} (hm : Ensures m P) (w : World) :
    EnsuresAt m w P := fun h a ha => hm w h a ha

/-- What a successful open makes of the file object. -/
def OpenShows (cmp : Bytes → Bytes → Option Bool) (dev : Dev) (io : IoHandle) (f : MFile) : Prop :=
  Blank (MFile.value f).sat ∨ ∃ l, (openCore cmp dev io).1.res = .ok l ∧
    SameButShortTable f (openCore cmp dev io).2 l ∧
    ((MFile.value f).ssat = some l.ssat ∨ Blank (MFile.value f).ssat)

theorem memOpenRead_shows (cmp : Bytes → Bytes → Option Bool) (dev : Dev) (f : MFile) :
    Ensures (memOpenRead cmp dev f : Mem World (MFile × Bool)) fun r => r.2 = true →
      OpenShows cmp dev f.io r.1 := by
  unfold memOpenRead
  refine ensures_bind (ensures_true _) fun _ _ => ?_
  split
  · exact ensures_pure fun h => (by cases h)
  refine ensures_bind (ensures_true _) fun _ _ => ?_
  refine ensures_bind (memOpenCore_ensures cmp dev f.io) fun r hr => ?_
  cases hl : r.2 with
  | none => exact ensures_pure fun h => (by cases h)
  | some l =>
    refine ensures_pure fun _ => ?_
    obtain ⟨hdr, t0, h1, h2, h3⟩ := hr l hl
    rcases h3.sat with hsat | hsat | hsat
    · right
      obtain ⟨k, hk⟩ : ∃ k, (readSsat (f.io.withHeader hdr) dev (loadedValue l).sat ⟨[]⟩ hdr.ssatSector
          hdr.ssatSectors).res = .ok k := by
        obtain ⟨hw, hid, k, hh⟩ := headerOk f.io h1
        obtain ⟨t, ht, hwt, _⟩ := readSat_safe (f.io.withHeader hdr) dev (loadedValue l).msat
          hdr.satSectors k hh.k_le hh.size (readMsat_wf hid hw h2).lt
        rw [ht] at hsat
        cases hsat
        obtain ⟨v, hv, -⟩ := readSsat_ok (dev := dev) (count := hdr.ssatSectors) hh.k_le hh.size hwt hh.ssat
        exact ⟨v, hv⟩
      obtain ⟨x, hx, ht⟩ := h3.tree
      have ho : Opened cmp dev f.io ⟨(loadedValue l).msat, (loadedValue l).sat, k, (loadedValue l).tree⟩
          r.1 hdr t0 _ x := ⟨h1, h2, hsat, hk, h3.dir, rfl, hx, ht, by
            rw [h3.io_eq, createTree_start hx, ht]; cases x <;> rfl⟩
      obtain ⟨g1, g2⟩ := openCore_ok_iff.2 ⟨_, _, _, _, ho⟩
      refine ⟨_, g1, ⟨g2.symm, rfl, rfl, rfl⟩, ?_⟩
      rcases h3.ssat with hs | hs | hs
      · rw [hk] at hs; cases hs; exact .inl rfl
      · exact .inr ⟨0, congrArg some hs⟩
      · exact .inr ⟨_, congrArg some hs⟩
    · exact .inl ⟨0, congrArg some hsat⟩
    · exact .inl ⟨_, congrArg some hsat⟩

theorem memOpenHandle_shows (cmp : Bytes → Bytes → Option Bool) (n : HandleId) (flags : Nat)
    (flt : Faults) (f : MFile) (w : World) :
    EnsuresAt (memOpenHandle cmp n flags flt f) w fun r => r.2 = true →
      OpenShows cmp (w.dev n) f.io r.1 := by
  unfold memOpenHandle
  have hno : ∀ (g : MFile) (w' : World), EnsuresAt (pure (g, false) : Mem World (MFile × Bool)) w'
      fun r => r.2 = true → OpenShows cmp (w.dev n) f.io r.1 :=
    fun g w' => ensuresAt_pure fun h => (by cases h)
  refine ensuresAt_use ?_
  split
  · exact hno _ _
  split
  · exact hno _ _
  split
  · exact hno _ _
  split
  · exact hno _ _
  refine ensuresAt_world (ensuresAt_world ?_)
  dsimp only
  have hd : (if w.isOpen n = true then (true, w) else World.openH w flt n).2.dev n = w.dev n := by
    split
    · rfl
    · unfold World.openH
      split <;> rfl
  generalize (if w.isOpen n = true then (true, w) else World.openH w flt n) = x at hd ⊢
  split
  · exact hno _ _
  refine ensuresAt_world ?_
  dsimp only
  rw [hd]
  refine ensuresAt_of (ensures_bind (memOpenRead_shows cmp (w.dev n) _) fun r hr => ?_) _
  have hio : (if w.isOpen n = true then f else { f with openedInLibrary := true }).io = f.io := by
    split <;> rfl
  rw [hio] at hr
  split
  · rename_i hok
    refine ensures_pure fun _ => ?_
    rcases hr hok with h | ⟨l, h1, h2, h3⟩
    · exact .inl h
    · exact .inr ⟨l, h1, ⟨h2.io, h2.msat, h2.sat, h2.tree⟩, h3⟩
  split
  · exact ensures_bind (ensures_true _) fun _ _ => ensures_pure fun h => (by cases h)
  · exact ensures_pure fun h => (by cases h)

/-- C94, what holds of an open that succeeded, whichever requests for memory were refused during it:
  the item hierarchy, the master table and the sector table are those the file object loads with
  memory for every request, and so is the table of the short sectors unless it is blank; or the
  sector table is blank.  The full claim is that everything is as with memory. -/
theorem C94_content_partial (cmp : Bytes → Bytes → Option Bool) (n : HandleId) (flags : Nat)
    (flt : Faults) (f : MFile) (w : World) (h : Heap) {f' : MFile}
    (ho : (memOpenHandle cmp n flags flt f w h).1 = .ok (f', true)) :
    Blank (MFile.value f').sat ∨ ∃ l, (openCore cmp (w.dev n) f.io).1.res = .ok l ∧
      SameButShortTable f' (openCore cmp (w.dev n) f.io).2 l ∧
      ((MFile.value f').ssat = some l.ssat ∨ Blank (MFile.value f').ssat) :=
  memOpenHandle_shows cmp n flags flt f w h _ ho rfl

/-- The same for an open by name: what is loaded is of the file of that name. -/
theorem C94_name_partial (cmp : Bytes → Bytes → Option Bool) (dev : Dev) (flags : Nat)
    (flt : Faults) (f : MFile) (w : World) (h : Heap) {f' : MFile}
    (ho : (memOpenName cmp dev flags flt f w h).1 = .ok (f', true)) :
    Blank (MFile.value f').sat ∨ ∃ l, (openCore cmp dev f.io).1.res = .ok l ∧
      SameButShortTable f' (openCore cmp dev f.io).2 l ∧
      ((MFile.value f').ssat = some l.ssat ∨ Blank (MFile.value f').ssat) := by
  have key : EnsuresAt (memOpenName cmp dev flags flt f) w fun r => r.2 = true →
      OpenShows cmp dev f.io r.1 := by
    unfold memOpenName
    split
    · exact ensuresAt_pure fun h => (by cases h)
    intro h a
    rw [mem_bind]
    unfold Mem.bind
    cases hg : h.grant h.asked with
    | false =>
      have : (Mem.alloc.attempt : Mem World (Option Nat)) w h =
          (.ok none, w, { h with asked := h.asked + 1 }) := by
        unfold Mem.attempt Mem.alloc
        rw [hg, if_neg Bool.false_ne_true]
      rw [this]
      intro ha hr
      cases ha
      cases hr
    | true =>
      have : (Mem.alloc.attempt : Mem World (Option Nat)) w h =
          (.ok (some h.asked), w, { h with asked := h.asked + 1, live := h.asked :: h.live }) := by
        unfold Mem.attempt Mem.alloc
        rw [hg, if_pos rfl]
      rw [this]
      dsimp only
      generalize ({ h with asked := h.asked + 1, live := h.asked :: h.live } : Heap) = h'
      revert h' a
      refine fun a h' => (?_ : EnsuresAt _ w fun r => r.2 = true → OpenShows cmp dev f.io r.1) h' a
      refine ensuresAt_world ?_
      split
      · exact ensuresAt_of (ensures_bind (ensures_true _) fun _ _ =>
          ensures_bind (ensures_true _) fun _ _ => ensures_pure fun h => (by cases h)) _
      · have hd : (w.createH dev).2.dev (w.createH dev).1 = dev := if_pos rfl
        have hs := memOpenHandle_shows cmp (w.createH dev).1 flags flt f (w.createH dev).2
        rw [hd] at hs
        intro hp b
        have hs := hs hp
        rw [mem_bind]
        unfold Mem.bind
        revert hs
        rcases memOpenHandle cmp (w.createH dev).1 flags flt f (w.createH dev).2 hp with ⟨r, w', h'⟩
        intro hs
        cases r with
        | ok r =>
          dsimp only
          have hs := hs r rfl
          split
          · rename_i hok
            intro hb hb2
            cases hb
            rcases hs hok with h | ⟨l, h1, h2, h3⟩
            · exact .inl h
            · exact .inr ⟨l, h1, ⟨h2.io, h2.msat, h2.sat, h2.tree⟩, h3⟩
          · exact (ensuresAt_of (P := fun r => r.2 = true → OpenShows cmp dev f.io r.1)
              (ensures_bind (ensures_true _) fun _ _ => ensures_bind (ensures_true _) fun _ _ =>
                ensures_pure (a := (r.1, false)) (fun h => (by cases h))) w') h' b
        | err => intro hb; cases hb
        | ub => intro hb; cases hb
        | hang => intro hb; cases hb
  exact key h _ ho rfl

/-- What a program reads that opens the sample file with the given memory: the return value of the
  open, and the name and the first 70 bytes of the first item below the first item of the root. -/
def firstStream (grant : Nat → Bool) : Option (List Bool × Bytes × Res Bytes) :=
  match (memHistory cmpNone [.openHandle 1 1 {}] sampleWorld (emptyHeap grant)).1 with
  | .ok (f, bs) =>
    match (MFile.value f).ctx (Dev.ofBytes (sampleFile .little)), (MFile.value f).tree with
    | some c, some t =>
      (t.kids none).head?.bind fun s => (t.kids (some s.id)).head?.map fun d =>
        (bs, d.name, (streamRead c d 0 70).1.res)
    | _, _ => none
  | _ => none

/-- C94 is violated: with one request refused, that for the buffer of the short sector table, the
  open succeeds, and so does the read of the stream `A`; but its last six bytes are not those that
  are stored, six threes. -/
theorem C94_content_violated :
    firstStream (fun n => n ≠ 10) =
      some ([true], [65, 0, 0, 0], .ok (List.replicate 64 1 ++ List.replicate 6 1)) ∧
    FileHolds (sampleFile .little)
      [[82, 0, 0, 0], [83, 0, 0, 0], [65, 0, 0, 0], [66, 0, 0, 0], [67, 0, 0, 0]] sampleDoc :=
  ⟨by decide +kernel, sample_holds .little⟩

/-- The hypotheses of the theorems on histories: an empty heap is sound; with memory for every request
  it is ample. -/
example (g : Nat → Bool) : Sound (emptyHeap g) ∧ Ample (emptyHeap fun _ => true) :=
  ⟨⟨rfl, List.nodup_nil, fun _ h => by cases h⟩, fun _ => rfl⟩

/-- Opening, by name, a file that is not an OLE file, with the request for the header refused or
  granted: the blocks of the object are left, and none of them when it is freed. -/
example : ∀ k ∈ [0, 1, 2, 3, 4, 5, 6, 7],
    (memHistory cmpNone [.openName (Dev.ofBytes [1, 2, 3]) 1 {}, .signalAbort, .close {}] sampleWorld
        (emptyHeap fun n => n ≠ k)).2.2.live = (if k < 2 then [] else [1, 0]) ∧
    (memLife cmpNone [.openName (Dev.ofBytes [1, 2, 3]) 1 {}] {} sampleWorld
        (emptyHeap fun n => n ≠ k)).2.2.live = [] ∧
    (memHistory cmpNone [.openName (Dev.ofBytes [1, 2, 3]) 1 {}] sampleWorld
        (emptyHeap fun n => n ≠ k)).2.2.asked = min (k + 1) 6 := by
  decide +kernel

end Olecf.Props
