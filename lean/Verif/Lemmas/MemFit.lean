import Verif.Lemmas.MemItem

/-! What an open file holds, however much memory there was: tables, sizes and entries in range. -/

namespace Olecf
namespace Lemmas

open Olecf.Spec Olecf.Props

variable {σ α β γ δ : Type}

/-! ### The nodes come from the list -/

/-- The values of the nodes are entries of the list. -/
def Drawn (list : List MElem) (nodes : List MNode) : Prop :=
  ∀ n ∈ nodes, n.value.entry ∈ entriesOf' list

theorem drawn_mem {list : List MElem} {c : MEntry} (h : ∃ x, x ∈ list ∧ x.value = c) :
    c.entry ∈ entriesOf' list := by
  obtain ⟨x, hx, rfl⟩ := h
  exact List.mem_map.2 ⟨x, hx, rfl⟩

theorem memAttach_drawn {list : List MElem} {parent : Option NodeKey} {c : MEntry} {st : MTreeState}
    (hc : c.entry ∈ entriesOf' list) (hst : Drawn list st.nodes) :
    Ensures (memAttach parent c st : Mem σ MTreeState) (fun r => Drawn list r.nodes) := by
  unfold memAttach
  refine ensures_bind (ensures_true _) fun _ _ => ?_
  split
  · intro s h a ha; cases ha
  refine ensures_bind (ensures_true _) fun n _ => ?_
  refine ensures_bind (ensures_true _) fun s _ => ensures_pure ?_
  intro m hm
  rcases List.mem_cons.1 hm with rfl | hm
  · exact hc
  · exact hst m hm

theorem memProcessEntry_drawn (list : List MElem) (cmp : Bytes → Bytes → Option Bool)
    (rootId : Nat) :
    ∀ (fuel : Nat) (node : NodeKey) (parent : Option NodeKey) (d : MEntry) (st : MTreeState),
      Drawn list st.nodes →
      Ensures (memProcessEntry list cmp rootId fuel node parent d st : Mem σ (MTreeState × Bool))
        (fun r => Drawn list r.1.nodes) := by
  intro fuel
  induction fuel with
  | zero => intro node parent d st _ s h a ha; cases ha
  | succ fuel ih =>
    intro node parent d st hst
    have link : ∀ {id : Nat} {c : MEntry} {p : Option NodeKey} {nk : NodeKey} {st : MTreeState},
        memLookup list id = some c → Drawn list st.nodes →
        Ensures (do
          match ← (memAttach p c st).attempt with
          | none => pure (st, false)
          | some st => memProcessEntry list cmp rootId fuel nk p c st : Mem σ (MTreeState × Bool))
          (fun r => Drawn list r.1.nodes) := fun hl hst =>
      ensures_try (memAttach_drawn (drawn_mem (memLookup_mem hl)) hst) (ensures_pure hst)
        fun st hst => ih _ _ _ st hst
    unfold memProcessEntry
    refine ensures_bind (ensures_true _) fun _ _ => ?_
    refine ensures_try (ensures_true _) (ensures_pure hst) fun _ _ => ?_
    refine ensures_bind (Q := fun r => Drawn list r.1.nodes) ?_ fun r1 h1 => ?_
    · split
      · split
        · exact ensures_pure hst
        · exact link ‹_› hst
      · exact ensures_pure hst
    refine ensures_bind (Q := fun r => Drawn list r.1.nodes) ?_ fun r2 h2 => ?_
    · split
      · split
        · exact ensures_pure h1
        · exact link ‹_› h1
      · exact ensures_pure h1
    split
    · split
      · exact ensures_pure h2
      · exact link ‹_› h2
    · exact ensures_pure h2

theorem memCreateTree_drawn (list : List MElem) (cmp : Bytes → Bytes → Option Bool) :
    Ensures (memCreateTree list cmp : Mem σ MTreeOut)
      (fun t => ∀ x, t.tree = some x → Drawn list x.all) := by
  unfold memCreateTree
  split
  · exact ensures_pure fun _ h => (by cases h)
  split
  · exact ensures_pure fun _ h => (by cases h)
  split
  · exact ensures_pure fun _ h => (by cases h)
  rename_i hroot _
  refine ensures_try (ensures_true _) (ensures_pure fun _ h => (by cases h)) fun n _ => ?_
  refine ensures_bind (memProcessEntry_drawn _ cmp _ _ none none _ ⟨⟨[], fun _ => []⟩, []⟩
    fun _ h => (by cases h)) fun r hr => ?_
  split
  · refine ensures_pure fun x h => ?_
    cases h
    intro m hm
    rcases List.mem_cons.1 hm with rfl | hm
    · exact drawn_mem (memFindRoot_mem hroot)
    · exact hr m hm
  · exact ensures_bind (ensures_true _) fun _ _ => ensures_pure fun _ h => (by cases h)

/-! ### The entries of the tree come from the directory -/

/-- The entries of the tree of what was loaded are entries of a directory that was read. -/
def FromDirectory (dev : Dev) (r : IoHandle × Option MLoaded) : Prop :=
  ∀ l, r.2 = some l → ∃ io root, root < 2 ^ 32 ∧
    (readDirectory io dev l.sat.table [] root).1.res = .ok () ∧
    ∀ t, l.tree = some t → ∀ n ∈ t.all, n.value.entry ∈ (readDirectory io dev l.sat.table [] root).2

theorem memOpenCore_drawn (cmp : Bytes → Bytes → Option Bool) (dev : Dev) (io : IoHandle) :
    Ensures (memOpenCore cmp dev io : Mem σ (IoHandle × Option MLoaded)) (FromDirectory dev) := by
  have hno : ∀ io, FromDirectory dev (io, none) := fun _ _ h => (by cases h)
  have hdir : ∀ io (hdr : FileHeader) header msat sat ssat, hdr.rootDirSector < 2 ^ 32 →
      Ensures (memOpenDirectory cmp dev io hdr header msat sat ssat :
        Mem σ (IoHandle × Option MLoaded)) (FromDirectory dev) := by
    intro io hdr header msat sat ssat hlt
    unfold memOpenDirectory
    refine ensures_try (ensures_true _) (ensures_cleanup (hno _)) fun list _ => ?_
    refine ensures_bind (tracks_ensures (memReadDirectory_tracks io dev sat.table _)) fun r hr => ?_
    split
    · rename_i hok
      have h := hr hok
      unfold directoryValue at h
      cases hres : (readDirectory io dev sat.table [] hdr.rootDirSector).1.res with
      | ok u =>
        rw [hres] at h
        have hv : (readDirectory io dev sat.table [] hdr.rootDirSector).2 = entriesOf' r.1 :=
          Res.ok.inj h
        unfold memOpenTree
        refine ensures_bind (ensures_true _) fun _ _ => ?_
        refine ensures_bind (memCreateTree_drawn _ _) fun t ht => ?_
        split
        · refine ensures_bind (ensures_true _) fun _ _ => ensures_pure fun l hl => ?_
          cases hl
          exact ⟨io, _, hlt, hres, fun x hx n hn => by rw [hv]; exact ht x hx n hn⟩
        · exact ensures_bind (ensures_true _) fun _ _ => ensures_pure (hno _)
      | _ => rw [hres] at h; cases h
    · exact ensures_cleanup (hno _)
  unfold memOpenCore
  refine ensures_try (ensures_true _) (ensures_pure (hno _)) fun header _ => ?_
  refine ensures_try init109_ensures (ensures_cleanup (hno _)) fun msat hm => ?_
  dsimp only
  rw [hm]
  refine ensures_try ensures_of (ensures_cleanup (hno _)) fun x hx => ?_
  have hlt := (headerRead_fits hx).2.2.1
  refine ensures_bind (ensures_true _) fun r _ => ?_
  split
  · unfold memOpenSat
    refine ensures_try (ensures_true _) (ensures_cleanup (hno _)) fun _ _ => ?_
    refine ensures_bind (ensures_true _) fun r _ => ?_
    split
    · unfold memOpenSsat
      refine ensures_try (ensures_true _) (ensures_cleanup (hno _)) fun _ _ => ?_
      refine ensures_bind (ensures_true _) fun r _ => ?_
      split
      · exact hdir _ _ _ _ _ _ hlt
      · exact ensures_cleanup (hno _)
    · exact ensures_cleanup (hno _)
  · exact ensures_cleanup (hno _)

/-! ### A file that has a tree -/

/-- Tables, sizes and entries of a file with a tree are in range. -/
structure Fit (io : IoHandle) (sat ssat : AllocTable) (t : MTree) : Prop where
  size : 128 ≤ io.sectorSize
  ctx : ∀ dev, WellFormedCtx ⟨io, dev, sat, ssat⟩
  entries : ∀ n ∈ t.all, EntryFits n.value.entry

/-- See `Fit`. -/
def FileFit (f : MFile) : Prop :=
  ∀ t sat ssat, f.tree = some t → f.sat = some sat → f.ssat = some ssat →
    Fit f.io sat.table ssat.table t

theorem fileFit_none {f : MFile} (h : f.tree = none) : FileFit f := fun _ _ _ ht => by
  rw [h] at ht; cases ht

theorem memOpenCore_fit (cmp : Bytes → Bytes → Option Bool) (dev : Dev) (io : IoHandle) :
    Ensures (memOpenCore cmp dev io : Mem σ (IoHandle × Option MLoaded))
      fun r => ∀ l, r.2 = some l → ∀ t, l.tree = some t → Fit r.1 l.sat.table l.ssat.table t := by
  intro s hp a ha l hl t ht
  obtain ⟨hdr, t0, h1, h2, h3⟩ := memOpenCore_ensures cmp dev io s hp a ha l hl
  obtain ⟨io', root, hlt, hres, hent⟩ := memOpenCore_drawn cmp dev io s hp a ha l hl
  obtain ⟨hw, hid, k, hh⟩ := headerOk io h1
  obtain ⟨v, hv, hvw, _⟩ := readSat_safe (io.withHeader hdr) dev (loadedValue l).msat
    hdr.satSectors k hh.k_le hh.size (readMsat_wf hid hw h2).lt
  have hsw : l.sat.table.WF := h3.sat.wf hv hvw
  obtain ⟨v', hv', _, hvw'⟩ := (readSsat_safe (io.withHeader hdr) dev l.sat.table hdr.ssatSector
    hdr.ssatSectors (by rw [hh.size]; exact Nat.pow_pos (by omega)) (by
      have := Nat.pow_le_pow_right (n := 2) (by omega) hh.k_le
      rw [hh.size]; unfold MAX_ALLOC; omega) hsw hh.ssat).1
  have hssw : l.ssat.table.WF := h3.ssat.wf hv' hvw'
  obtain ⟨⟨k, hk, hks⟩, ⟨j, hj, hjs⟩⟩ := headerRead_sizes h1
  have hp : 0 < 2 ^ k ∧ 0 < 2 ^ j := ⟨Nat.pow_pos (by omega), Nat.pow_pos (by omega)⟩
  have hle : 2 ^ k ≤ 2 ^ 15 ∧ 2 ^ j ≤ 2 ^ 15 :=
    ⟨Nat.pow_le_pow_right (by omega) hk, Nat.pow_le_pow_right (by omega) hj⟩
  have hfits := (readDirectory_entries hsw hlt hres).2
  have hst : (loadedValue l).tree = some ⟨t.root.value.entry, t.kids⟩ := by unfold loadedValue; rw [ht]; rfl
  have hio : a.1 = (io.withHeader hdr).withShortStart (some t.root.value.entry.start) := by
    rw [h3.io_eq, hst]; rfl
  have hdir := h3.dir
  unfold readDirectory at hdir
  split at hdir
  · cases hdir
  rename_i hc
  simp only [not_or, Classical.not_not] at hc
  have hmod : hdr.sectorSize % 128 = 0 := hc.2.2
  have e1 : a.1.sectorSize = hdr.sectorSize := by rw [hio]; rfl
  have e2 : a.1.shortSectorSize = hdr.shortSectorSize := by rw [hio]; rfl
  have e3 : a.1.shortStreamStart = t.root.value.entry.start := by rw [hio]; rfl
  have hin := fun n hn => hfits _ (hent t ht n hn)
  refine ⟨by omega, fun d => ⟨?_, ?_, ?_, ⟨hsw.size, hsw.lt⟩, ⟨hssw.size, hssw.lt⟩⟩, fun n hn =>
    ⟨(hin n hn).2.2.2.2.2.1, (hin n hn).2.2.2.2.2.2.1⟩⟩
  · show 0 < a.1.sectorSize ∧ a.1.sectorSize ≤ 32768; omega
  · show 0 < a.1.shortSectorSize ∧ a.1.shortSectorSize ≤ 32768; omega
  · show a.1.shortStreamStart < 2 ^ 32
    rw [e3]; exact (hin _ List.mem_cons_self).2.2.2.2.2.1

theorem memOpenRead_fit (cmp : Bytes → Bytes → Option Bool) (dev : Dev) (f : MFile) :
    Ensures (memOpenRead cmp dev f : Mem σ (MFile × Bool)) (fun r => r.2 = true → FileFit r.1) := by
  unfold memOpenRead
  refine ensures_bind (ensures_true _) fun _ _ => ?_
  split
  · exact ensures_pure fun h => (by cases h)
  refine ensures_bind (ensures_true _) fun _ _ => ensures_bind (memOpenCore_fit _ _ _) fun r hr => ?_
  split
  · rename_i l hl
    refine ensures_pure fun _ t sat ssat h1 h2 h3 => ?_
    cases h2; cases h3
    exact hr l hl t h1
  · exact ensures_pure fun h => (by cases h)

/-- An open that succeeds leaves a file that fits, one that fails the one it was given or a closed
  one. -/
structure LeavesFit (f : MFile) (r : MFile × Bool) : Prop where
  success : r.2 = true → FileFit r.1
  failure : r.2 = false → r.1 = f ∨ r.1.handle = none

theorem leavesFit_same (f : MFile) : LeavesFit f (f, false) := ⟨fun h => (by cases h), fun _ => .inl rfl⟩

theorem leavesFit_closed {f g : MFile} (h : g.handle = none) : LeavesFit f (g, false) :=
  ⟨fun h => (by cases h), fun _ => .inr h⟩

theorem memOpenHandle_fit (cmp : Bytes → Bytes → Option Bool) (h : HandleId) (flags : Nat)
    (flt : Faults) (f : MFile) : Ensures (memOpenHandle cmp h flags flt f) (LeavesFit f) := by
  unfold memOpenHandle
  refine ensures_bind (ensures_true _) fun _ _ => ?_
  split
  · exact ensures_pure (leavesFit_same f)
  split
  · exact ensures_pure (leavesFit_same f)
  split
  · exact ensures_pure (leavesFit_same f)
  split
  · exact ensures_pure (leavesFit_closed rfl)
  refine ensures_bind (ensures_true _) fun wasOpen _ => ?_
  refine ensures_bind (ensures_true _) fun opened _ => ?_
  split
  · exact ensures_pure (leavesFit_closed rfl)
  refine ensures_bind (ensures_true _) fun dev _ => ?_
  refine ensures_bind (memOpenRead_fit cmp dev _) fun r hr => ?_
  split
  · rename_i hok
    exact ensures_pure ⟨fun _ t sat ssat h1 h2 h3 => hr hok t sat ssat h1 h2 h3, fun h => (by cases h)⟩
  split
  · exact ensures_bind (ensures_true _) fun _ _ => ensures_pure (leavesFit_closed rfl)
  · exact ensures_pure (leavesFit_closed rfl)

theorem memOpenName_fit (cmp : Bytes → Bytes → Option Bool) (dev : Dev) (flags : Nat)
    (flt : Faults) (f : MFile) : Ensures (memOpenName cmp dev flags flt f) (LeavesFit f) := by
  unfold memOpenName
  split
  · exact ensures_pure (leavesFit_same f)
  refine ensures_try (ensures_true _) (ensures_pure (leavesFit_same f)) fun hb _ => ?_
  refine ensures_bind (ensures_true _) fun h _ => ?_
  split
  · exact ensures_bind (ensures_true _) fun _ _ => ensures_bind (ensures_true _) fun _ _ =>
      ensures_pure (leavesFit_same f)
  refine ensures_bind (memOpenHandle_fit cmp h flags flt f) fun r hr => ?_
  split
  · rename_i hok
    exact ensures_pure ⟨fun _ t sat ssat h1 h2 h3 => hr.success hok t sat ssat h1 h2 h3,
      fun h => (by cases h)⟩
  · rename_i hno
    exact ensures_bind (ensures_true _) fun _ _ => ensures_bind (ensures_true _) fun _ _ =>
      ensures_pure ⟨fun h => (by cases h), fun _ => hr.failure (by simpa using hno)⟩

theorem fit_of_leaves {f : MFile} {r : MFile × Bool} (hf : FileFit f) (hr : LeavesFit f r)
    (hc : r.1.handle = none → r.1.tree = none) : FileFit r.1 := by
  cases h : r.2 with
  | true => exact hr.success h
  | false =>
    rcases hr.failure h with h | h
    · rw [h]; exact hf
    · exact fileFit_none (hc h)

theorem op_fit (cmp : Bytes → Bytes → Option Bool) (op : FileOp) (f : MFile) (hf : FileFit f) :
    Ensures (FileOp.mem cmp f op)
      (fun r => (r.1.handle = none → r.1.tree = none) → FileFit r.1) := by
  cases op with
  | openHandle n flags flt =>
    intro s h a ha
    exact fit_of_leaves hf (memOpenHandle_fit cmp (.user n) flags flt f s h a ha)
  | openName dev flags flt =>
    intro s h a ha
    exact fit_of_leaves hf (memOpenName_fit cmp dev flags flt f s h a ha)
  | close flt =>
    unfold FileOp.mem memCloseFile
    refine ensures_bind (ensures_true _) fun _ _ => ?_
    split
    · exact ensures_pure fun _ => hf
    refine ensures_bind (ensures_true _) fun _ _ => ensures_bind (ensures_true _) fun _ _ =>
      ensures_bind (ensures_true _) fun _ _ => ensures_bind (ensures_true _) fun _ _ =>
      ensures_bind (ensures_true _) fun _ _ => ensures_bind (ensures_true _) fun _ _ =>
      ensures_bind (ensures_true _) fun _ _ => ensures_bind (ensures_true _) fun _ _ =>
      ensures_pure fun _ => fileFit_none rfl
  | setCodepage cp =>
    unfold FileOp.mem memSetCodepage
    refine ensures_bind (ensures_true _) fun _ _ => ?_
    split
    · exact ensures_pure fun _ => hf
    · refine ensures_bind (ensures_true _) fun _ _ => ensures_pure fun _ t sat ssat h1 h2 h3 => ?_
      have := hf t sat ssat h1 h2 h3
      exact ⟨this.size, fun dev => ⟨(this.ctx dev).ss, (this.ctx dev).short, (this.ctx dev).start,
        (this.ctx dev).sat, (this.ctx dev).ssat⟩, this.entries⟩
  | signalAbort =>
    unfold FileOp.mem memSignalAbort
    exact ensures_bind (ensures_true _) fun _ _ => ensures_bind (ensures_true _) fun _ _ =>
      ensures_pure fun _ t sat ssat h1 h2 h3 => hf t sat ssat h1 h2 h3
  | caller n b dev =>
    unfold FileOp.mem
    exact ensures_bind (ensures_true _) fun _ _ => ensures_pure fun _ => hf

end Lemmas
end Olecf
