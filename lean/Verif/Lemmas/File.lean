import Verif.Spec.File
import Verif.Lemmas.Readers
import Verif.Props.Header
import Verif.Props.Tables
import Verif.Props.Directory
import Verif.Props.Tree
import Verif.Spec.Stream

namespace Olecf
open Spec Props

theorem andThen_ok {io io' : IoHandle} {o : Out α} {f : α → Out β × IoHandle} {b : β} :
    (o.andThen io f).1.res = .ok b ∧ (o.andThen io f).2 = io' ↔
      ∃ a, o.res = .ok a ∧ (f a).1.res = .ok b ∧ (f a).2 = io' := by
  unfold Out.andThen
  cases h : o.res <;> simp [Res.failed]

theorem andThen_defined {io : IoHandle} {o : Out α} {f : α → Out β × IoHandle}
    (h1 : o.res.Defined) (h2 : ∀ a, o.res = .ok a → (f a).1.res.Defined) :
    (o.andThen io f).1.res.Defined := by
  unfold Out.andThen
  cases h : o.res with
  | ok a => exact h2 a h
  | err => trivial
  | ub => rw [h] at h1; exact h1
  | hang => rw [h] at h1; exact h1

theorem init109 : AllocTable.init 109 = .ok ⟨List.replicate 109 0⟩ := by
  unfold AllocTable.init; rw [if_neg (by simp [AllocTable.maxIds, MAX_ALLOC])]; rfl

theorem init0 : AllocTable.init 0 = .ok ⟨[]⟩ := by
  unfold AllocTable.init; rw [if_neg (by simp [AllocTable.maxIds, MAX_ALLOC])]; rfl

theorem openCore_eq (cmp : Bytes → Bytes → Option Bool) (dev : Dev) (io : IoHandle) :
    openCore cmp dev io =
    Out.andThen io (headerRead dev ⟨List.replicate 109 0⟩) fun x =>
    Out.andThen (io.withHeader x.1) (readMsat (io.withHeader x.1) dev x.2 x.1.msatSector x.1.msatSectors) fun msat =>
    Out.andThen (io.withHeader x.1) (readSat (io.withHeader x.1) dev msat ⟨[]⟩ x.1.satSectors) fun sat =>
    Out.andThen (io.withHeader x.1) (readSsat (io.withHeader x.1) dev sat ⟨[]⟩ x.1.ssatSector x.1.ssatSectors) fun ssat =>
    Out.andThen (io.withHeader x.1) (readDirectory (io.withHeader x.1) dev sat [] x.1.rootDirSector).1 fun _ =>
    Out.andThen ((io.withHeader x.1).withShortStart (createTree (readDirectory (io.withHeader x.1) dev sat [] x.1.rootDirSector).2 cmp).shortStart)
      (.of (createTree (readDirectory (io.withHeader x.1) dev sat [] x.1.rootDirSector).2 cmp).res) fun tree =>
      (.of (.ok ⟨msat, sat, ssat, tree.map (·.1)⟩),
        (io.withHeader x.1).withShortStart (createTree (readDirectory (io.withHeader x.1) dev sat [] x.1.rootDirSector).2 cmp).shortStart) := by
  unfold openCore
  rw [init109, init0]

/-- What a successful open went through. -/
structure Opened (cmp : Bytes → Bytes → Option Bool) (dev : Dev) (io : IoHandle) (l : Loaded)
    (io' : IoHandle) (hdr : FileHeader) (t0 : AllocTable) (list : List DirEntry)
    (tree : Option (Tree × List Nat)) : Prop where
  hheader : (headerRead dev ⟨List.replicate 109 0⟩).res = .ok (hdr, t0)
  hmsat : (readMsat (io.withHeader hdr) dev t0 hdr.msatSector hdr.msatSectors).res = .ok l.msat
  hsat : (readSat (io.withHeader hdr) dev l.msat ⟨[]⟩ hdr.satSectors).res = .ok l.sat
  hssat : (readSsat (io.withHeader hdr) dev l.sat ⟨[]⟩ hdr.ssatSector hdr.ssatSectors).res =
    .ok l.ssat
  hdir : (readDirectory (io.withHeader hdr) dev l.sat [] hdr.rootDirSector).1.res = .ok ()
  hlist : (readDirectory (io.withHeader hdr) dev l.sat [] hdr.rootDirSector).2 = list
  htree : (createTree list cmp).res = .ok tree
  hltree : l.tree = tree.map (·.1)
  hio : io' = (io.withHeader hdr).withShortStart (createTree list cmp).shortStart

theorem openCore_ok_iff {cmp : Bytes → Bytes → Option Bool} {dev : Dev} {io io' : IoHandle}
    {l : Loaded} :
    (openCore cmp dev io).1.res = .ok l ∧ (openCore cmp dev io).2 = io' ↔
      ∃ hdr t0 list tree, Opened cmp dev io l io' hdr t0 list tree := by
  rw [openCore_eq]
  simp only [andThen_ok]
  constructor
  · rintro ⟨⟨hdr, t0⟩, h1, msat, h2, sat, h3, ssat, h4, u, h5, tree, h6, h7, h8⟩
    simp only [Out.of_res, Res.ok.injEq] at h6 h7
    subst h7
    exact ⟨hdr, t0, _, tree, h1, h2, h3, h4, h5, rfl, h6, rfl, h8.symm⟩
  · rintro ⟨hdr, t0, list, tree, h1, h2, h3, h4, h5, rfl, h6, h7, h8⟩
    refine ⟨(hdr, t0), h1, l.msat, h2, l.sat, h3, l.ssat, h4, (), h5, tree, h6, ?_, h8.symm⟩
    cases l
    simp only [Out.of_res, Res.ok.injEq]
    simp only at h7
    rw [h7]

/-! ### The values of a header -/

theorem wordsAt_lt (e : Endian) (d : Bytes) : ∀ (pos k : Nat), ∀ v ∈ wordsAt e d pos k, v < 2 ^ 32
  | _, 0, v, h => by cases h
  | pos, k + 1, v, h => by
    rw [wordsAt, List.mem_cons] at h
    rcases h with rfl | h
    · exact u32At_lt _ _ _
    · exact wordsAt_lt e d _ k v h

theorem headerRead_fits {dev : Dev} {hdr : FileHeader} {t0 : AllocTable}
    (h : (headerRead dev ⟨List.replicate 109 0⟩).res = .ok (hdr, t0)) :
    t0.ids.length = 109 ∧ (∀ v ∈ t0.ids, v < 2 ^ 32) ∧
    hdr.rootDirSector < 2 ^ 32 ∧ hdr.ssatSector < 2 ^ 32 ∧ hdr.msatSector < 2 ^ 32 ∧
    hdr.satSectors < 2 ^ 32 ∧ hdr.ssatSectors < 2 ^ 32 ∧ hdr.msatSectors < 2 ^ 32 ∧
    hdr.minStreamSize < 2 ^ 32 := by
  unfold headerRead at h
  cases hd : dev.get 0 512 with
  | none => rw [hd] at h; cases h
  | some d =>
    rw [hd] at h
    simp only at h
    have hl : d.length = 512 := Dev.get_length hd
    by_cases hc : 512 ≤ d.length ∧ d.length ≤ SSIZE_MAX ∧ (signature <+: d ∨ signatureBeta <+: d) ∧
      ∃ e, byteOrderMark e <+: d.drop 28
    · obtain ⟨h1, h2, h3, e, h4⟩ := hc
      rw [headerReadData_bom _ h1 h2 h3 h4] at h
      split at h
      · simp only [Res.ok.injEq, Prod.mk.injEq] at h
        obtain ⟨rfl, rfl⟩ := h
        have hu := fun o => u32At_lt e d o
        refine ⟨by simp [headerMsat], ?_, hu _, hu _, hu _, hu _, hu _, hu _, hu _⟩
        intro v hv
        simp only [headerMsat, List.drop_replicate, Nat.sub_self, List.replicate_zero,
          List.append_nil] at hv
        exact wordsAt_lt e d 76 109 v hv
      · cases h
    · rw [headerReadData_err _ hc] at h; cases h

theorem headerRead_sizes {dev : Dev} {hdr : FileHeader} {t0 : AllocTable}
    (h : (headerRead dev ⟨List.replicate 109 0⟩).res = .ok (hdr, t0)) :
    (∃ k, k ≤ 15 ∧ hdr.sectorSize = 2 ^ k) ∧ ∃ k, k ≤ 15 ∧ hdr.shortSectorSize = 2 ^ k :=
  ⟨(C03_sector_sizes _ _ _ _ h).1, (C03_sector_sizes _ _ _ _ h).2.1⟩

/-! ### The readers use the sector size and the byte order only -/

section
variable {io io' : IoHandle} (hs : io.sectorSize = io'.sectorSize) (hb : io.byteOrder = io'.byteOrder)
include hs hb

theorem msatLoop_congr (dev : Dev) (entries : Nat) : ∀ (fuel id index : Nat) (t : AllocTable),
    msatLoop io dev entries fuel id index t = msatLoop io' dev entries fuel id index t := by
  intro fuel
  induction fuel with
  | zero => intro id index t; unfold msatLoop; rfl
  | succ fuel ih =>
    intro id index t
    unfold msatLoop
    simp only [hs, hb, ih]

theorem readMsat_congr (dev : Dev) (t : AllocTable) (id count : Nat) :
    readMsat io dev t id count = readMsat io' dev t id count := by
  unfold readMsat
  simp only [hs, msatLoop_congr hs hb]

theorem satLoop_congr (dev : Dev) (entries : Nat) : ∀ (ids : List Nat) (index : Nat) (t : AllocTable),
    satLoop io dev entries ids index t = satLoop io' dev entries ids index t := by
  intro ids
  induction ids with
  | nil => intro index t; unfold satLoop; rfl
  | cons id ids ih =>
    intro index t
    unfold satLoop
    simp only [hs, hb, ih]

theorem readSat_congr (dev : Dev) (m t : AllocTable) (count : Nat) :
    readSat io dev m t count = readSat io' dev m t count := by
  unfold readSat
  simp only [hs, satLoop_congr hs hb]

theorem ssatLoop_congr (dev : Dev) (sat : AllocTable) (entries count : Nat) :
    ∀ (fuel id si index : Nat) (t : AllocTable),
    ssatLoop io dev sat entries count fuel id si index t =
      ssatLoop io' dev sat entries count fuel id si index t := by
  intro fuel
  induction fuel with
  | zero => intro id si index t; unfold ssatLoop; rfl
  | succ fuel ih =>
    intro id si index t
    unfold ssatLoop
    simp only [hs, hb, ih]

theorem readSsat_congr (dev : Dev) (sat t : AllocTable) (id count : Nat) :
    readSsat io dev sat t id count = readSsat io' dev sat t id count := by
  unfold readSsat
  simp only [hs, ssatLoop_congr hs hb]

theorem dirLoop_congr (dev : Dev) (sat : AllocTable) :
    ∀ (fuel id : Nat) (seen : List Nat) (index : Nat) (acc : List DirEntry),
    dirLoop io dev sat fuel id seen index acc = dirLoop io' dev sat fuel id seen index acc := by
  intro fuel
  induction fuel with
  | zero => intro id seen index acc; unfold dirLoop; rfl
  | succ fuel ih =>
    intro id seen index acc
    unfold dirLoop
    simp only [hs, hb, ih]

theorem readDirectory_congr (dev : Dev) (sat : AllocTable) (list : List DirEntry) (root : Nat) :
    readDirectory io dev sat list root = readDirectory io' dev sat list root := by
  unfold readDirectory
  simp only [hs, dirLoop_congr hs hb]

end

theorem andThen_congr {io io' : IoHandle} {o : Out α} {f f' : α → Out β × IoHandle}
    (h : ∀ a, o.res = .ok a → (f a).1 = (f' a).1) : (o.andThen io f).1 = (o.andThen io' f').1 := by
  unfold Out.andThen
  cases hr : o.res with
  | ok a => simp only [h a hr]
  | _ => rfl

theorem withHeader_sectorSize (io : IoHandle) (h : FileHeader) :
    (io.withHeader h).sectorSize = h.sectorSize := rfl

theorem withHeader_byteOrder (io : IoHandle) (h : FileHeader) :
    (io.withHeader h).byteOrder = h.byteOrder := rfl

theorem createTree_start {list : List DirEntry} {cmp : Bytes → Bytes → Option Bool}
    {r : Option (Tree × List Nat)} (h : (createTree list cmp).res = .ok r) :
    (createTree list cmp).shortStart = r.map (fun x => x.1.root.start) := by
  unfold createTree at h ⊢
  cases list with
  | nil => cases h; rfl
  | cons x l =>
    simp only [] at h ⊢
    cases hr : findRoot (x :: l) with
    | none => rw [hr] at h; cases h
    | some root =>
      rw [hr] at h
      simp only [] at h ⊢
      by_cases hs : root.sub = UNUSED
      · rw [if_pos hs] at h ⊢; cases h; rfl
      · rw [if_neg hs] at h ⊢
        cases hp : processEntry (x :: l) cmp root.id ((x :: l).length + 1) none none root
            ⟨[], fun _ => []⟩ with
        | ok st => rw [hp] at h; cases h; rfl
        | err => rw [hp] at h; cases h
        | ub => rw [hp] at h; cases h
        | hang => rw [hp] at h; cases h

/-- Whatever the IO handle was before, the outcome, the reads and what is loaded are the same, and
  the IO handle afterwards is the same but for the code page and a short stream start that was not
  set. -/
theorem openCore_io (cmp : Bytes → Bytes → Option Bool) (dev : Dev) (io io' : IoHandle) :
    (openCore cmp dev io).1 = (openCore cmp dev io').1 ∧
    ∀ l, (openCore cmp dev io).1.res = .ok l →
      ∃ hdr s, (openCore cmp dev io).2 = (io.withHeader hdr).withShortStart s ∧
        (openCore cmp dev io').2 = (io'.withHeader hdr).withShortStart s ∧
        s = l.tree.map (fun t => t.root.start) := by
  have key : ∀ hdr : FileHeader,
      (∀ t id c, readMsat (io.withHeader hdr) dev t id c = readMsat (io'.withHeader hdr) dev t id c) ∧
      (∀ m t c, readSat (io.withHeader hdr) dev m t c = readSat (io'.withHeader hdr) dev m t c) ∧
      (∀ m t i c, readSsat (io.withHeader hdr) dev m t i c = readSsat (io'.withHeader hdr) dev m t i c) ∧
      (∀ m t i, readDirectory (io.withHeader hdr) dev m t i =
        readDirectory (io'.withHeader hdr) dev m t i) := fun hdr =>
    ⟨fun t id c => readMsat_congr (io := io.withHeader hdr) (io' := io'.withHeader hdr) rfl rfl dev t id c, fun m t c => readSat_congr (io := io.withHeader hdr) (io' := io'.withHeader hdr) rfl rfl dev m t c,
     fun m t i c => readSsat_congr (io := io.withHeader hdr) (io' := io'.withHeader hdr) rfl rfl dev m t i c,
     fun m t i => readDirectory_congr (io := io.withHeader hdr) (io' := io'.withHeader hdr) rfl rfl dev m t i⟩
  have h1 : (openCore cmp dev io).1 = (openCore cmp dev io').1 := by
    rw [openCore_eq, openCore_eq]
    refine andThen_congr fun x _ => ?_
    rw [(key x.1).1]
    refine andThen_congr fun msat _ => ?_
    rw [(key x.1).2.1]
    refine andThen_congr fun sat _ => ?_
    rw [(key x.1).2.2.1, (key x.1).2.2.2]
    refine andThen_congr fun ssat _ => ?_
    refine andThen_congr fun _ _ => ?_
    refine andThen_congr fun _ _ => rfl
  refine ⟨h1, fun l hl => ?_⟩
  obtain ⟨hdr, t0, list, tree, ho⟩ := (openCore_ok_iff (io' := (openCore cmp dev io).2)).1 ⟨hl, rfl⟩
  have hl' : (openCore cmp dev io').1.res = .ok l := by rw [← h1]; exact hl
  obtain ⟨hdr', t0', list', tree', ho'⟩ :=
    (openCore_ok_iff (io' := (openCore cmp dev io').2)).1 ⟨hl', rfl⟩
  have e1 := ho.hheader.symm.trans ho'.hheader
  simp only [Res.ok.injEq, Prod.mk.injEq] at e1
  obtain ⟨rfl, rfl⟩ := e1
  have e2 : list = list' := by
    rw [← ho.hlist, ← ho'.hlist, (key hdr).2.2.2]
  subst e2
  refine ⟨hdr, (createTree list cmp).shortStart, ho.hio, ho'.hio, ?_⟩
  rw [createTree_start ho.htree, ho.hltree]
  cases tree <;> rfl

/-! ### What is loaded -/

theorem Opened.wf {cmp : Bytes → Bytes → Option Bool} {dev : Dev} {io io' : IoHandle} {l : Loaded}
    {hdr : FileHeader} {t0 : AllocTable} {list : List DirEntry} {tree : Option (Tree × List Nat)}
    (h : Opened cmp dev io l io' hdr t0 list tree) : l.msat.WF ∧ l.sat.WF ∧ l.ssat.WF := by
  obtain ⟨hl, hv, h1, h2, h3, h4, h5, h6, h7⟩ := headerRead_fits h.hheader
  obtain ⟨⟨k, hk, hks⟩, _⟩ := headerRead_sizes h.hheader
  have hmw : l.msat.WF := by
    rcases (readMsat_safe (io.withHeader hdr) dev t0 hdr.msatSector hdr.msatSectors h3
      ⟨by show t0.ids.length ≤ _; omega, hv⟩).1 with he | ⟨t, ht, hw, _⟩
    · rw [h.hmsat] at he; cases he
    · rw [h.hmsat] at ht; cases ht; exact hw
  have hsw : l.sat.WF := by
    obtain ⟨t, ht, hw, _⟩ := readSat_safe (io.withHeader hdr) dev l.msat hdr.satSectors k hk hks hmw.lt
    rw [h.hsat] at ht; cases ht; exact hw
  refine ⟨hmw, hsw, ?_⟩
  have hp : 0 < 2 ^ k := Nat.pow_pos (by omega)
  have hle : 2 ^ k ≤ 2 ^ 15 := Nat.pow_le_pow_right (by omega) hk
  obtain ⟨⟨t, ht, _, hw⟩, _⟩ := readSsat_safe (io.withHeader hdr) dev l.sat hdr.ssatSector hdr.ssatSectors
    (by rw [withHeader_sectorSize, hks]; exact hp)
    (by rw [withHeader_sectorSize, hks, MAX_ALLOC]; omega) hsw h2
  rw [h.hssat] at ht; cases ht; exact hw

theorem readDirectory_entries {io : IoHandle} {dev : Dev} {sat : AllocTable} {root : Nat}
    (hsw : sat.WF) (hr : root < 2 ^ 32)
    (h : (readDirectory io dev sat [] root).1.res = .ok ()) :
    (((readDirectory io dev sat [] root).2).map (·.id)).Pairwise (· < ·) ∧
    (∀ d ∈ (readDirectory io dev sat [] root).2,
      d.type < 2 ^ 8 ∧ d.type ≠ 0 ∧ d.prev < 2 ^ 32 ∧ d.next < 2 ^ 32 ∧ d.sub < 2 ^ 32 ∧
      d.start < 2 ^ 32 ∧ d.size < 2 ^ 32 ∧ d.name.length ≤ 128) := by
  have hc : io.sectorSize ≠ 0 ∧ io.sectorSize ≤ MAX_ALLOC ∧ io.sectorSize % 128 = 0 ∧ root ≠ EOC := by
    unfold readDirectory at h
    split at h
    · cases h
    · split at h
      · cases h
      · rename_i h1 h2
        simp only [not_or, Classical.not_not] at h1
        exact ⟨h1.1, by omega, h1.2.2, h2⟩
  obtain ⟨h1, h2, h3, h4⟩ := hc
  obtain ⟨ids, rep, secs, _, _, _, hok, he⟩ :=
    (C15_directory_exact io dev sat.ids root (io.sectorSize / 128) _ (by omega) (by omega) h2
      hsw.size hsw.lt hr h4).1 ⟨h, rfl⟩
  rw [he]
  refine ⟨entriesOf_sorted _ _, fun d hd => ?_⟩
  obtain ⟨hi, ht, hde⟩ := entriesOf_mem.1 hd
  have hs := hok _ hi
  rw [hde]
  refine ⟨byteAt_lt _ _, ht, u32At_lt _ _ _, u32At_lt _ _ _, u32At_lt _ _ _, u32At_lt _ _ _,
    u32At_lt _ _ _, ?_⟩
  rcases hs with hs | hs
  · exact absurd hs ht
  · show (List.take _ _).length ≤ 128
    rw [List.length_take]
    exact Nat.le_trans (Nat.min_le_left _ _) hs

/-! ### Opening and closing -/

/-- A file object without tables, tree and flags: what the library keeps while it is not open. -/
def OleFile.Empty (f : OleFile) : Prop :=
  f.msat = none ∧ f.sat = none ∧ f.ssat = none ∧ f.tree = none ∧ f.openedInLibrary = false ∧
    f.createdInLibrary = false

/-- The file object after a successful open. -/
def OleFile.loaded (f : OleFile) (l : Loaded) (io : IoHandle) (h : HandleId) (opened : Bool) :
    OleFile :=
  { f with io := io, handle := some h, openedInLibrary := opened, msat := some l.msat,
           sat := some l.sat, ssat := some l.ssat, tree := l.tree }

theorem openRead_eq {cmp : Bytes → Bytes → Option Bool} {dev : Dev} {f : OleFile}
    (h1 : f.msat = none) (h2 : f.sat = none) (h3 : f.ssat = none) (h4 : f.tree = none) :
    openRead cmp dev f =
      match (openCore cmp dev f.io).1.res with
      | .ok l => (⟨(openCore cmp dev f.io).1.reads, .ok ()⟩,
          { f with io := (openCore cmp dev f.io).2, msat := some l.msat, sat := some l.sat,
                   ssat := some l.ssat, tree := l.tree })
      | r => (⟨(openCore cmp dev f.io).1.reads, r.failed⟩,
          { f with io := (openCore cmp dev f.io).2 }) := by
  unfold openRead
  rw [if_neg (by simp [h1, h2, h3, h4])]
  rfl

/-- Read access and nothing else was asked for. -/
def ReadOnly (flags : Nat) : Prop := flagRead flags = true ∧ flagWrite flags = false

/-- The handles with `h` opened by the library if it was not open. -/
def World.ensureOpen (w : World) (h : HandleId) : World :=
  if w.isOpen h then w else (w.openH {} h).2

theorem openHandle_spec {cmp : Bytes → Bytes → Option Bool} {h : HandleId} {flags : Nat}
    {flt : Faults} {st : FileState} (he : st.file.handle = none → st.file.Empty) :
    ((st.file.handle.isSome ∨ ¬ ReadOnly flags ∨ flt.isOpen ∨
        (st.world.isOpen h = false ∧ flt.opening = true)) ∧
      openHandle cmp h flags flt st = (.err, st)) ∨
    ((st.file.handle = none ∧ ReadOnly flags ∧ flt.isOpen = false ∧
        (st.world.isOpen h = true ∨ flt.opening = false)) ∧
      ((∃ l, (openCore cmp (st.world.dev h) st.file.io).1.res = .ok l ∧
        openHandle cmp h flags flt st = (.ok (),
          ⟨st.file.loaded l (openCore cmp (st.world.dev h) st.file.io).2 h (!st.world.isOpen h),
            st.world.ensureOpen h⟩)) ∨
      ((∀ l, (openCore cmp (st.world.dev h) st.file.io).1.res ≠ .ok l) ∧
        openHandle cmp h flags flt st = ((openCore cmp (st.world.dev h) st.file.io).1.res.failed,
          ⟨{ st.file with io := (openCore cmp (st.world.dev h) st.file.io).2 },
            if st.world.isOpen h then st.world
            else ((st.world.ensureOpen h).closeH flt h).2⟩)))) := by
  obtain ⟨⟨io, ab, hd, oi, ci, ms, sa, ss, tr⟩, w⟩ := st
  unfold openHandle
  simp only at he ⊢
  cases hd with
  | some k => left; simp
  | none =>
    obtain ⟨h1, h2, h3, h4, h5, h6⟩ := he rfl
    simp only at h1 h2 h3 h4 h5 h6
    subst h1 h2 h3 h4 h5 h6
    cases hr : flagRead flags <;> cases hw : flagWrite flags <;> simp only [ReadOnly, hr, hw]
    · left; simp
    · left; simp
    · cases hio : flt.isOpen
      · cases ho : w.isOpen h
        · cases hop : flt.opening
          · right
            refine ⟨by simp, ?_⟩
            have ewo : w.openH flt h = (true, (w.openH {} h).2) := by
              unfold World.openH; simp [hop]
            have edev : (w.openH {} h).2.dev = w.dev := rfl
            simp only [World.ensureOpen, ho, ewo, edev]
            rw [openRead_eq rfl rfl rfl rfl]
            cases hc : (openCore cmp (w.dev h) io).1.res with
            | ok l => left; exact ⟨l, rfl, by simp [OleFile.loaded, edev, hc]⟩
            | _ => right; exact ⟨by simp, by simp [Res.failed, edev, hc]⟩
          · left
            simp [World.openH, hop]
        · right
          refine ⟨by simp, ?_⟩
          simp only [World.ensureOpen, ho]
          rw [openRead_eq rfl rfl rfl rfl]
          cases hc : (openCore cmp (w.dev h) io).1.res with
          | ok l => left; exact ⟨l, rfl, by simp [OleFile.loaded, hc]⟩
          | _ => right; exact ⟨by simp, by simp [Res.failed, hc]⟩
      · left; simp
    · left; simp

/-! ### The invariant of histories -/

/-- What holds after every history. -/
structure Inv (st : FileState) : Prop where
  closed : st.file.handle = none → st.file.Empty
  isOpen : ∀ h, st.file.handle = some h → st.world.isOpen h = true ∧
    (st.file.createdInLibrary = true ↔ ∃ n, h = .lib n) ∧
    (st.file.createdInLibrary = true → st.file.openedInLibrary = true) ∧
    st.file.msat.isSome ∧ st.file.sat.isSome ∧ st.file.ssat.isSome
  owes : ∀ h, owesClose h st.world.events =
    some (decide (st.file.handle = some h) && st.file.openedInLibrary)
  exist : ∀ h, existsAfter h st.world.events = some (match h with
    | .user _ => true
    | .lib n => decide (st.file.handle = some (.lib n)))
  fresh : ∀ n, st.world.made ≤ n → st.file.handle ≠ some (.lib n)

theorem owesClose_snoc (h : HandleId) (l : List HandleEvent) (e : HandleEvent) :
    owesClose h (l ++ [e]) = match owesClose h l with
      | none => none
      | some b => match e with
        | .created _ => some b
        | .opened k => if k = h then (if b then none else some true) else some b
        | .closed k => if k = h then (if b then some false else none) else some b
        | .closeFailed k => if k = h then (if b then some false else none) else some b
        | .freed k => if k = h then some false else some b := by
  unfold owesClose
  rw [List.foldl_append]
  rfl

theorem existsAfter_snoc (h : HandleId) (l : List HandleEvent) (e : HandleEvent) :
    existsAfter h (l ++ [e]) = match existsAfter h l with
      | none => none
      | some b => match e with
        | .created k => if k = h then (if b then none else some true) else some b
        | .opened k => if k = h then (if b then some true else none) else some b
        | .closed k => if k = h then (if b then some true else none) else some b
        | .closeFailed k => if k = h then (if b then some true else none) else some b
        | .freed k => if k = h then (if b then some false else none) else some b := by
  unfold existsAfter
  rw [List.foldl_append]
  rfl

theorem closeH_event (w : World) (flt : Faults) (h : HandleId) :
    (w.closeH flt h).2.made = w.made ∧ (w.closeH flt h).2.dev = w.dev ∧
    (∀ k, k ≠ h → (w.closeH flt h).2.isOpen k = w.isOpen k) ∧
    ((w.closeH flt h).2.events = w.events ++ [.closed h] ∨
      (w.closeH flt h).2.events = w.events ++ [.closeFailed h]) := by
  unfold World.closeH
  split
  · simp
  · refine ⟨rfl, rfl, fun k hk => ?_, Or.inl rfl⟩
    simp [hk]

theorem owesClose_close (w : World) (flt : Faults) (h k : HandleId) :
    owesClose k (w.closeH flt h).2.events = match owesClose k w.events with
      | none => none
      | some b => if h = k then (if b then some false else none) else some b := by
  rcases (closeH_event w flt h).2.2.2 with he | he <;> rw [he, owesClose_snoc]

theorem existsAfter_close (w : World) (flt : Faults) (h k : HandleId) :
    existsAfter k (w.closeH flt h).2.events = match existsAfter k w.events with
      | none => none
      | some b => if h = k then (if b then some true else none) else some b := by
  rcases (closeH_event w flt h).2.2.2 with he | he <;> rw [he, existsAfter_snoc]

theorem ensureOpen_isOpen (w : World) (h : HandleId) :
    (w.ensureOpen h).isOpen h = true ∧ (w.ensureOpen h).made = w.made ∧
    (w.ensureOpen h).dev = w.dev ∧
    ∀ k, k ≠ h → (w.ensureOpen h).isOpen k = w.isOpen k := by
  unfold World.ensureOpen World.openH
  split
  · simp_all
  · refine ⟨by simp, rfl, rfl, fun k hk => by simp [hk]⟩

theorem ensureOpen_owes (w : World) (h k : HandleId) :
    owesClose k (w.ensureOpen h).events =
      if w.isOpen h then owesClose k w.events
      else match owesClose k w.events with
        | none => none
        | some b => if h = k then (if b then none else some true) else some b := by
  unfold World.ensureOpen World.openH
  split
  · rfl
  · rw [if_neg (by decide)]
    simp only [owesClose_snoc]

theorem ensureOpen_exists (w : World) (h k : HandleId) :
    existsAfter k (w.ensureOpen h).events =
      if w.isOpen h then existsAfter k w.events
      else match existsAfter k w.events with
        | none => none
        | some b => if h = k then (if b then some true else none) else some b := by
  unfold World.ensureOpen World.openH
  split
  · rfl
  · rw [if_neg (by decide)]
    simp only [existsAfter_snoc]

theorem inv_initial {st : FileState} (h : Initial st) : Inv st := by
  obtain ⟨⟨io, ab, hd, oi, ci, ms, sa, ss, tr⟩, w⟩ := st
  obtain ⟨h1, h2⟩ := h
  simp only [OleFile.new, OleFile.mk.injEq] at h1
  obtain ⟨rfl, rfl, rfl, rfl, rfl, rfl, rfl, rfl, rfl⟩ := h1
  simp only at h2
  refine ⟨fun _ => ⟨rfl, rfl, rfl, rfl, rfl, rfl⟩, by simp, fun h => ?_, fun h => ?_, by simp⟩
  · simp [h2, owesClose]
  · simp only [h2, existsAfter, List.foldl_nil]
    cases h <;> simp

theorem inv_openUser {cmp : Bytes → Bytes → Option Bool} {n flags : Nat} {flt : Faults}
    {st : FileState} (hi : Inv st) : Inv (openHandle cmp (.user n) flags flt st).2 := by
  rcases openHandle_spec (cmp := cmp) (h := .user n) (flags := flags) (flt := flt) hi.closed with
    ⟨_, h⟩ | ⟨⟨hn, _, _, _⟩, ⟨l, _, h⟩ | ⟨_, h⟩⟩
  · rw [h]; exact hi
  · rw [h]
    obtain ⟨h1, h2, h3, h4, h5, h6⟩ := hi.closed hn
    have ho := hi.owes
    have hx := hi.exist
    rw [hn] at ho hx
    refine ⟨by simp [OleFile.loaded], ?_, ?_, ?_, by simp [OleFile.loaded]⟩
    · intro k hk
      simp only [OleFile.loaded, Option.some.injEq] at hk
      subst hk
      refine ⟨(ensureOpen_isOpen _ _).1, ?_, ?_, rfl, rfl, rfl⟩ <;> simp [OleFile.loaded, h6]
    · intro k
      simp only [ensureOpen_owes, ho]
      cases st.world.isOpen (.user n) <;> simp [OleFile.loaded]
      by_cases hk : HandleId.user n = k <;> simp [hk]
    · intro k
      simp only [ensureOpen_exists, hx]
      cases k <;> simp [OleFile.loaded]
  · rw [h]
    obtain ⟨h1, h2, h3, h4, h5, h6⟩ := hi.closed hn
    have ho := hi.owes
    have hx := hi.exist
    refine ⟨fun _ => ⟨h1, h2, h3, h4, h5, h6⟩, by simp [hn], ?_, ?_, by simp [hn]⟩
    · intro k
      split
      · simpa using ho k
      · rename_i hop
        rw [owesClose_close, ensureOpen_owes, if_neg hop, ho k, hn]
        by_cases hk : HandleId.user n = k <;> simp [hk]
    · intro k
      split
      · simpa using hx k
      · rename_i hop
        rw [existsAfter_close, ensureOpen_exists, if_neg hop, hx k, hn]
        cases k <;> simp

/-- What closing an open file does. -/
theorem closeFile_eq {flt : Faults} {st : FileState} {h : HandleId} (hh : st.file.handle = some h) :
    closeFile flt st =
      (if (st.file.openedInLibrary = false ∨ (st.world.closeH flt h).1 = true) ∧
          (st.file.createdInLibrary = false ∨ flt.free = false) then .ok () else .err,
        ⟨OleFile.new,
          let w := if st.file.openedInLibrary then (st.world.closeH flt h).2 else st.world
          if st.file.createdInLibrary then w.freeH h else w⟩) := by
  unfold closeFile
  rw [hh]
  cases st.file.openedInLibrary <;> cases st.file.createdInLibrary <;>
    cases hf : flt.free <;> simp [OleFile.new, Res.failed]

theorem inv_close {flt : Faults} {st : FileState} (hi : Inv st) : Inv (closeFile flt st).2 := by
  cases hh : st.file.handle with
  | none => unfold closeFile; rw [hh]; exact hi
  | some h =>
    rw [closeFile_eq hh]
    obtain ⟨ho, hc, hco, _⟩ := hi.isOpen h hh
    have how := hi.owes
    have hex := hi.exist
    rw [hh] at how hex
    refine ⟨fun _ => ⟨rfl, rfl, rfl, rfl, rfl, rfl⟩, by simp [OleFile.new], fun k => ?_, fun k => ?_,
      by simp [OleFile.new]⟩
    · have hk := how k
      cases hoi : st.file.openedInLibrary <;> cases hci : st.file.createdInLibrary <;>
        simp only [hoi, hci, if_true, OleFile.new] at hk ⊢
      · simpa using hk
      · simp [hci, hoi] at hco
      · rw [if_neg (by decide), owesClose_close, hk]
        by_cases hkk : h = k <;> simp [hkk]
      · rw [World.freeH, owesClose_snoc, owesClose_close, hk]
        by_cases hkk : h = k <;> simp [hkk]
    · have hk := hex k
      cases hoi : st.file.openedInLibrary <;> cases hci : st.file.createdInLibrary <;>
        simp only [hoi, hci, if_true, OleFile.new] at hk ⊢
      · rw [if_neg (by decide), if_neg (by decide), hk]
        cases k with
        | user n => rfl
        | lib n =>
          have : h ≠ .lib n := fun he => by
            have := hc.2 ⟨n, he⟩; rw [hci] at this; cases this
          simp [this]
      · simp [hci, hoi] at hco
      · rw [if_neg (by decide), existsAfter_close, hk]
        cases k with
        | user n => simp
        | lib n =>
          have : h ≠ .lib n := fun he => by
            have := hc.2 ⟨n, he⟩; rw [hci] at this; cases this
          simp [this]
      · obtain ⟨m, rfl⟩ := hc.1 hci
        rw [World.freeH, existsAfter_snoc, existsAfter_close, hk]
        cases k with
        | user n => simp
        | lib n => by_cases hkk : m = n <;> simp [hkk]

theorem inv_openName {cmp : Bytes → Bytes → Option Bool} {dev : Dev} {flags : Nat} {flt : Faults}
    {st : FileState} (hi : Inv st) : Inv (openName cmp dev flags flt st).2 := by
  unfold openName
  cases hcr : flt.create
  · simp only [Bool.false_eq_true, if_false]
    have hne : st.file.handle ≠ some (.lib st.world.made) := hi.fresh _ (Nat.le_refl _)
    have hob : ∀ k, owesClose k (st.world.createH dev).2.events =
        some (decide (st.file.handle = some k) && st.file.openedInLibrary) := by
      intro k
      simp only [World.createH, owesClose_snoc, hi.owes k]
    have hxb : ∀ k, existsAfter k (st.world.createH dev).2.events = some (match k with
        | .user _ => true
        | .lib n => decide (st.file.handle = some (.lib n)) || decide (n = st.world.made)) := by
      intro k
      simp only [World.createH, existsAfter_snoc, hi.exist k]
      cases k with
      | user n => simp
      | lib n =>
        by_cases hn : n = st.world.made
        · subst hn; simp [hne]
        · simp [hn, Ne.symm hn]
    have hio : ∀ k, k ≠ .lib st.world.made →
        (st.world.createH dev).2.isOpen k = st.world.isOpen k := by
      intro k hk; simp [World.createH, hk]
    -- freeing the new handle leaves a state as before
    have hfree : ∀ (w : World) (f : OleFile), f.handle = st.file.handle →
        (f.handle = none → f.Empty) → (∀ h, f.handle = some h → f = st.file) →
        w.made = st.world.made + 1 →
        (∀ k, k ≠ .lib st.world.made → w.isOpen k = st.world.isOpen k) →
        (∀ k, k ≠ .lib st.world.made → owesClose k w.events = owesClose k st.world.events) →
        (∃ b, owesClose (.lib st.world.made) w.events = some b) →
        (∀ k, existsAfter k w.events = existsAfter k (st.world.createH dev).2.events) →
        Inv ⟨f, w.freeH (.lib st.world.made)⟩ := by
      intro w f hf hfe hfs hm ho how hob2 hex
      refine ⟨hfe, ?_, ?_, ?_, ?_⟩
      · intro k hk
        have hfs' := hfs k hk
        have hfk := hk
        rw [hfs'] at hk
        have hkne : k ≠ .lib st.world.made := by rintro rfl; exact hne hk
        have := hi.isOpen k hk
        simp only [hfs', World.freeH, hkne, if_false, ho k hkne]
        exact this
      · intro k
        simp only [World.freeH, owesClose_snoc]
        by_cases hk : HandleId.lib st.world.made = k
        · subst hk
          obtain ⟨b, hb⟩ := hob2
          simp [hb, hf, hne]
        · rw [how k (Ne.symm hk), hi.owes k]
          simp only [hk, if_false, hf, Option.some.injEq]
          cases hh : st.file.handle with
          | none => simp
          | some h => rw [hfs h (by rw [hf, hh])]
      · intro k
        simp only [World.freeH, existsAfter_snoc, hex k, hxb k]
        cases k with
        | user n => simp
        | lib n =>
          by_cases hn : n = st.world.made
          · subst hn; simp [hf, hne]
          · simp [hn, Ne.symm hn, hf]
      · intro n hn
        simp only [World.freeH, hm] at hn
        rw [hf]
        exact hi.fresh n (by omega)
    cases hsn : flt.setName
    · simp only [Bool.false_eq_true, if_false]
      have hcl : ({ file := st.file, world := (st.world.createH dev).2 } : FileState).file.handle = none →
          ({ file := st.file, world := (st.world.createH dev).2 } : FileState).file.Empty := hi.closed
      have hfst : (st.world.createH dev).1 = .lib st.world.made := rfl
      have hnotopen : (st.world.createH dev).2.isOpen (.lib st.world.made) = false := by
        simp [World.createH]
      rw [hfst]
      rcases openHandle_spec (cmp := cmp) (h := .lib st.world.made) (flags := flags) (flt := flt)
          (st := ⟨st.file, (st.world.createH dev).2⟩) hcl with
        ⟨_, h⟩ | ⟨⟨hn, _, _, _⟩, ⟨l, _, h⟩ | ⟨_, h⟩⟩
      · rw [h]
        refine hfree _ _ rfl hi.closed (fun _ _ => rfl) rfl hio (fun k hk => ?_) ⟨_, hob _⟩ (fun _ => rfl)
        rw [hob, hi.owes]
      · rw [h]
        have hn' : st.file.handle = none := hn
        refine ⟨by simp [OleFile.loaded], ?_, ?_, ?_, ?_⟩
        · intro k hk
          simp only [OleFile.loaded, Option.some.injEq] at hk
          subst hk
          refine ⟨(ensureOpen_isOpen _ _).1, ?_, ?_, rfl, rfl, rfl⟩
          · simp [OleFile.loaded]
          · simp [OleFile.loaded, hnotopen]
        · intro k
          simp only [ensureOpen_owes, hob, hn', hnotopen]
          by_cases hk : HandleId.lib st.world.made = k <;> simp [OleFile.loaded, hk]
        · intro k
          simp only [ensureOpen_exists, hxb, hn', hnotopen]
          cases k with
          | user n => simp
          | lib n =>
            by_cases hn2 : n = st.world.made
            · subst hn2; simp [OleFile.loaded]
            · simp [OleFile.loaded, hn2, Ne.symm hn2]
        · intro n hn2
          simp only [(ensureOpen_isOpen _ _).2.1] at hn2
          have hmm : (st.world.createH dev).2.made = st.world.made + 1 := rfl
          rw [hmm] at hn2
          simp only [OleFile.loaded, ne_eq, Option.some.injEq, HandleId.lib.injEq]
          omega
      · rw [h]
        have hn' : st.file.handle = none := hn
        simp only [hnotopen, Bool.false_eq_true, if_false]
        suffices hs : Inv ⟨{ st.file with
              io := (openCore cmp ((st.world.createH dev).2.dev (.lib st.world.made)) st.file.io).2 },
            ((((st.world.createH dev).2.ensureOpen (.lib st.world.made)).closeH flt
              (.lib st.world.made)).2).freeH (.lib st.world.made)⟩ by
          rename_i hno
          revert hno
          cases (openCore cmp ((st.world.createH dev).2.dev (.lib st.world.made)) st.file.io).1.res with
          | ok l => intro hno; exact absurd rfl (hno l)
          | _ => intro _; exact hs
        refine hfree _ _ rfl (fun _ => hi.closed hn') (fun k hk => by simp [hn'] at hk) ?_ ?_ ?_ ?_ ?_
        · rw [(closeH_event _ _ _).1, (ensureOpen_isOpen _ _).2.1]; rfl
        · intro k hk
          rw [(closeH_event _ _ _).2.2.1 k hk, (ensureOpen_isOpen _ _).2.2.2 k hk, hio k hk]
        · intro k hk
          rw [owesClose_close, ensureOpen_owes, hnotopen, hob, hi.owes]
          simp [Ne.symm hk]
        · rw [owesClose_close, ensureOpen_owes, hnotopen, hob, hn']
          simp
        · intro k
          rw [existsAfter_close, ensureOpen_exists, hnotopen, hxb]
          cases k with
          | user n => simp
          | lib n =>
            by_cases hn2 : n = st.world.made
            · subst hn2; simp
            · simp [Ne.symm hn2]
    · simp only [if_true]
      refine hfree _ _ rfl hi.closed (fun _ _ => rfl) rfl hio (fun k hk => ?_) ⟨_, hob _⟩ (fun _ => rfl)
      rw [hob, hi.owes]
  · simpa using hi

theorem inv_run {cmp : Bytes → Bytes → Option Bool} {st : FileState} (hi : Inv st) (op : FileOp) :
    Inv (op.run cmp st).2 := by
  cases op with
  | openHandle n flags flt => exact inv_openUser hi
  | openName dev flags flt => exact inv_openName hi
  | close flt => exact inv_close hi
  | setCodepage cp =>
    simp only [FileOp.run, setCodepage]
    split
    · exact hi
    · exact ⟨hi.closed, hi.isOpen, hi.owes, hi.exist, hi.fresh⟩
  | signalAbort => exact ⟨hi.closed, hi.isOpen, hi.owes, hi.exist, hi.fresh⟩
  | caller n b dev =>
    simp only [FileOp.run]
    split
    · exact hi
    · rename_i hne
      refine ⟨hi.closed, fun h hh => ?_, hi.owes, hi.exist, hi.fresh⟩
      have := hi.isOpen h hh
      have hk : h ≠ .user n := by rintro rfl; exact hne hh
      simp only [hk, if_false]
      exact this

theorem inv_runOps {cmp : Bytes → Bytes → Option Bool} (ops : List FileOp) :
    ∀ {st : FileState}, Inv st → Inv (runOps cmp st ops) := by
  induction ops with
  | nil => intro st h; exact h
  | cons op ops ih => intro st h; exact ih (inv_run h op)

end Olecf
