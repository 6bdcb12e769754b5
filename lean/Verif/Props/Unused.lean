import Verif.Spec.Unused
import Verif.Props.Blocks

/-
  C113: bytes that are not in use do not matter.
-/

namespace Olecf.Props
open Spec

/-- The two files have the same content in the used bytes of the first. -/
def SameUsed (content content' : Bytes) (e : Endian) (h : HeaderFields) (sat : List Nat) (slots : List SlotFields) :
    Prop :=
  ∀ p, InUse content e h sat slots p → content'[p]? = content[p]?

section
variable {content content' : Bytes} {e : Endian} {h : HeaderFields} {sat ssat : List Nat} {slots : List SlotFields}

/-- The second file has the sector if the first has it. -/
def SameSector (content content' : Bytes) (h : HeaderFields) (j : Nat) : Prop :=
  ∀ s, sector (Dev.ofBytes content) (2 ^ h.sectorExp) j = some s →
    sector (Dev.ofBytes content') (2 ^ h.sectorExp) j = some s

theorem sector_same {j : Nat} (hs : ∀ p, sectorPos (2 ^ h.sectorExp) j ≤ p →
    p < sectorPos (2 ^ h.sectorExp) j + 2 ^ h.sectorExp → content'[p]? = content[p]?) :
    SameSector content content' h j := by
  intro s hj
  have hp := Nat.two_pow_pos h.sectorExp
  unfold sector at hj ⊢
  rw [get_ofBytes_iff _ _ _ _ hp] at hj ⊢
  refine ⟨hj.1, fun k hk => ?_⟩
  rw [hs _ (Nat.le_add_right _ _) (Nat.add_lt_add_left hk _)]
  exact hj.2 k hk

theorem sectorsAre_same {ids : List Nat} {secs : List Bytes} (hs : ∀ j ∈ ids, SameSector content content' h j)
    (hi : SectorsAre content (2 ^ h.sectorExp) ids secs) : SectorsAre content' (2 ^ h.sectorExp) ids secs := by
  unfold SectorsAre at hi ⊢
  induction ids generalizing secs with
  | nil => exact hi
  | cons a ids ih =>
    cases secs with
    | nil => cases hi
    | cons s secs =>
      rw [List.map_cons, List.map_cons, List.cons.injEq] at hi ⊢
      exact ⟨hs a (List.mem_cons_self ..) _ hi.1, ih (fun j hj => hs j (List.mem_cons_of_mem _ hj)) hi.2⟩

theorem msatSectors_onMsat {ss a : Nat} {secs : List Bytes} (hm : MsatSectors (Dev.ofBytes content) e ss a secs)
    {s : Bytes} (hs : s ∈ secs) : ∃ i, OnMsat content e ss a i ∧ sector (Dev.ofBytes content) ss i = some s := by
  induction hm with
  | done => cases hs
  | step h1 h2 _ ih =>
    rcases List.mem_cons.1 hs with rfl | hs
    · exact ⟨_, .here h1, h2⟩
    · obtain ⟨i, g1, g2⟩ := ih hs
      exact ⟨i, .next h1 h2 g1, g2⟩

theorem msatSectors_same {a : Nat} {secs : List Bytes}
    (hm : MsatSectors (Dev.ofBytes content) e (2 ^ h.sectorExp) a secs)
    (ha : ∀ j, OnMsat content e (2 ^ h.sectorExp) a j → SameSector content content' h j) :
    MsatSectors (Dev.ofBytes content') e (2 ^ h.sectorExp) a secs := by
  induction hm with
  | done => exact .done
  | step h1 h2 _ ih => exact .step h1 (ha _ (.here h1) _ h2) (ih fun j hj => ha j (.next h1 h2 hj))

/-- A layout carries over to a file with the same header and the same sectors of tables and directory. -/
theorem layout_same (hl : Layout content e h sat ssat slots) (hh : ∀ p, p < 512 → content'[p]? = content[p]?)
    (hm : ∀ j, OnMsat content e (2 ^ h.sectorExp) h.msatSector j → SameSector content content' h j)
    (hi : ∀ j, j ∈ h.msat → j ≠ 0xffffffff → SameSector content content' h j)
    (hx : ∀ i j s, OnMsat content e (2 ^ h.sectorExp) h.msatSector i →
      sector (Dev.ofBytes content) (2 ^ h.sectorExp) i = some s → j ∈ msatEntries e s → j ≠ 0xffffffff →
      SameSector content content' h j)
    (hs : ∀ ids b, Chain sat h.ssatSector ids b → ∀ j ∈ ids, SameSector content content' h j)
    (hd : ∀ ids b, Chain sat h.rootDirSector ids b → ∀ j ∈ ids, SameSector content content' h j) :
    Layout content' e h sat ssat slots where
  fits := hl.fits
  sectorSize := hl.sectorSize
  header := by
    have h512 := encodeHeader_length e h hl.fits
    rw [List.prefix_iff_getElem?]
    intro i hi
    rw [hh i (by omega)]
    exact List.prefix_iff_getElem?.1 hl.header i hi
  msatLimit := hl.msatLimit
  satLimit := hl.satLimit
  ssatLimit := hl.ssatLimit
  hsat := by
    obtain ⟨msat, secs, ⟨ms, h1, h2, h3⟩, h4, h5, h6⟩ := hl.hsat
    refine ⟨msat, secs, ⟨ms, msatSectors_same h1 hm, h2, h3⟩, sectorsAre_same (fun j hj => ?_) h4, h5, h6⟩
    obtain ⟨hj, hn⟩ := List.mem_filter.1 hj
    have hn : j ≠ 0xffffffff := of_decide_eq_true hn
    rw [h3] at hj
    rcases List.mem_append.1 hj with hj | hj
    · exact hi j hj hn
    · obtain ⟨s, hm, hj⟩ := List.mem_flatMap.1 hj
      obtain ⟨i, g1, g2⟩ := msatSectors_onMsat h1 hm
      exact hx i j s g1 g2 hj hn
  hssat := by
    obtain ⟨ids, secs, h1, h2, h3, h4⟩ := hl.hssat
    exact ⟨ids, secs, h1, sectorsAre_same (hs _ _ h1) h2, h3, h4⟩
  directory := by
    obtain ⟨ids, secs, h1, h2, h3, h4, h5⟩ := hl.directory
    exact ⟨ids, secs, h1, h2, h3, sectorsAre_same (hd _ _ h1) h4, h5⟩
  hslots := hl.hslots

theorem chain_referenced {a b : Nat} {ids : List Nat} (hc : Chain sat a ids b)
    (ha : a < sat.length → Referenced content e h sat slots a) : ∀ j ∈ ids, Referenced content e h sat slots j := by
  induction hc with
  | nil => intro j hj; cases hj
  | cons h1 _ ih =>
    intro j hj
    rcases List.mem_cons.1 hj with rfl | hj
    · exact ha (List.getElem?_eq_some_iff.1 h1).1
    · exact ih (fun hn => .link (List.mem_of_getElem? h1) hn) j hj

theorem sector_sameUsed (hs : SameUsed content content' e h sat slots) {j : Nat}
    (hr : Referenced content e h sat slots j) : SameSector content content' h j :=
  sector_same fun p h1 h2 => hs p (Or.inr ⟨j, hr, h1, h2⟩)

theorem sectorsAre_sameUsed (hs : SameUsed content content' e h sat slots) {ids : List Nat} {secs : List Bytes}
    (hr : ∀ j ∈ ids, Referenced content e h sat slots j) (hi : SectorsAre content (2 ^ h.sectorExp) ids secs) :
    SectorsAre content' (2 ^ h.sectorExp) ids secs :=
  sectorsAre_same (fun j hj => sector_sameUsed hs (hr j hj)) hi

theorem layout_sameUsed (hs : SameUsed content content' e h sat slots) (hl : Layout content e h sat ssat slots) :
    Layout content' e h sat ssat slots :=
  layout_same hl (fun p hp => hs p (Or.inl hp)) (fun _ hj => sector_sameUsed hs (.msat hj))
    (fun _ h1 h2 => sector_sameUsed hs (.listed h1 h2)) (fun _ _ _ h1 h2 h3 h4 => sector_sameUsed hs (.further h1 h2 h3 h4))
    (fun _ _ hc j hj => sector_sameUsed hs (chain_referenced hc .ssat j hj))
    (fun _ _ hc j hj => sector_sameUsed hs (chain_referenced hc .directory j hj))

theorem siblings_mem {list : List DirEntry} {i : Nat} {es : List DirEntry} (hs : Siblings list i es) :
    ∀ d ∈ es, d ∈ list := by
  induction hs with
  | none => intro d hd; cases hd
  | node h1 _ _ _ ih1 ih2 =>
    intro d hd
    rcases List.mem_append.1 hd with hd | hd
    · exact ih1 d hd
    · rcases List.mem_cons.1 hd with rfl | hd
      · exact h1
      · exact ih2 d hd

theorem holds_sameUsed (hs : SameUsed content content' e h sat slots) {container : Bytes} {d : DirEntry} {doc : Doc}
    (hh : Holds content h sat ssat container (entriesOfSlots slots) d doc) (hd : d ∈ entriesOfSlots slots) :
    Holds content' h sat ssat container (entriesOfSlots slots) d doc := by
  induction hh with
  | stream h1 h2 h3 h4 h5 =>
    refine .stream h1 h2 h3 h4 fun hm => ?_
    obtain ⟨ids, last, secs, g1, g2, g3, g4⟩ := h5 hm
    exact ⟨ids, last, secs, g1, g2, sectorsAre_sameUsed hs (chain_referenced g1 (.start hd)) g3, g4⟩
  | storage h1 h2 h3 h4 _ ih =>
    exact .storage h1 h2 h3 h4 fun i c k hc hk => ih i c k hc hk (siblings_mem h2 c (List.mem_of_getElem? hc))

/-- A file determines its byte order and its tables. -/
theorem layout_unique {e' : Endian} {sat' ssat' : List Nat} {root : DirEntry}
    (hl : Layout content e h sat ssat slots) (hl' : Layout content e' h sat' ssat' slots)
    (hg : GoodLinks (entriesOfSlots slots) root) : e = e' ∧ sat = sat' ∧ ssat = ssat' := by
  have hc : ∀ d ∈ entriesOfSlots slots, NameComparable (fun _ _ => some false) d :=
    fun d _ => ⟨fun _ => nofun, fun _ => nofun⟩
  obtain ⟨l1, t1, m1, ho1, hs1, hss1, _⟩ := layout_opens hl hg _ hc .cleared
  obtain ⟨l2, t2, m2, ho2, hs2, hss2, _⟩ := layout_opens hl' hg _ hc .cleared
  have k1 := (openCore_ok_iff.2 ⟨_, _, _, _, ho1⟩).1
  have k2 := (openCore_ok_iff.2 ⟨_, _, _, _, ho2⟩).1
  rw [k1] at k2
  cases k2
  have hh := ho1.hheader.symm.trans ho2.hheader
  refine ⟨?_, ?_, ?_⟩
  · simp only [Res.ok.injEq, Prod.mk.injEq] at hh
    exact congrArg FileHeader.byteOrder hh.1
  · exact congrArg AllocTable.ids (hs1.symm.trans hs2)
  · exact congrArg AllocTable.ids (hss1.symm.trans hss2)

/-- C113: a file with the used bytes of a file that holds a document holds the same document. -/
theorem C113_same_document {doc : Doc} (hl : Layout content e h sat ssat slots) (hf : HeldBy content h slots doc)
    (hs : ∀ p, InUse content e h sat slots p → content'[p]? = content[p]?) : HeldBy content' h slots doc := by
  obtain ⟨e', sat', ssat', root, cids, clast, csecs, h1, h2, h3, h4, h5, h6⟩ := hf
  obtain ⟨rfl, rfl, rfl⟩ := layout_unique hl h1 h2
  have hroot := List.mem_of_find?_eq_some h2.hroot
  exact ⟨e, sat, ssat, root, cids, clast, csecs, layout_sameUsed hs h1, h2, h3, h4,
    sectorsAre_sameUsed hs (chain_referenced h4 (.start hroot)) h5, holds_sameUsed hs h6 hroot⟩

/-- C113, through the library: whatever the bytes are that are not in use (and however many follow), the file opens
  and shows the document. -/
theorem C113_unused_bytes {doc : Doc} (hl : Layout content e h sat ssat slots) (hf : HeldBy content h slots doc)
    (hs : ∀ p, InUse content e h sat slots p → content'[p]? = content[p]?)
    (cmp : Bytes → Bytes → Option Bool) (hcmp : ∀ n ∈ (entriesOfSlots slots).map (·.name), Comparable cmp n)
    (st : FileState) (hst : Reachable cmp st) (hclosed : st.file.handle = none)
    (hid : HandleId) (hdev : st.world.dev hid = Dev.ofBytes content') (flags : Nat) (hfl : flags % 4 = 1) :
    (openHandle cmp hid flags {} st).1 = .ok () ∧
    ∃ t f it, (openHandle cmp hid flags {} st).2.file.tree = some t ∧
      (openHandle cmp hid flags {} st).2.file.ctx
        ((openHandle cmp hid flags {} st).2.world.dev hid) = some f ∧
      rootItem (some t) = some it ∧ Shows t f it doc :=
  C47_document_shown ⟨h, slots, C113_same_document hl hf hs, rfl⟩ cmp hcmp st hst hclosed hid hdev flags hfl

theorem inFree_not_inUse (hfree : FreeUnused content e h sat slots) {p : Nat} (hp : InFree h sat p) :
    ¬ InUse content e h sat slots p := by
  obtain ⟨h512, i, hi, h1, h2⟩ := hp
  rintro (hu | ⟨j, hj, h3, h4⟩)
  · omega
  · have hne : j ≠ i := fun hji => hfree j hj (hji ▸ hi)
    have hpos := Nat.two_pow_pos h.sectorExp
    unfold sectorPos at h3 h4
    split at h4
    · have : 2 ^ h.sectorExp ≤ (i + 1) * 2 ^ h.sectorExp := Nat.le_mul_of_pos_left _ (Nat.succ_pos _)
      omega
    · rename_i hjm
      rw [if_neg hjm] at h3
      rcases Nat.lt_or_gt_of_ne hne with hlt | hlt
      · have := Nat.mul_le_mul_right (2 ^ h.sectorExp) (show j + 2 ≤ i + 1 by omega)
        rw [show (j + 1) * 2 ^ h.sectorExp + 2 ^ h.sectorExp = (j + 2) * 2 ^ h.sectorExp by
          rw [← Nat.succ_mul]] at h4
        omega
      · have := Nat.mul_le_mul_right (2 ^ h.sectorExp) (show i + 2 ≤ j + 1 by omega)
        omega

/-- C113, free sectors: if nothing refers to a sector that is marked as free, the free sectors can be overwritten
  with anything: the file opens and shows the same document. -/
theorem C113_free_sectors {doc : Doc} (hl : Layout content e h sat ssat slots) (hf : HeldBy content h slots doc)
    (hfree : FreeUnused content e h sat slots)
    (hs : ∀ p, ¬ InFree h sat p → content'[p]? = content[p]?)
    (cmp : Bytes → Bytes → Option Bool) (hcmp : ∀ n ∈ (entriesOfSlots slots).map (·.name), Comparable cmp n)
    (st : FileState) (hst : Reachable cmp st) (hclosed : st.file.handle = none)
    (hid : HandleId) (hdev : st.world.dev hid = Dev.ofBytes content') (flags : Nat) (hfl : flags % 4 = 1) :
    (openHandle cmp hid flags {} st).1 = .ok () ∧
    ∃ t f it, (openHandle cmp hid flags {} st).2.file.tree = some t ∧
      (openHandle cmp hid flags {} st).2.file.ctx
        ((openHandle cmp hid flags {} st).2.world.dev hid) = some f ∧
      rootItem (some t) = some it ∧ Shows t f it doc :=
  C113_unused_bytes hl hf (fun p hp => hs p fun hq => inFree_not_inUse hfree hq hp) cmp hcmp st hst hclosed hid hdev
    flags hfl

end

/-! ### The sample file with a free sector -/

/-- The sample file with a further sector, which its sector table marks as free. -/
def freeTail (b : UInt8) : Bytes := sampleFile .little ++ List.replicate 512 b

theorem sample_freeUnused (content : Bytes) : FreeUnused content .little sampleFileHeader sampleSat sampleSlots := by
  have key : ∀ j < 7, sampleSat[j]? ≠ some 0xffffffff := by decide +kernel
  have h7 : ∀ j ∈ sampleSat, j < sampleSat.length → j < 7 := by decide +kernel
  intro j hj
  have hon : ∀ i, ¬ OnMsat content .little (2 ^ sampleFileHeader.sectorExp) sampleFileHeader.msatSector i := by
    intro i hi
    cases hi with
    | here h => exact h rfl
    | next h _ _ => exact h rfl
  cases hj with
  | msat h => exact absurd h (hon _)
  | listed h1 h2 =>
    have : ∀ j ∈ sampleFileHeader.msat, j ≠ 0xffffffff → j < 7 := by decide +kernel
    exact key j (this j h1 h2)
  | further h _ _ _ => exact absurd h (hon _)
  | link h1 h2 => exact key j (h7 j h1 h2)
  | ssat h => exact key _ (by decide)
  | directory h => exact key _ (by decide)
  | start h1 h2 =>
    rw [sample_entries] at h1
    have : ∀ d ∈ [0, 1, 2, 3, 4].map sampleEntry, d.start < sampleSat.length → d.start < 7 := by decide +kernel
    exact key _ (this _ h1 h2)

theorem sample_length' : (sampleFile .little).length = 4096 := by
  unfold sampleFile
  rw [List.length_append, encodeHeader_length _ _ sampleFileHeader_fits,
    flatten_length (u := 512) (sampleSectors_length .little)]
  rfl

theorem freeTail_same (b c : UInt8) (p : Nat) (hp : ¬ InFree sampleFileHeader sampleSat p) :
    (freeTail c)[p]? = (freeTail b)[p]? := by
  unfold freeTail
  have hl := sample_length'
  by_cases h1 : p < 4096
  · rw [List.getElem?_append_left (by omega), List.getElem?_append_left (by omega)]
  · by_cases h2 : p < 4608
    · exact absurd ⟨by omega, 7, rfl, show (7 + 1) * 512 ≤ p by omega, show p < (7 + 2) * 512 by omega⟩ hp
    · rw [List.getElem?_eq_none (by rw [List.length_append, hl, List.length_replicate]; omega),
        List.getElem?_eq_none (by rw [List.length_append, hl, List.length_replicate]; omega)]

/-- The hypotheses of C113_free_sectors (and so those of C113_unused_bytes) are met: the free sector of the sample file
  is overwritten. -/
example (b c : UInt8) (cmp : Bytes → Bytes → Option Bool) (st : FileState) (hst : Reachable cmp st)
    (hclosed : st.file.handle = none) (hdev : st.world.dev (.user 1) = Dev.ofBytes (freeTail c)) :
    (openHandle cmp (.user 1) 1 {} st).1 = .ok () :=
  (C113_free_sectors (content := freeTail b) (layout_append _ (sample_layout .little))
    (heldBy_append _ (sampleFile_held .little)) (sample_freeUnused _) (freeTail_same b c) cmp
    (sample_comparable cmp) st hst hclosed (.user 1) hdev 1 rfl).1

/-! ### A file with data in a free sector -/

def usedSlots : List SlotFields :=
  [mkSlot [82, 0, 0, 0] 5 0xffffffff 0xffffffff 1 0xfffffffe 0,
   mkSlot [67, 0, 0, 0] 2 0xffffffff 0xffffffff 0xffffffff 2 512,
   mkSlot [] 0 0 0 0 0 0, mkSlot [] 0 0 0 0 0 0]

def usedHeader : HeaderFields := { sampleFileHeader with ssatSector := 0xfffffffe, ssatSectors := 0 }

/-- The sector of the stream, sector 2, is marked as free. -/
def usedSat : List Nat := [0xfffffffd, 0xfffffffe] ++ List.replicate 126 0xffffffff

def usedSectors (b : UInt8) : List Bytes :=
  [enc32s .little usedSat, (usedSlots.map (encodeSlot .little)).flatten, List.replicate 512 b]

/-- A file with one stream of 512 bytes `b`, in a sector that the sector table marks as free. -/
def usedFile (b : UInt8) : Bytes := encodeHeader .little usedHeader ++ (usedSectors b).flatten

def usedDoc (b : UInt8) : Doc := .storage [([67, 0, 0, 0], .stream (List.replicate 512 b))]

theorem usedHeader_fits : usedHeader.Fits :=
  { sampleFileHeader_fits with ssatSector := by decide, ssatSectors := by decide }

theorem usedSlots_fit : ∀ s ∈ usedSlots, s.Fits := by
  intro s hs
  simp only [usedSlots, List.mem_cons, List.not_mem_nil, or_false] at hs
  rcases hs with rfl | rfl | rfl | rfl <;>
    exact mkSlot_fits (by decide) (by decide) (by decide) (by decide) (by decide) (by decide) (by decide)

theorem usedSectors_length (b : UInt8) : ∀ s ∈ usedSectors b, s.length = 512 := by
  intro s hs
  simp only [usedSectors, List.mem_cons, List.not_mem_nil, or_false] at hs
  rcases hs with rfl | rfl | rfl
  · rw [enc32s_length]; decide +kernel
  · rw [flatten_length (u := 128), List.length_map]
    · rfl
    · intro x hx
      obtain ⟨f, hf, rfl⟩ := List.mem_map.1 hx
      exact encodeSlot_length (usedSlots_fit f hf)
  · exact List.length_replicate

theorem used_sector {b : UInt8} {i : Nat} {s : Bytes} (hi : (usedSectors b)[i]? = some s) :
    sector (Dev.ofBytes (usedFile b)) 512 i = some s := by
  refine sector_of_blocks (encodeHeader_length .little _ usedHeader_fits) (usedSectors_length b) hi ?_
  have h3 : (usedSectors b).length = 3 := rfl
  have := (List.getElem?_eq_some_iff.1 hi).1
  omega

theorem used_layout (b : UInt8) : Layout (usedFile b) .little usedHeader usedSat [] usedSlots where
  fits := usedHeader_fits
  sectorSize := by decide
  header := List.prefix_append _ _
  msatLimit := by decide
  satLimit := by decide
  ssatLimit := by decide
  hsat := by
    refine ⟨usedHeader.msat, [enc32s .little usedSat], ⟨[], .done, rfl, by simp⟩, ?_, rfl, ?_⟩
    · have : usedHeader.msat.filter (· ≠ 0xffffffff) = [0] := by decide
      rw [this]
      simp only [SectorsAre, List.map_cons, List.map_nil]
      rw [show 2 ^ usedHeader.sectorExp = 512 from rfl, used_sector (i := 0) rfl]
    · rw [List.flatMap_singleton, words_enc32s .little usedSat (by decide +kernel)]
  hssat := ⟨[], [], .nil _, rfl, rfl, rfl⟩
  directory := by
    refine ⟨[1], [(usedSlots.map (encodeSlot .little)).flatten], .cons rfl (.nil _), by simp, by simp, ?_, ?_⟩
    · simp only [SectorsAre, List.map_cons, List.map_nil]
      rw [show 2 ^ usedHeader.sectorExp = 512 from rfl, used_sector (i := 1) rfl]
    · rw [List.flatten_cons, List.flatten_nil, List.append_nil]
  hslots := usedSlots_fit

def usedEntry (i : Nat) : DirEntry := (usedSlots.getD i (mkSlot [] 0 0 0 0 0 0)).entry i

theorem used_entries : entriesOfSlots usedSlots = [0, 1].map usedEntry := by rfl

theorem used_links : GoodLinks (entriesOfSlots usedSlots) (usedEntry 0) := by
  rw [used_entries]
  constructor
  · decide
  · rfl
  · decide
  · rfl
  · rfl
  · have : ∀ d ∈ [0, 1].map usedEntry, ∀ k ∈ [Link.sub, .prev, .next], linkId d k ≠ 0 := by
      decide
    exact fun d hd k => this d hd k (by cases k <;> decide)
  · have : ∀ d ∈ [0, 1].map usedEntry, ∀ k ∈ [Link.sub, .prev, .next],
        linkId d k ≠ 0xffffffff → ∃ c ∈ [0, 1].map usedEntry, c.id = linkId d k := by
      decide
    exact fun d hd k => this d hd k (by cases k <;> decide)
  · have : ∀ a ∈ [0, 1].map usedEntry, ∀ b ∈ [0, 1].map usedEntry,
        ∀ k ∈ [Link.sub, .prev, .next], ∀ l ∈ [Link.sub, .prev, .next], linkId a k = linkId b l →
        linkId a k ≠ 0xffffffff → a = b ∧ k = l := by
      decide
    exact fun a ha b hb k l => this a ha b hb k (by cases k <;> decide) l (by cases l <;> decide)

theorem used_held (b : UInt8) : HeldBy (usedFile b) usedHeader usedSlots (usedDoc b) := by
  refine ⟨.little, usedSat, [], usedEntry 0, [], 0xfffffffe, [], used_layout b, used_links, by decide, .nil _, rfl, ?_⟩
  have hmem : usedEntry 1 ∈ entriesOfSlots usedSlots := by
    rw [used_entries]
    exact List.mem_map_of_mem (by decide)
  refine .storage (es := [] ++ usedEntry 1 :: []) (Or.inr rfl) (.node hmem (by decide) .none .none) rfl ?_ ?_
  · intro i c k hc hk
    match i with
    | 0 => cases hc; cases hk; rfl
    | _ + 1 => cases hc
  · intro i c k hc hk
    match i with
    | 0 =>
      cases hc; cases hk
      refine .stream rfl rfl List.length_replicate.symm (fun h => absurd h (by decide)) (fun _ => ?_)
      refine ⟨[2], 0xffffffff, [List.replicate 512 b], .cons rfl (.nil _), by decide, ?_, ?_⟩
      · simp only [SectorsAre, List.map_cons, List.map_nil]
        rw [show 2 ^ usedHeader.sectorExp = 512 from rfl, used_sector (i := 2) rfl]
      · rw [List.flatten_cons, List.flatten_nil, List.append_nil]
        exact List.prefix_refl _
    | _ + 1 => cases hc

theorem used_same (b c : UInt8) (p : Nat) (hp : ¬ InFree usedHeader usedSat p) :
    (usedFile c)[p]? = (usedFile b)[p]? := by
  have key : ∃ x : Bytes, x.length = 1536 ∧ ∀ b : UInt8, usedFile b = x ++ List.replicate 512 b := by
    refine ⟨encodeHeader .little usedHeader ++ (enc32s .little usedSat ++
      (usedSlots.map (encodeSlot .little)).flatten), ?_, fun b => ?_⟩
    · rw [List.length_append, List.length_append, encodeHeader_length _ _ usedHeader_fits,
        usedSectors_length b (enc32s .little usedSat) (List.mem_cons_self ..),
        usedSectors_length b ((usedSlots.map (encodeSlot .little)).flatten)
          (List.mem_cons_of_mem _ (List.mem_cons_self ..))]
    · unfold usedFile usedSectors
      simp only [List.flatten_cons, List.flatten_nil, List.append_nil, List.append_assoc]
  obtain ⟨x, hx, hu⟩ := key
  rw [hu b, hu c]
  by_cases h1 : p < 1536
  · rw [List.getElem?_append_left (by omega), List.getElem?_append_left (by omega)]
  · by_cases h2 : p < 2048
    · exact absurd ⟨by omega, 2, rfl, show (2 + 1) * 512 ≤ p by omega, show p < (2 + 2) * 512 by omega⟩ hp
    · rw [List.getElem?_eq_none (by rw [List.length_append, hx, List.length_replicate]; omega),
        List.getElem?_eq_none (by rw [List.length_append, hx, List.length_replicate]; omega)]

/-- C113 without the hypothesis that nothing refers to a free sector does not hold, and the library does not notice:
  there are two files with the same sector table that differ in nothing but sectors that this table marks as free;
  both open, and they show documents that differ. -/
theorem C113_free_sectors_violated : ∃ (content content' : Bytes) (h : HeaderFields) (sat ssat : List Nat)
    (slots : List SlotFields) (doc doc' : Doc),
    Layout content .little h sat ssat slots ∧ Layout content' .little h sat ssat slots ∧
    (∀ p, ¬ InFree h sat p → content'[p]? = content[p]?) ∧ doc ≠ doc' ∧
    ∀ (cmp : Bytes → Bytes → Option Bool) (st : FileState), Reachable cmp st → st.file.handle = none →
    ∀ hid flags, flags % 4 = 1 → ∀ c d, (c = content ∧ d = doc ∨ c = content' ∧ d = doc') →
    st.world.dev hid = Dev.ofBytes c →
    (openHandle cmp hid flags {} st).1 = .ok () ∧
    ∃ t f it, (openHandle cmp hid flags {} st).2.file.tree = some t ∧
      (openHandle cmp hid flags {} st).2.file.ctx
        ((openHandle cmp hid flags {} st).2.world.dev hid) = some f ∧
      rootItem (some t) = some it ∧ Shows t f it d := by
  refine ⟨usedFile 7, usedFile 8, usedHeader, usedSat, [], usedSlots, usedDoc 7, usedDoc 8, used_layout 7,
    used_layout 8, used_same 7 8, ?_, ?_⟩
  · intro h
    simp only [usedDoc, Doc.storage.injEq, List.cons.injEq, Prod.mk.injEq, Doc.stream.injEq, and_true, true_and] at h
    exact absurd (congrArg List.head? h) (by decide)
  · intro cmp st hst hclosed hid flags hfl c d hcd hdev
    have hcmp : ∀ n ∈ (entriesOfSlots usedSlots).map (·.name), Comparable cmp n := by
      have : ∀ n ∈ (entriesOfSlots usedSlots).map (·.name), n.length = 4 := by decide +kernel
      exact fun n hn => ⟨fun h => by rw [this n hn] at h; omega, fun h => by rw [this n hn] at h; omega⟩
    rcases hcd with ⟨rfl, rfl⟩ | ⟨rfl, rfl⟩
    · exact C47_document_shown ⟨_, _, used_held 7, rfl⟩ cmp hcmp st hst hclosed hid hdev flags hfl
    · exact C47_document_shown ⟨_, _, used_held 8, rfl⟩ cmp hcmp st hst hclosed hid hdev flags hfl

end Olecf.Props
