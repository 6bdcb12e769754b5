import Verif.Lemmas.Encode

/-
  The file that the writer makes holds the document.
-/

namespace Olecf.Props
open Olecf.Spec

/-- The sizes. -/
structure Sizes (w : Writer) : Prop where
  ss4 : w.ss = 4 * w.perSector
  ss128 : w.ss = 128 * w.slotsPerSector
  per : 128 ≤ w.perSector ∧ w.perSector ≤ 8192
  slots : 0 < w.slotsPerSector ∧ w.slotsPerSector ≤ 256
  short : 0 < w.short

theorem sizes {w : Writer} (h : 9 ≤ w.sectorExp ∧ w.sectorExp ≤ 15) : Sizes w := by
  obtain ⟨k, hk⟩ : ∃ k, w.sectorExp = k + 9 := ⟨w.sectorExp - 9, by omega⟩
  have h1 : 2 ^ k ≤ 2 ^ 6 := Nat.pow_le_pow_right (by decide) (by omega)
  have h0 : 0 < 2 ^ k := Nat.two_pow_pos k
  have hs : w.ss = 2 ^ k * 512 := by unfold Writer.ss; rw [hk, Nat.pow_add]
  have hp : w.perSector = 2 ^ k * 128 := by
    unfold Writer.perSector; rw [hk, show k + 9 - 2 = k + 7 by omega, Nat.pow_add]
  have hd : w.slotsPerSector = 2 ^ k * 4 := by
    unfold Writer.slotsPerSector; rw [hk, show k + 9 - 7 = k + 2 by omega, Nat.pow_add]
  refine ⟨by omega, by omega, by omega, by omega, Nat.two_pow_pos _⟩

section file
variable {w : Writer} {kids : List (Bytes × Doc)} (hst : Storable w kids)
include hst

theorem slotsOfFile_length : (slotsOfFile w kids).length = dirCount w kids * w.slotsPerSector := by
  have hz := sizes hst.sectorExp
  unfold slotsOfFile
  rw [padUp_length hz.slots.1, List.length_cons, slotsOfKids_length, dirCount, Nat.add_comm]

theorem dirSectorsOf_length : (dirSectorsOf w kids).length = dirCount w kids := by
  have hz := sizes hst.sectorExp
  unfold dirSectorsOf
  rw [List.length_map, chunk_length hz.slots.1 (slotsOfFile_length hst)]

theorem ssatOf_length : (ssatOf w kids).length = (ssatSectorsOf w kids).length * w.perSector := by
  have hz := sizes hst.sectorExp
  have hp : 0 < w.perSector := by have := hz.per; omega
  have h1 : (ssatOf w kids).length = _ := padUp_length hp _ _
  unfold ssatSectorsOf
  rw [List.length_map, chunk_length hp h1, h1]

theorem shortUnits_le : w.shortUnits (streamsOfKids kids) ≤ 257 * w.perSector := by
  have h1 := ssatOf_length hst
  have h2 : (ssatSectorsOf w kids).length * w.perSector ≤ 257 * w.perSector :=
    Nat.mul_le_mul_right _ hst.ssat
  have h3 : w.shortUnits (streamsOfKids kids) ≤ (ssatOf w kids).length := by
    unfold ssatOf padUp
    rw [List.length_append, links_length, Writer.shortUnits]
    omega
  omega

theorem runCount_eq : runCount w kids = longBase w kids + w.longUnits (streamsOfKids kids) := by
  have hz := sizes hst.sectorExp
  have hs : 0 < w.ss := by have := hz.per; have := hz.ss4; omega
  unfold runCount runs longBase containerBase ssatBase
  rw [List.map_cons, List.map_cons, List.map_cons, List.sum_cons, List.sum_cons, List.sum_cons,
    dirSectorsOf_length hst, Writer.longUnits, List.map_map]
  have : (List.length ∘ blocks w.ss) = fun d => units w.ss d.length := by
    funext d; exact blocks_length hs d
  rw [this]
  omega

/-- The numbers of sectors. -/
theorem counts : runCount w kids + satCount w kids + msatCount w kids ≤ satCount w kids * w.perSector ∧
    satCount w kids * w.perSector ≤ 2 ^ 25 := by
  have hz := sizes hst.sectorExp
  have hper := hz.per
  have h1 : runCount w kids ≤ satCount w kids * (w.perSector - 2) :=
    units_mul_le (by omega) _
  have h2 : msatCount w kids ≤ satCount w kids := by
    refine units_le (by omega) ?_
    have : satCount w kids * 1 ≤ satCount w kids * (w.perSector - 1) := Nat.mul_le_mul_left _ (by omega)
    omega
  have h3 : satCount w kids * (w.perSector - 2) + satCount w kids * 2 = satCount w kids * w.perSector := by
    rw [← Nat.mul_add]; congr 1; omega
  have h4 := hst.sat
  rw [hz.ss4, Nat.mul_left_comm] at h4
  omega

theorem runCount_lt : runCount w kids + satCount w kids + msatCount w kids ≤ 2 ^ 25 := by
  have := counts hst
  omega

theorem countKids_lt : 1 + countKids kids ≤ 1025 * 256 := by
  have hz := sizes hst.sectorExp
  have h1 : 1 + countKids kids ≤ dirCount w kids * w.slotsPerSector := units_mul_le hz.slots.1 _
  have h2 : dirCount w kids * w.slotsPerSector ≤ 1025 * 256 := Nat.mul_le_mul hst.directory hz.slots.2
  omega

omit hst in
theorem rootName_length (e : Endian) : (rootName e).length = 22 := by cases e <;> rfl

omit hst in
theorem rootName_comparable (cmp : Bytes → Bytes → Option Bool) (e : Endian) :
    Comparable cmp (rootName e) :=
  ⟨fun h => absurd ((rootName_length e).symm.trans h) (by decide),
    fun h => absurd ((rootName_length e).symm.trans h) (by decide)⟩

omit hst in
theorem plainMarks_fits : ({} : EntryMarks).Fits := by
  constructor <;> simp

omit hst in
theorem noMarks_fits : ({} : Marks).Fits := by
  constructor <;> first | exact fun _ => plainMarks_fits | simp

theorem slots_fit_used : ∀ f ∈ rootSlot w kids :: slotsOfKids w (longBase w kids) 0 1 kids,
    f.Fits ∧ f.type ≠ 0 := by
  have hc := countKids_lt hst
  have hr := runCount_eq hst
  have hr2 := runCount_lt hst
  have hs := shortUnits_le hst
  have hz := sizes hst.sectorExp
  intro f hf
  rcases List.mem_cons.1 hf with rfl | hf
  · refine ⟨plainSlot_fits (hst.marks.entry 0) (by rw [rootName_length]; decide) (by decide) (by decide) (by decide) ?_ hst.container,
      by simp [rootSlot, plainSlot]⟩
    refine startOf_lt ?_
    unfold longBase at hr
    omega
  · exact slotsOfKids_fits w hst.marks.entry kids hst.names hst.streams _ _ _ (by omega) (by omega)
      (by have := hz.per; omega) f hf

theorem slots_fit : ∀ f ∈ slotsOfFile w kids, f.Fits := by
  intro f hf
  unfold slotsOfFile padUp at hf
  rcases List.mem_append.1 hf with hf | hf
  · exact (slots_fit_used hst f hf).1
  · rw [(List.mem_replicate.1 hf).2]
    exact plainSlot_fits plainMarks_fits (by decide) (by decide) (by decide) (by decide) (by decide) (by decide)

theorem headerOfFile_fits : (headerOfFile w kids).Fits := by
  have hc := counts hst
  have hr := runCount_eq hst
  unfold longBase containerBase at hr
  have h1 := hst.msat
  have h2 := hst.ssat
  have hz := sizes hst.sectorExp
  have hn : satCount w kids < 2 ^ 32 := by omega
  constructor
  · exact hst.marks.classId
  · exact hst.marks.minor
  · exact hst.marks.major
  · exact hst.sectorExp.2
  · exact Nat.le_trans hst.shortExp hst.sectorExp.2
  · exact hst.marks.reserved
  · exact hn
  · show 0 < 2 ^ 32; decide
  · exact hst.marks.transaction
  · exact hst.cutoff
  · exact startOf_lt (by omega)
  · exact Nat.lt_of_le_of_lt h2 (by decide)
  · exact startOf_lt (by unfold msatBase; omega)
  · exact Nat.lt_of_le_of_lt h1 (by decide)
  · show (headerMsatOf w kids).length = 109
    unfold headerMsatOf satIds
    simp only [List.length_append, List.length_take, List.length_range', List.length_replicate]
    omega
  · intro v hv
    change v ∈ headerMsatOf w kids at hv
    unfold headerMsatOf satIds at hv
    rcases List.mem_append.1 hv with hv | hv
    · have := List.mem_range'_1.1 (List.mem_of_mem_take hv)
      omega
    · rw [(List.mem_replicate.1 hv).2]; decide

theorem satOf_length : (satOf w kids).length = satCount w kids * w.perSector := by
  have hc := counts hst
  unfold satOf
  simp only [List.length_append, List.length_replicate, links_length]
  rw [← runCount]
  omega

theorem satOf_lt : ∀ v ∈ satOf w kids, v < 2 ^ 32 := by
  have hr := runCount_lt hst
  intro v hv
  unfold satOf at hv
  simp only [List.mem_append, List.mem_replicate] at hv
  rcases hv with ((hv | hv) | hv) | hv
  · refine links_lt _ 0 ?_ v hv
    rw [← runCount]; omega
  · rw [hv.2]; decide
  · rw [hv.2]; decide
  · rw [hv.2]; decide

theorem ssatOf_lt : ∀ v ∈ ssatOf w kids, v < 2 ^ 32 := by
  have hs := shortUnits_le hst
  have hz := (sizes hst.sectorExp).per
  intro v hv
  unfold ssatOf padUp at hv
  rcases List.mem_append.1 hv with hv | hv
  · refine links_lt _ 0 ?_ v hv
    rw [← Writer.shortUnits]; omega
  · rw [(List.mem_replicate.1 hv).2]; decide

theorem msatChunks_length :
    (chunk (w.perSector - 1) (padUp (w.perSector - 1) free ((satIds w kids).drop 109))).length =
      msatCount w kids := by
  have hz := (sizes hst.sectorExp).per
  have hp : 0 < w.perSector - 1 := by omega
  rw [chunk_length hp (padUp_length hp _ _)]
  unfold msatCount satIds
  simp

theorem msatSectorsOf_length : (msatSectorsOf w kids).length = msatCount w kids := by
  unfold msatSectorsOf
  rw [List.length_mapIdx, msatChunks_length hst]

theorem satSectorsOf_length : (satSectorsOf w kids).length = satCount w kids := by
  have hz := (sizes hst.sectorExp).per
  unfold satSectorsOf
  rw [List.length_map, chunk_length (by omega) (satOf_length hst)]

/-- All the sectors have the same size. -/
theorem sectors_length : ∀ s ∈ (runs w kids).flatten ++ satSectorsOf w kids ++ msatSectorsOf w kids,
    s.length = w.ss := by
  have hz := sizes hst.sectorExp
  have hper := hz.per
  have hp : 0 < w.perSector := by omega
  have hs : 0 < w.ss := by have := hz.ss4; omega
  intro s hs'
  rcases List.mem_append.1 hs' with hs' | hs'
  · rcases List.mem_append.1 hs' with hs' | hs'
    · obtain ⟨r, hr, hsr⟩ := List.mem_flatten.1 hs'
      unfold runs at hr
      simp only [List.mem_cons, List.mem_map] at hr
      rcases hr with rfl | rfl | rfl | ⟨d, _, rfl⟩
      · unfold dirSectorsOf at hsr
        obtain ⟨c, hc, rfl⟩ := List.mem_map.1 hsr
        have hcl := chunk_mem_length hz.slots.1 (slotsOfFile_length hst) c hc
        rw [flatten_length (u := 128), List.length_map, hcl, hz.ss128, Nat.mul_comm]
        intro x hx
        obtain ⟨f, hf, rfl⟩ := List.mem_map.1 hx
        refine encodeSlot_length (slots_fit hst f ?_)
        rw [← chunk_flatten hz.slots.1 (slotsOfFile_length hst)]
        exact List.mem_flatten.2 ⟨c, hc, hf⟩
      · unfold ssatSectorsOf at hsr
        obtain ⟨c, hc, rfl⟩ := List.mem_map.1 hsr
        rw [enc32s_length, chunk_mem_length hp (ssatOf_length hst) c hc, hz.ss4]
      · exact blocks_mem_length hs _ s hsr
      · exact blocks_mem_length hs _ s hsr
    · unfold satSectorsOf at hs'
      obtain ⟨c, hc, rfl⟩ := List.mem_map.1 hs'
      rw [enc32s_length, chunk_mem_length hp (satOf_length hst) c hc, hz.ss4]
  · unfold msatSectorsOf at hs'
    obtain ⟨j, hj, rfl⟩ := List.mem_mapIdx.1 hs'
    rw [enc32s_length, List.length_append, List.length_singleton,
      chunk_mem_length (by omega) (padUp_length (by omega) _ _) _ (List.getElem_mem _), hz.ss4]
    omega

theorem encodeFile_sector (i : Nat) (x : Bytes)
    (hx : ((runs w kids).flatten ++ satSectorsOf w kids ++ msatSectorsOf w kids)[i]? = some x) :
    sector (Dev.ofBytes (encodeFile w kids)) w.ss i = some x := by
  have hz := sizes hst.sectorExp
  refine sector_of_blocks ?_ (sectors_length hst) hx ?_
  · rw [List.length_append, encodeHeader_length _ _ (headerOfFile_fits hst), List.length_replicate]
    have := hz.per; have := hz.ss4
    omega
  · have h1 := (List.getElem?_eq_some_iff.1 hx).1
    have h2 := runCount_lt hst
    rw [List.length_append, List.length_append, msatSectorsOf_length hst, satSectorsOf_length hst,
      List.length_flatten, ← runCount] at h1
    omega

theorem run_of_file {pre post : List (List Bytes)} {s : List Bytes} (hr : runs w kids = pre ++ s :: post) :
    Chain (satOf w kids) (startOf (pre.map List.length).sum s.length)
      (List.range' (pre.map List.length).sum s.length) endOfChain ∧
    SectorsAre (encodeFile w kids) w.ss (List.range' (pre.map List.length).sum s.length) s := by
  refine run_spec (encodeFile_sector hst) (restSecs := satSectorsOf w kids ++ msatSectorsOf w kids)
    (restSat := ?_) (by simp only [List.append_assoc]) ?_ hr
  · exact List.replicate (satCount w kids) satMark ++ List.replicate (msatCount w kids) msatMark ++
      List.replicate (satCount w kids * w.perSector -
        (links 0 ((runs w kids).map List.length) ++
          List.replicate (satCount w kids) satMark ++ List.replicate (msatCount w kids) msatMark).length) free
  · unfold satOf
    simp only [List.append_assoc]

theorem words_chunks {t : List Nat} {n : Nat} (ht : t.length = n * w.perSector)
    (hlt : ∀ v ∈ t, v < 2 ^ 32) :
    t = ((chunk w.perSector t).map (enc32s w.order)).flatMap (words w.order) := by
  have hz := (sizes hst.sectorExp).per
  have hp : 0 < w.perSector := by omega
  have h1 : ((chunk w.perSector t).map (enc32s w.order)).map (words w.order) = chunk w.perSector t := by
    rw [List.map_map]
    conv => rhs; rw [← List.map_id (chunk w.perSector t)]
    refine List.map_congr_left fun c hc => ?_
    refine words_enc32s _ _ fun v hv => hlt v ?_
    rw [← chunk_flatten hp ht]
    exact List.mem_flatten.2 ⟨c, hc, hv⟩
  rw [List.flatMap_def, h1, chunk_flatten hp ht]

/-- The chain of master table sectors. -/
theorem msat_of_file : MsatSectors (Dev.ofBytes (encodeFile w kids)) w.order w.ss
      (startOf (msatBase w kids) (msatCount w kids)) (msatSectorsOf w kids) ∧
    (msatSectorsOf w kids).flatMap (msatEntries w.order) =
      padUp (w.perSector - 1) free ((satIds w kids).drop 109) := by
  have hz := (sizes hst.sectorExp).per
  have hp : 0 < w.perSector - 1 := by omega
  have hr := runCount_lt hst
  have hlen := msatChunks_length hst
  have hml := msatSectorsOf_length hst
  have hbase : (satIds w kids).drop 109 ⊆ satIds w kids := List.drop_subset _ _
  have hcl := padUp_length hp free ((satIds w kids).drop 109)
  have hvals : ∀ c ∈ chunk (w.perSector - 1) (padUp (w.perSector - 1) free ((satIds w kids).drop 109)),
      ∀ v ∈ c, v < 2 ^ 32 := by
    intro c hc v hv
    have h1 : v ∈ padUp (w.perSector - 1) free ((satIds w kids).drop 109) := by
      rw [← chunk_flatten hp hcl]
      exact List.mem_flatten.2 ⟨c, hc, hv⟩
    unfold padUp at h1
    rcases List.mem_append.1 h1 with h1 | h1
    · have := List.mem_range'_1.1 (hbase h1)
      omega
    · rw [(List.mem_replicate.1 h1).2]; decide
  have hget : ∀ (j : Nat) (s : Bytes), (msatSectorsOf w kids)[j]? = some s → ∃ c,
      (chunk (w.perSector - 1) (padUp (w.perSector - 1) free ((satIds w kids).drop 109)))[j]? = some c ∧
      words w.order s = c ++ [if j + 1 = msatCount w kids then endOfChain else msatBase w kids + j + 1] := by
    intro j s hj
    unfold msatSectorsOf at hj
    rw [List.getElem?_mapIdx] at hj
    obtain ⟨c, hc, rfl⟩ := Option.map_eq_some_iff.1 hj
    refine ⟨c, hc, words_enc32s _ _ ?_⟩
    intro v hv
    rcases List.mem_append.1 hv with hv | hv
    · exact hvals c (List.mem_of_getElem? hc) v hv
    · rw [List.mem_singleton.1 hv]
      have := (List.getElem?_eq_some_iff.1 hc).1
      unfold msatBase
      split
      · decide
      · omega
  constructor
  · have key : ∀ n j, j + n = msatCount w kids →
        MsatSectors (Dev.ofBytes (encodeFile w kids)) w.order w.ss
          (if n = 0 then endOfChain else msatBase w kids + j) ((msatSectorsOf w kids).drop j) := by
      intro n
      induction n with
      | zero =>
        intro j hj
        rw [List.drop_eq_nil_of_le (by omega), if_pos rfl]
        exact .done
      | succ n ih =>
        intro j hj
        have hjl : j < (msatSectorsOf w kids).length := by omega
        rw [List.drop_eq_getElem_cons hjl, if_neg (by omega)]
        obtain ⟨c, hc, hw⟩ := hget j _ (List.getElem?_eq_getElem hjl)
        refine .step ?_ ?_ ?_
        · unfold msatBase; omega
        · refine encodeFile_sector hst _ _ ?_
          have : ((runs w kids).flatten ++ satSectorsOf w kids).length = msatBase w kids := by
            rw [List.length_append, satSectorsOf_length hst, List.length_flatten, ← runCount, msatBase]
          rw [List.getElem?_append_right (by omega), this, Nat.add_sub_cancel_left,
            List.getElem?_eq_getElem hjl]
        · unfold msatLink
          rw [hw, List.getLastD_concat]
          have := ih (j + 1) (by omega)
          by_cases hn : n = 0
          · rw [if_pos (by omega)]
            rw [if_pos hn] at this
            exact this
          · rw [if_neg (by omega)]
            rw [if_neg hn] at this
            exact this
    have := key (msatCount w kids) 0 (by omega)
    simpa [startOf] using this
  · have h1 : (msatSectorsOf w kids).map (msatEntries w.order) =
        chunk (w.perSector - 1) (padUp (w.perSector - 1) free ((satIds w kids).drop 109)) := by
      apply List.ext_getElem
      · rw [List.length_map, hml, hlen]
      · intro j h1 h2
        rw [List.length_map] at h1
        rw [List.getElem_map]
        obtain ⟨c, hc, hw⟩ := hget j _ (List.getElem?_eq_getElem h1)
        unfold msatEntries
        rw [hw, List.dropLast_concat]
        exact ((List.getElem?_eq_some_iff.1 hc).2).symm
    rw [List.flatMap_def, h1, chunk_flatten hp hcl]

theorem encodeFile_layout :
    Layout (encodeFile w kids) w.order (headerOfFile w kids) (satOf w kids) (ssatOf w kids)
      (slotsOfFile w kids) where
  fits := headerOfFile_fits hst
  sectorSize := Nat.le_trans (by decide) hst.sectorExp.1
  header := by
    unfold encodeFile
    rw [List.append_assoc]
    exact List.prefix_append _ _
  msatLimit := hst.msat
  satLimit := hst.sat
  ssatLimit := hst.ssat
  hsat := by
    obtain ⟨h1, h2⟩ := msat_of_file hst
    have hr := runCount_lt hst
    refine ⟨_, satSectorsOf w kids, ⟨msatSectorsOf w kids, h1, msatSectorsOf_length hst, rfl⟩, ?_,
      satSectorsOf_length hst, words_chunks hst (satOf_length hst) (satOf_lt hst)⟩
    have hids : ((headerMsatOf w kids) ++ padUp (w.perSector - 1) free ((satIds w kids).drop 109)).filter
        (· ≠ 0xffffffff) = List.range' (runCount w kids) (satCount w kids) := by
      have hall : ∀ v ∈ satIds w kids, decide (v ≠ 0xffffffff) = true := by
        intro v hv
        have := List.mem_range'_1.1 hv
        refine decide_eq_true ?_
        omega
      have hrep : ∀ n, (List.replicate n free).filter (· ≠ 0xffffffff) = [] := by
        intro n
        rw [List.filter_eq_nil_iff]
        intro a ha
        rw [(List.mem_replicate.1 ha).2]
        decide
      unfold headerMsatOf padUp
      rw [List.filter_append, List.filter_append, List.filter_append, hrep, hrep, List.append_nil,
        List.append_nil, List.filter_eq_self.2 (fun v hv => hall v (List.mem_of_mem_take hv)),
        List.filter_eq_self.2 (fun v hv => hall v (List.mem_of_mem_drop hv)), List.take_append_drop]
      rfl
    rw [h2]
    show SectorsAre _ w.ss (List.filter _ (headerMsatOf w kids ++ _)) _
    rw [hids]
    have hfl : runCount w kids = (runs w kids).flatten.length := by rw [List.length_flatten]; rfl
    rw [hfl, ← satSectorsOf_length hst]
    exact run_sectors (encodeFile_sector hst) rfl
  hssat := by
    obtain ⟨h1, h2⟩ := run_of_file hst (pre := [dirSectorsOf w kids]) (s := ssatSectorsOf w kids) rfl
    have hb : (List.map List.length [dirSectorsOf w kids]).sum = ssatBase w kids := by
      simp [dirSectorsOf_length hst, ssatBase]
    rw [hb] at h1 h2
    exact ⟨_, _, h1, h2, rfl, words_chunks hst (ssatOf_length hst) (ssatOf_lt hst)⟩
  directory := by
    obtain ⟨h1, h2⟩ := run_of_file hst (pre := []) (s := dirSectorsOf w kids) rfl
    have hz := (sizes hst.sectorExp).slots
    have hpos : (dirSectorsOf w kids).length ≠ 0 := by
      rw [dirSectorsOf_length hst]
      intro h
      have := (units_eq_zero hz.1).1 h
      omega
    rw [startOf, if_neg hpos] at h1
    refine ⟨_, _, h1, ?_, ?_, h2, ?_⟩
    · intro h
      exact hpos (by simpa using congrArg List.length h)
    · rw [List.length_range', dirSectorsOf_length hst]
      exact hst.directory
    · unfold dirSectorsOf
      conv => rhs; rw [← chunk_flatten hz.1 (slotsOfFile_length hst)]
      rw [List.map_flatten, List.flatten_flatten, List.map_map]
      rfl
  hslots := slots_fit hst

/-- The long streams. -/
theorem encodeFile_long (pre : List Bytes) (d : Bytes) (post : List Bytes)
    (h : w.longs (streamsOfKids kids) = pre ++ d :: post) :
    LongData (encodeFile w kids) w.ss (satOf w kids)
      (startOf (longBase w kids + (pre.map fun x => units w.ss x.length).sum) (units w.ss d.length)) d := by
  have hz := sizes hst.sectorExp
  have hs : 0 < w.ss := by have := hz.ss4; have := hz.per; omega
  obtain ⟨h1, h2⟩ := run_of_file hst (pre := dirSectorsOf w kids :: ssatSectorsOf w kids ::
      containerSectors w kids :: pre.map (blocks w.ss)) (s := blocks w.ss d) (post := post.map (blocks w.ss))
    (by rw [runs, h]; simp)
  have hb : (List.map List.length (dirSectorsOf w kids :: ssatSectorsOf w kids ::
      containerSectors w kids :: pre.map (blocks w.ss))).sum =
      longBase w kids + (pre.map fun x => units w.ss x.length).sum := by
    rw [List.map_cons, List.map_cons, List.map_cons, List.sum_cons, List.sum_cons, List.sum_cons,
      dirSectorsOf_length hst, List.map_map,
      show (List.length ∘ blocks w.ss) = fun d => units w.ss d.length from funext (blocks_length hs)]
    unfold longBase containerBase ssatBase
    omega
  rw [hb, blocks_length hs] at h1
  rw [hb] at h2
  rw [blocks_length hs] at h2
  exact ⟨_, _, _, h1, List.nodup_range' .., h2, blocks_flatten hs d⟩

/-- The short streams. -/
theorem encodeFile_short (pre : List Bytes) (d : Bytes) (post : List Bytes)
    (h : w.shorts (streamsOfKids kids) = pre ++ d :: post) :
    ShortData (containerSectors w kids).flatten w.short (ssatOf w kids)
      (startOf ((pre.map fun x => units w.short x.length).sum) (units w.short d.length)) d := by
  have hz := sizes hst.sectorExp
  have hs : 0 < w.ss := by have := hz.ss4; have := hz.per; omega
  have hsh := hz.short
  have hl := links_length (pre.map fun x => units w.short x.length) 0
  obtain ⟨rest, hrest⟩ : containerOf w kids <+: (containerSectors w kids).flatten := blocks_flatten hs _
  have hall : ∀ s ∈ shortSectors w kids, s.length = w.short := by
    intro s hs'
    obtain ⟨x, _, hx⟩ := List.mem_flatMap.1 hs'
    exact blocks_mem_length hsh x s hx
  have hsplit : shortSectors w kids =
      pre.flatMap (blocks w.short) ++ blocks w.short d ++ post.flatMap (blocks w.short) := by
    unfold shortSectors
    rw [h]
    simp
  have hpre : (pre.flatMap (blocks w.short)).length = (pre.map fun x => units w.short x.length).sum := by
    rw [List.length_flatMap]
    congr 1
    exact List.map_congr_left fun x _ => blocks_length hsh x
  -- a short sector of the stream
  have hblock : ∀ j (hj : j < (blocks w.short d).length),
      ((pre.map fun x => units w.short x.length).sum + j + 1) * w.short ≤
        (containerSectors w kids).flatten.length ∧
      ((containerSectors w kids).flatten.drop
        (((pre.map fun x => units w.short x.length).sum + j) * w.short)).take w.short =
          (blocks w.short d)[j] := by
    intro j hj
    have hg : (shortSectors w kids)[(pre.map fun x => units w.short x.length).sum + j]? =
        some (blocks w.short d)[j] := by
      rw [hsplit, ← hpre, List.append_assoc, List.getElem?_append_right (by omega),
        Nat.add_sub_cancel_left, List.getElem?_append_left hj, List.getElem?_eq_getElem hj]
    have hlt := (List.getElem?_eq_some_iff.1 hg).1
    have hcl : (containerOf w kids).length = (shortSectors w kids).length * w.short := by
      unfold containerOf
      rw [flatten_length hall]
    have hle : ((pre.map fun x => units w.short x.length).sum + j + 1) * w.short ≤
        (containerOf w kids).length := by
      rw [hcl]
      exact Nat.mul_le_mul_right _ hlt
    have hfd := flatten_drop_take hall _ _ hg
    rw [← containerOf, Nat.mul_comm w.short] at hfd
    rw [Nat.add_mul _ 1 w.short, Nat.one_mul] at hle
    constructor
    · rw [← hrest, List.length_append, Nat.add_mul _ 1 w.short, Nat.one_mul]
      omega
    · rw [← hrest, List.drop_append_of_le_length (by omega),
        List.take_append_of_le_length (by rw [List.length_drop]; omega), hfd]
  refine ⟨List.range' (pre.map fun x => units w.short x.length).sum (units w.short d.length), endOfChain,
    ?_, List.nodup_range' .., ?_, ?_⟩
  · conv => arg 2; rw [← hl]
    conv => arg 3; rw [← hl]
    refine run_chain (B := links ((pre.map fun x => units w.short x.length).sum + units w.short d.length)
      (post.map fun x => units w.short x.length) ++ List.replicate (units w.perSector
        (links 0 ((w.shorts (streamsOfKids kids)).map fun d => units w.short d.length)).length * w.perSector -
        (links 0 ((w.shorts (streamsOfKids kids)).map fun d => units w.short d.length)).length) free) ?_
    rw [hl]
    unfold ssatOf padUp
    rw [h, List.map_append, List.map_cons, links_append]
    simp [links]
  · intro n hn
    rw [List.mem_range'_1] at hn
    obtain ⟨j, rfl⟩ := Nat.exists_eq_add_of_le hn.1
    exact (hblock j (by rw [blocks_length hsh]; omega)).1
  · have heq : (List.range' (pre.map fun x => units w.short x.length).sum (units w.short d.length)).map
        (fun n => ((containerSectors w kids).flatten.drop (n * w.short)).take w.short) = blocks w.short d := by
      apply List.ext_getElem
      · simp [blocks_length hsh]
      · intro j h1 h2
        rw [List.getElem_map, List.getElem_range', Nat.one_mul]
        exact (hblock j h2).2
    rw [List.flatMap_def, heq]
    exact blocks_flatten hsh d

theorem slotsOfFile_names :
    (entriesOfSlots (slotsOfFile w kids)).map (·.name) = rootName w.order :: namesOfKids kids := by
  have hfit := slots_fit_used hst
  have hpad : slotsOfFile w kids = rootSlot w kids :: slotsOfKids w (longBase w kids) 0 1 kids ++
      List.replicate (units w.slotsPerSector
        (rootSlot w kids :: slotsOfKids w (longBase w kids) 0 1 kids).length * w.slotsPerSector -
        (rootSlot w kids :: slotsOfKids w (longBase w kids) 0 1 kids).length) emptySlot := rfl
  rw [entriesOfSlots_names, hpad, List.filter_append, List.filter_eq_self.2, List.filter_eq_nil_iff.2,
    List.append_nil, List.map_cons, slotsOfKids_names]
  · refine congrArg (· :: _) ?_
    show ((rootName w.order) ++ _).take (rootName w.order).length = _
    rw [List.take_left']
    rfl
  · intro f hf
    rw [(List.mem_replicate.1 hf).2]
    decide
  · intro f hf
    exact decide_eq_true (hfit f hf).2

omit hst in
/-- The slots have the marks of their positions. -/
theorem slotsOfFile_marks {i : Nat} {f : SlotFields} (hf : (slotsOfFile w kids)[i]? = some f)
    (ht : f.type ≠ 0) : i ≤ countKids kids ∧ f.created = (w.marks.entry i).created ∧
      f.modified = (w.marks.entry i).modified := by
  unfold slotsOfFile padUp at hf
  by_cases hi : i < (rootSlot w kids :: slotsOfKids w (longBase w kids) 0 1 kids).length
  · rw [List.getElem?_append_left hi] at hf
    rw [List.length_cons, slotsOfKids_length] at hi
    refine ⟨by omega, ?_⟩
    match i with
    | 0 => cases hf; exact ⟨rfl, rfl⟩
    | i + 1 =>
      rw [List.getElem?_cons_succ] at hf
      rw [Nat.add_comm]
      exact slotsOfKids_marks w kids _ _ _ _ _ hf
  · rw [List.getElem?_append_right (by omega)] at hf
    rw [(List.mem_replicate.1 (List.mem_of_getElem? hf)).2] at ht
    exact absurd rfl ht

/-- The file of the writer holds the document. -/
theorem encodeFile_held :
    HeldBy (encodeFile w kids) (headerOfFile w kids) (slotsOfFile w kids) (.storage kids) := by
  have hz := sizes hst.sectorExp
  have hfit := slots_fit_used hst
  have hck := countKids_lt hst
  have hfree : free = 0xffffffff := rfl
  have hpos : 0 < countKids kids := by
    match kids, hst.nonempty with
    | (n, d) :: r, _ => rw [countKids]; have := doc_count_pos d; omega
  have hpad : slotsOfFile w kids = rootSlot w kids :: slotsOfKids w (longBase w kids) 0 1 kids ++
      List.replicate (units w.slotsPerSector
        (rootSlot w kids :: slotsOfKids w (longBase w kids) 0 1 kids).length * w.slotsPerSector -
        (rootSlot w kids :: slotsOfKids w (longBase w kids) 0 1 kids).length) emptySlot := rfl
  have hgood : GoodLinks (entriesOfSlots (slotsOfFile w kids)) ((rootSlot w kids).entry 0) := by
    refine goodLinks_of_perm hpad rfl rfl rfl rfl ?_ (fun f hf => (hfit f hf).2) ?_
    · intro f hf
      rw [(List.mem_replicate.1 hf).2]
      rfl
    · rw [List.flatMap_cons, rootSlot, usedLinks_plain, slotsOfKids_length, if_neg (by decide), if_pos rfl,
        List.append_nil]
      refine (List.Perm.append_left _ (slotsOfKids_links w kids _ _ _ (by omega))).trans ?_
      rw [show countKids kids = countKids kids - 1 + 1 by omega, List.range'_succ, Nat.add_sub_cancel]
      exact List.Perm.refl _
  obtain ⟨hc1, hc2⟩ := run_of_file hst (pre := [dirSectorsOf w kids, ssatSectorsOf w kids])
    (s := containerSectors w kids) rfl
  have hb : (List.map List.length [dirSectorsOf w kids, ssatSectorsOf w kids]).sum =
      containerBase w kids := by
    simp [dirSectorsOf_length hst, ssatBase, containerBase]
  rw [hb] at hc1 hc2
  refine ⟨w.order, satOf w kids, ssatOf w kids,
    (rootSlot w kids).entry 0, _, _, containerSectors w kids, encodeFile_layout hst, hgood, hst.shortExp,
    hc1, hc2, ?_⟩
  · obtain ⟨es, hsib, hlen, hkids⟩ := slotsOfKids_holds (h := headerOfFile w kids) (content := encodeFile w kids)
      (sat := satOf w kids) (ssat := ssatOf w kids) (container := (containerSectors w kids).flatten)
      (slots := slotsOfFile w kids) (w := w) (all := streamsOfKids kids) (base := longBase w kids)
      rfl (encodeFile_long hst) (encodeFile_short hst) kids (longBase w kids) 0 1
      (fun j x hj => by
        rw [hpad, List.getElem?_append_left (by
          have := (List.getElem?_eq_some_iff.1 hj).1
          simp only [List.length_cons]; omega), Nat.add_comm, List.getElem?_cons_succ]
        exact hj)
      (by omega) ⟨[], [], by simp, by simp⟩ ⟨[], [], by simp, by simp⟩
    have he : kids.isEmpty = false := by
      match kids, hst.nonempty with
      | _ :: _, _ => rfl
    rw [he] at hsib
    exact .storage (Or.inr rfl) hsib hlen (fun j c k h1 h2 => (hkids j c k h1 h2).1)
      (fun j c k h1 h2 => (hkids j c k h1 h2).2)

theorem encodeFile_holds :
    FileHolds (encodeFile w kids) (rootName w.order :: namesOfKids kids) (.storage kids) :=
  ⟨_, _, encodeFile_held hst, (slotsOfFile_names hst).symm⟩

end file

end Olecf.Props
