import Verif.Props.Stack

/-
  C107: what opening a file reads and keeps at most.
-/

namespace Olecf.Props
open Olecf Olecf.Spec Olecf.Lemmas

/-! ### The sizes of the reads -/

theorem cons_reads {α : Type} (o : Out α) (r : Nat × Nat) : (o.cons r).reads = r :: o.reads := rfl

theorem msatLoop_sizes (io : IoHandle) (dev : Dev) (entries : Nat) : ∀ fuel id index t,
    ∀ r ∈ (msatLoop io dev entries fuel id index t).reads, r.2 = io.sectorSize := by
  intro fuel
  induction fuel with
  | zero =>
    intro id index t r hr
    unfold msatLoop at hr
    split at hr <;> cases hr
  | succ fuel ih =>
    intro id index t r hr
    unfold msatLoop at hr
    split at hr
    · cases hr
    · dsimp only at hr
      split at hr
      · cases hr
      · split at hr
        · rcases List.mem_singleton.1 hr with rfl; rfl
        · split at hr
          · split at hr
            · rw [cons_reads] at hr
              rcases List.mem_cons.1 hr with rfl | hr
              · rfl
              · exact ih _ _ _ r hr
            · rcases List.mem_singleton.1 hr with rfl; rfl
          · rcases List.mem_singleton.1 hr with rfl; rfl
          · rcases List.mem_singleton.1 hr with rfl; rfl

theorem satLoop_sizes (io : IoHandle) (dev : Dev) (entries : Nat) : ∀ ids index t,
    ∀ r ∈ (satLoop io dev entries ids index t).reads, r.2 = io.sectorSize := by
  intro ids
  induction ids with
  | nil => intro index t r hr; cases hr
  | cons id ids ih =>
    intro index t r hr
    unfold satLoop at hr
    split at hr
    · exact ih _ _ r hr
    · split at hr
      · cases hr
      · dsimp only at hr
        split at hr
        · rcases List.mem_singleton.1 hr with rfl; rfl
        · split at hr
          · rw [cons_reads] at hr
            rcases List.mem_cons.1 hr with rfl | hr
            · rfl
            · exact ih _ _ r hr
          · rcases List.mem_singleton.1 hr with rfl; rfl

theorem ssatLoop_sizes (io : IoHandle) (dev : Dev) (sat : AllocTable) (entries count : Nat) :
    ∀ fuel id sectorIndex index t,
    ∀ r ∈ (ssatLoop io dev sat entries count fuel id sectorIndex index t).reads, r.2 = io.sectorSize := by
  intro fuel
  induction fuel with
  | zero =>
    intro id si index t r hr
    unfold ssatLoop at hr
    split at hr <;> cases hr
  | succ fuel ih =>
    intro id si index t r hr
    unfold ssatLoop at hr
    split at hr
    · cases hr
    · dsimp only at hr
      split at hr
      · cases hr
      · split at hr
        · exact ih _ _ _ _ r hr
        · split at hr
          · rcases List.mem_singleton.1 hr with rfl; rfl
          · split at hr
            · split at hr
              · rw [cons_reads] at hr
                rcases List.mem_cons.1 hr with rfl | hr
                · rfl
                · exact ih _ _ _ _ r hr
              · rcases List.mem_singleton.1 hr with rfl; rfl
              · rcases List.mem_singleton.1 hr with rfl; rfl
            · rcases List.mem_singleton.1 hr with rfl; rfl
            · rcases List.mem_singleton.1 hr with rfl; rfl

theorem readMsat_sizes (io : IoHandle) (dev : Dev) (t : AllocTable) (id count : Nat) :
    ∀ r ∈ (readMsat io dev t id count).reads, r.2 = io.sectorSize := by
  intro r hr
  unfold readMsat at hr
  split at hr
  · cases hr
  · split at hr
    · cases hr
    · split at hr
      · cases hr
      · split at hr
        · cases hr
        · dsimp only at hr
          split at hr
          · cases hr
          · split at hr
            · exact msatLoop_sizes _ _ _ _ _ _ _ r hr
            · cases hr

theorem readSat_sizes (io : IoHandle) (dev : Dev) (msat t : AllocTable) (count : Nat) :
    ∀ r ∈ (readSat io dev msat t count).reads, r.2 = io.sectorSize := by
  intro r hr
  unfold readSat at hr
  split at hr
  · cases hr
  · dsimp only at hr
    split at hr
    · exact satLoop_sizes _ _ _ _ _ _ r hr
    · cases hr

theorem readSsat_sizes (io : IoHandle) (dev : Dev) (sat t : AllocTable) (id count : Nat) :
    ∀ r ∈ (readSsat io dev sat t id count).reads, r.2 = io.sectorSize := by
  intro r hr
  unfold readSsat at hr
  split at hr
  · cases hr
  · dsimp only at hr
    split at hr
    · exact ssatLoop_sizes _ _ _ _ _ _ _ _ _ _ r hr
    · cases hr

/-- The number of bytes of a list of reads. -/
def bytesOf (reads : List (Nat × Nat)) : Nat := (reads.map (·.2)).sum

theorem bytesOf_const {reads : List (Nat × Nat)} {ss : Nat} (h : ∀ r ∈ reads, r.2 = ss) :
    bytesOf reads = reads.length * ss := by
  induction reads with
  | nil => simp [bytesOf]
  | cons r rest ih =>
    have e : bytesOf (r :: rest) = r.2 + bytesOf rest := by simp [bytesOf]
    rw [e, h r List.mem_cons_self, ih fun x hx => h x (List.mem_cons_of_mem _ hx), List.length_cons, Nat.add_mul]
    omega

theorem bytesOf_append (a b : List (Nat × Nat)) : bytesOf (a ++ b) = bytesOf a + bytesOf b := by
  simp [bytesOf]

/-- The reads of a sequence, if those of its parts are bounded. -/
theorem andThen_bytes {α β : Type} {io : IoHandle} {o : Out α} {f : α → Out β × IoHandle} {m n : Nat}
    (h1 : bytesOf o.reads ≤ m) (h2 : ∀ a, o.res = .ok a → bytesOf (f a).1.reads ≤ n) :
    bytesOf (Out.andThen io o f).1.reads ≤ m + n := by
  unfold Out.andThen
  split
  · rename_i a ha
    rw [bytesOf_append]
    exact Nat.add_le_add h1 (h2 a ha)
  · exact Nat.le_trans h1 (Nat.le_add_right _ _)

/-! ### C107 -/

theorem openCore_reads (cmp : Bytes → Bytes → Option Bool) (dev : Dev) (io : IoHandle) :
    bytesOf (openCore cmp dev io).1.reads ≤ 512 + 2 ^ 27 + 1539 * 2 ^ 15 := by
  rw [openCore_eq]
  have e : 512 + 2 ^ 27 + 1539 * 2 ^ 15 = 512 + (257 * 2 ^ 15 + (2 ^ 27 + (257 * 2 ^ 15 + 1025 * 2 ^ 15))) := by
    decide
  rw [e]
  refine andThen_bytes ?_ fun x hx => ?_
  · unfold headerRead
    split <;> exact Nat.le_refl _
  obtain ⟨hdr, t0⟩ := x
  dsimp only
  obtain ⟨hl, hv, h1, h2, h3, h4, h5, h6, h7⟩ := headerRead_fits hx
  obtain ⟨⟨k, hk, hks⟩, _⟩ := headerRead_sizes hx
  have hp : 0 < 2 ^ k := Nat.pow_pos (by omega)
  have hle : 2 ^ k ≤ 2 ^ 15 := Nat.pow_le_pow_right (by omega) hk
  have hss : (io.withHeader hdr).sectorSize = 2 ^ k := by rw [withHeader_sectorSize, hks]
  have hmsat := readMsat_safe (io.withHeader hdr) dev t0 hdr.msatSector hdr.msatSectors h3
      ⟨by show t0.ids.length ≤ _; omega, hv⟩
  refine andThen_bytes ?_ fun msat hm => ?_
  · rw [bytesOf_const (readMsat_sizes _ _ _ _ _), hss]
    exact Nat.mul_le_mul hmsat.2 hle
  have hmw : msat.WF := by
    rcases hmsat.1 with h | ⟨t, h, hw, _⟩
    · rw [hm] at h; cases h
    · rw [hm] at h; cases h; exact hw
  obtain ⟨sat', hs', hsw', _⟩ := readSat_safe (io.withHeader hdr) dev msat hdr.satSectors k hk hss hmw.lt
  refine andThen_bytes ?_ fun sat hsat => ?_
  · rw [bytesOf_const (readSat_sizes _ _ _ _ _), hss]
    have hn := Nat.le_trans (readSat_eq (io.withHeader hdr) dev msat hdr.satSectors k hk hss hmw.lt).2
      (Nat.min_le_right _ _)
    rw [hss] at hn
    have hts := tableSize_le hdr.satSectors (2 ^ k / 4)
    by_cases hk2 : 2 ≤ k
    · obtain ⟨j, rfl⟩ : ∃ j, k = j + 2 := ⟨k - 2, by omega⟩
      have e4 : 2 ^ (j + 2) / 4 = 2 ^ j := by rw [Nat.pow_add]; omega
      rw [e4] at hn hts
      have : (readSat (io.withHeader hdr) dev msat ⟨[]⟩ hdr.satSectors).reads.length * 2 ^ j ≤ 2 ^ 25 :=
        Nat.le_trans (Nat.mul_le_mul_right _ hn) (Nat.le_trans (Nat.div_mul_le_self _ _) hts)
      rw [Nat.pow_add, ← Nat.mul_assoc]
      omega
    · have e0 : 2 ^ k / 4 = 0 := by
        have : k = 0 ∨ k = 1 := by omega
        rcases this with rfl | rfl <;> rfl
      rw [e0, Nat.div_zero] at hn
      rw [Nat.le_zero.1 hn]
      omega
  have hsw : sat.WF := by rw [hs'] at hsat; cases hsat; exact hsw'
  refine andThen_bytes ?_ fun ssat _ => ?_
  · rw [bytesOf_const (readSsat_sizes _ _ _ _ _ _), hss]
    refine Nat.mul_le_mul (Nat.le_trans (readSsat_safe (io.withHeader hdr) dev sat hdr.ssatSector hdr.ssatSectors
      (by rw [hss]; exact hp) (by rw [hss, MAX_ALLOC]; omega) hsw h2).2 (Nat.min_le_left _ _)) hle
  rw [show 1025 * 2 ^ 15 = 1025 * 2 ^ 15 + 0 from rfl]
  refine andThen_bytes ?_ fun _ _ => ?_
  · obtain ⟨_, hn, _, hsz⟩ := C14_directory_safe (io.withHeader hdr) dev sat.ids [] hdr.rootDirSector hsw.size hsw.lt h1
    rw [bytesOf_const hsz, hss]
    exact Nat.mul_le_mul hn hle
  · rw [show 0 = 0 + 0 from rfl]
    refine andThen_bytes ?_ fun _ _ => ?_
    · exact Nat.le_refl _
    · exact Nat.le_refl _

/-- C107: whatever the file contains and whatever reads fail, opening it reads at most 177 MiB, successful or not. -/
theorem C107_reads (cmp : Bytes → Bytes → Option Bool) (dev : Dev) (file : OleFile) :
    ((openRead cmp dev file).1.reads.map (·.2)).sum ≤ 177 * 2 ^ 20 := by
  have h := openCore_reads cmp dev file.io
  unfold bytesOf at h
  have key : ((openCore cmp dev file.io).1.reads.map (·.2)).sum ≤ 177 * 2 ^ 20 := Nat.le_trans h (by decide)
  unfold openRead
  split
  · exact Nat.zero_le _
  · split
    rename_i out io ho
    rw [ho] at key
    split <;> exact key

/-- C107: whatever the file contains, after an open the three tables have at most 2^25 entries of four bytes
  each, and there are at most 262400 items, however they are reached. -/
theorem C107_memory {cmp : Bytes → Bytes → Option Bool} {dev : Dev} {io : IoHandle} {l : Loaded}
    (h : (openCore cmp dev io).1.res = .ok l) :
    l.msat.ids.length ≤ 2 ^ 25 ∧ l.sat.ids.length ≤ 2 ^ 25 ∧ l.ssat.ids.length ≤ 2 ^ 25 ∧
    ∀ t, l.tree = some t → ∀ ps : List (List Nat), ps.Nodup → (∀ p ∈ ps, itemAt t p ≠ none) →
      ps.length ≤ 262400 := by
  obtain ⟨hdr, t0, list, tree, ho⟩ := openCore_ok_iff.1 ⟨h, rfl⟩
  obtain ⟨hmw, hsw, hssw⟩ := ho.wf
  refine ⟨hmw.size, hsw.size, hssw.size, fun t ht ps hnd hps => ?_⟩
  have htree := ho.hltree
  rw [ht] at htree
  cases tree with
  | none => cases htree
  | some x =>
    obtain ⟨t', m⟩ := x
    obtain rfl : t = t' := Option.some.inj htree
    obtain ⟨_, _, h1, _⟩ := headerRead_fits ho.hheader
    obtain ⟨⟨k, hk, hks⟩, _⟩ := headerRead_sizes ho.hheader
    obtain ⟨hsorted, _⟩ := readDirectory_entries hsw h1 ho.hdir
    have hlen := directory_length hsw h1 hk (by rw [withHeader_sectorSize, hks]) ho.hdir
    rw [ho.hlist] at hsorted hlen
    have hnd' : (list.map (·.id)).Nodup := hsorted.imp fun h => Nat.ne_of_lt h
    obtain ⟨hmem, hinj⟩ := C16_no_item_twice list cmp hnd' t m ho.htree
    have hl : list.length ≤ 262400 := by
      have hss : (io.withHeader hdr).sectorSize ≤ 2 ^ 15 := by
        rw [withHeader_sectorSize, hks]
        exact Nat.pow_le_pow_right (by omega) hk
      have : (io.withHeader hdr).sectorSize / 128 ≤ 256 := by omega
      omega
    have hmap : (ps.map fun p => (itemAt t p).map (·.entry.id)).Nodup := by
      refine List.Nodup.map_on ?_ hnd
      intro p hp q hq he
      cases hip : itemAt t p with
      | none => exact absurd hip (hps p hp)
      | some a =>
        cases hiq : itemAt t q with
        | none => exact absurd hiq (hps q hq)
        | some b =>
          rw [hip, hiq] at he
          exact hinj p q a b hip hiq (Option.some.inj he)
    have hsub : (ps.map fun p => (itemAt t p).map (·.entry.id)) ⊆ list.map fun d => some d.id := by
      intro x hx
      obtain ⟨p, hp, rfl⟩ := List.mem_map.1 hx
      cases hip : itemAt t p with
      | none => exact absurd hip (hps p hp)
      | some a => exact List.mem_map.2 ⟨a.entry, hmem p a hip, rfl⟩
    have := List.Nodup.length_le_of_subset hmap hsub
    rw [List.length_map, List.length_map] at this
    omega

/-! ### A small file that needs much memory -/

/-- A header that declares `n` sectors of the sector table and `m` of the short sector table. -/
def smallHeader (n m : Nat) : HeaderFields where
  beta := false
  classId := List.replicate 16 0
  minor := 0x3e
  major := 3
  sectorExp := 9
  shortExp := 6
  reserved := List.replicate 10 0
  satSectors := n
  rootDirSector := 1
  transaction := List.replicate 4 0
  minStreamSize := 4096
  ssatSector := 0xfffffffe
  ssatSectors := m
  msatSector := 0xfffffffe
  msatSectors := 0
  msat := 0 :: List.replicate 108 0xffffffff

/-- The one sector of the sector table and the one directory sector. -/
def smallTable : Bytes := enc32s .little ([0xfffffffd, 0xfffffffe] ++ List.replicate 126 0xffffffff)
def smallSlots : List SlotFields :=
  [plainSlot {} (rootName .little) 5 free 1 endOfChain 0, plainSlot {} [65, 0] 1 free free endOfChain 0,
    emptySlot, emptySlot]

/-- The file of three sectors. -/
def smallFile (n m : Nat) : Bytes :=
  encodeHeader .little (smallHeader n m) ++ smallTable ++ (smallSlots.map (encodeSlot .little)).flatten

theorem smallHeader_fits {n m : Nat} (hn : n ≤ 2 ^ 18) (hm : m ≤ 2 ^ 18) : (smallHeader n m).Fits := by
  have h1 : n < 2 ^ 32 := by omega
  have h2 : m < 2 ^ 32 := by omega
  exact ⟨rfl, by show 0x3e < 2 ^ 16; decide, by show 3 < 2 ^ 16; decide, by show 9 ≤ 15; decide,
    by show 6 ≤ 15; decide, rfl, h1, by show 1 < 2 ^ 32; decide, rfl, by show 4096 < 2 ^ 32; decide,
    by show 0xfffffffe < 2 ^ 32; decide, h2, by show 0xfffffffe < 2 ^ 32; decide, by show 0 < 2 ^ 32; decide, rfl,
    by
      intro v hv
      rcases List.mem_cons.1 hv with rfl | hv
      · decide
      · rw [List.eq_of_mem_replicate hv]; decide⟩

theorem smallSlots_fit : ∀ s ∈ smallSlots, s.Fits := by
  intro s hs
  simp only [smallSlots, List.mem_cons, List.not_mem_nil, or_false] at hs
  rcases hs with rfl | rfl | rfl | rfl <;> exact ⟨by decide, by decide, by decide, by decide, by decide, by decide,
    by decide, by decide, by decide, by decide, by decide, by decide, by decide, by decide⟩

theorem smallFile_length {n m : Nat} (hn : n ≤ 2 ^ 18) (hm : m ≤ 2 ^ 18) : (smallFile n m).length = 1536 := by
  have h1 := encodeHeader_length .little _ (smallHeader_fits hn hm)
  have h2 : smallTable.length = 512 := by decide +kernel
  have h3 : (smallSlots.map (encodeSlot .little)).flatten.length = 512 := by decide +kernel
  unfold smallFile
  rw [List.length_append, List.length_append]
  omega

theorem smallFile_sectors {n m : Nat} (hn : n ≤ 2 ^ 18) (hm : m ≤ 2 ^ 18) :
    sector (Dev.ofBytes (smallFile n m)) 512 0 = some smallTable ∧
    sector (Dev.ofBytes (smallFile n m)) 512 1 = some (smallSlots.map (encodeSlot .little)).flatten := by
  have h1 := encodeHeader_length .little _ (smallHeader_fits hn hm)
  have h2 : smallTable.length = 512 := by decide +kernel
  have h3 : (smallSlots.map (encodeSlot .little)).flatten.length = 512 := by decide +kernel
  have p0 : sectorPos 512 0 = 512 := by decide
  have p1 : sectorPos 512 1 = 1024 := by decide
  unfold sector
  rw [p0, p1]
  unfold smallFile Dev.get Dev.ofBytes
  generalize encodeHeader .little (smallHeader n m) = a at *
  generalize smallTable = b at *
  generalize (smallSlots.map (encodeSlot .little)).flatten = c at *
  have e0 : ((a ++ b ++ c).drop 512).take 512 = b := by
    rw [List.append_assoc, ← h1, List.drop_left, List.take_left' (by omega)]
  have e1 : ((a ++ b ++ c).drop 1024).take 512 = c := by
    rw [List.drop_left' (by simp; omega), ← h3, List.take_length]
  constructor
  · show (if ((List.drop 512 (a ++ b ++ c)).take 512).length = 512 then _ else _) = _
    rw [e0, if_pos h2]
  · show (if ((List.drop 1024 (a ++ b ++ c)).take 512).length = 512 then _ else _) = _
    rw [e1, if_pos h3]

/-- C107 is violated in that the memory is not in proportion to the file: a file of 1536 bytes that declares `n`
  and `m` sectors of the two tables is opened, and the tables have 128 entries for each of the declared
  sectors, up to 2^25 entries (128 MiB) each. -/
theorem C107_proportional_violated (cmp : Bytes → Bytes → Option Bool) (io : IoHandle) {n m : Nat} (h0 : 1 ≤ n)
    (hn : n ≤ 2 ^ 18) (hm : m ≤ 2 ^ 18) :
    (smallFile n m).length = 1536 ∧
    ∃ l, (openCore cmp (Dev.ofBytes (smallFile n m)) io).1.res = .ok l ∧
      l.sat.ids.length = 128 * n ∧ l.ssat.ids.length = 128 * m ∧ l.tree ≠ none := by
  refine ⟨smallFile_length hn hm, ?_⟩
  obtain ⟨hs0, hs1⟩ := smallFile_sectors hn hm
  have hf := smallHeader_fits hn hm
  have hhead := headerRead_encoded (content := smallFile n m) (e := .little) hf
    (by unfold smallFile; rw [List.append_assoc]; exact List.prefix_append _ _)
  generalize hio : io.withHeader (parsedFields .little (smallHeader n m)) = io1
  have hss : io1.sectorSize = 512 := by rw [← hio]; rfl
  have hbo : io1.byteOrder = .little := by rw [← hio]; rfl
  have hmsat := (C08_msat_header_only io1 (Dev.ofBytes (smallFile n m)) (smallHeader n m).msat 0 rfl
    (by rw [hss]; omega) (by rw [hss]; omega)).1
  have hsat := C09_sat_outcome io1 (Dev.ofBytes (smallFile n m)) (smallHeader n m).msat n 9 (by omega) (by omega)
    hss hf.msat (by rw [hss]; omega)
  have hfil : (smallHeader n m).msat.filter (· ≠ 0xffffffff) = [0] := by
    show List.filter _ (0 :: List.replicate 108 0xffffffff) = [0]
    decide
  obtain ⟨n', rfl⟩ : ∃ n', n = n' + 1 := ⟨n - 1, by omega⟩
  rw [hfil, List.take_succ_cons, List.take_nil, hss, hbo] at hsat
  have hread : readable (Dev.ofBytes (smallFile (n' + 1) m)) 512 [0] = [smallTable] := by
    unfold readable
    rw [hs0]
    rfl
  have hw : words .little smallTable = [0xfffffffd, 0xfffffffe] ++ List.replicate 126 0xffffffff := by
    decide +kernel
  rw [hread, List.flatMap_singleton, hw] at hsat
  generalize hS : padTo ((n' + 1) * (512 / 4)) ([0xfffffffd, 0xfffffffe] ++ List.replicate 126 0xffffffff) = S at hsat
  have hSl : S.length = 128 * (n' + 1) := by
    rw [← hS]
    unfold padTo
    simp only [List.length_append, List.length_replicate, List.length_cons, List.length_nil]
    omega
  have hSv : ∀ v ∈ S, v < 2 ^ 32 := by
    intro v hv
    rw [← hS] at hv
    unfold padTo at hv
    rcases List.mem_append.1 hv with hv | hv
    · rcases List.mem_append.1 hv with hv | hv
      · simp at hv; omega
      · rw [List.eq_of_mem_replicate hv]; decide
    · rw [List.eq_of_mem_replicate hv]; decide
  have hS1 : S[1]? = some 0xfffffffe := by rw [← hS]; rfl
  have hssat := C10_ssat_outcome io1 (Dev.ofBytes (smallFile (n' + 1) m)) S 0xfffffffe m 9 (by omega) hss
    (by omega) hSv (by decide) (by rw [hss]; omega)
  have hfol : follow S (min 257 m) 0xfffffffe = [] := by
    cases min 257 m with
    | zero => rfl
    | succ k => simp [follow]
  rw [hfol, hss] at hssat
  have hdir := (C15_directory_exact io1 (Dev.ofBytes (smallFile (n' + 1) m)) S 1 4 (entriesOfSlots smallSlots)
    hss (by omega) (by rw [hss]; omega) (by omega) hSv (by decide) (by decide)).2 ⟨[1], false,
      [(smallSlots.map (encodeSlot .little)).flatten], .step (by decide) (by decide) (by simp) hS1
        (.marker (Or.inl rfl)), by decide, by rw [hss]; simp [hs1], ?_, ?_⟩
  · obtain ⟨r, hr⟩ : ∃ r, (createTree (entriesOfSlots smallSlots) cmp).res = .ok (some r) := ⟨_, rfl⟩
    refine ⟨⟨⟨(smallHeader (n' + 1) m).msat⟩, ⟨S⟩, ⟨padTo (m * (512 / 4)) []⟩, some r.1⟩,
      (openCore_ok_iff (io' := (io.withHeader (parsedFields .little (smallHeader (n' + 1) m))).withShortStart
        (createTree (entriesOfSlots smallSlots) cmp).shortStart)).2 ?_ |>.1, ?_⟩
    · refine ⟨parsedFields .little (smallHeader (n' + 1) m), ⟨(smallHeader (n' + 1) m).msat⟩,
        entriesOfSlots smallSlots, some r, hhead, ?_, ?_, ?_, ?_, ?_, hr, rfl, rfl⟩
      · rw [hio]; exact hmsat
      · rw [hio]; exact hsat
      · rw [hio]; exact hssat
      · rw [hio]; exact hdir.1
      · rw [hio]; exact hdir.2
    · refine ⟨hSl, ?_, by simp⟩
      show (padTo (m * (512 / 4)) []).length = 128 * m
      unfold padTo
      simp
      omega
  · rw [hbo]
    simpa using (entriesOf_slots (e := .little) (slots := smallSlots) smallSlots_fit).2
  · rw [hbo]
    simpa using (entriesOf_slots (e := .little) (slots := smallSlots) smallSlots_fit).1.symm

/-- A file that is opened (C107_memory): the largest tables for a file of 1536 bytes. -/
example : ∃ l, (openCore cmpNone (Dev.ofBytes (smallFile (2 ^ 18) (2 ^ 18))) .cleared).1.res = .ok l ∧
    l.sat.ids.length = 2 ^ 25 ∧ l.ssat.ids.length = 2 ^ 25 ∧ l.tree ≠ none :=
  (C107_proportional_violated cmpNone .cleared (by decide) (Nat.le_refl _) (Nat.le_refl _)).2

end Olecf.Props
