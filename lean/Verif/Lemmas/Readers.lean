import Verif.Lemmas.AllocTable

namespace Olecf

open Spec

theorem sector_length {dev : Dev} {ss id : Nat} {s : Bytes} (h : sector dev ss id = some s) :
    s.length = ss := Dev.get_length h

theorem dev_get_sector (dev : Dev) {id : Nat} (ss : Nat) (h : id < 2 ^ 32) :
    dev.get (sectorOffset id ss) ss = sector dev ss id := by
  rw [sectorOffset_eq ss h]; rfl

theorem msatEntries_eq {e : Endian} {s : Bytes} {k : Nat} (h : s.length / 4 = k + 1) :
    msatEntries e s = wordsAt e s 0 k := by
  unfold msatEntries
  rw [words_eq_wordsAt, h, List.dropLast_eq_take, wordsAt_length, Nat.add_sub_cancel,
    wordsAt_take _ _ _ (by omega)]

theorem msatLink_eq {e : Endian} {s : Bytes} {k : Nat} (h : s.length / 4 = k + 1) :
    msatLink e s = u32At e s (4 * k) := by
  unfold msatLink words
  rw [h, List.range_succ, List.map_append, List.map_cons, List.map_nil]
  simp

theorem msatLink_lt (e : Endian) (s : Bytes) : msatLink e s < 2 ^ 32 := by
  unfold msatLink
  rw [List.getLastD_eq_getLast?]
  cases h : (words e s).getLast? with
  | none => simp
  | some v => exact words_lt e s v (List.mem_of_getLast? h)

theorem msatEntries_length {e : Endian} {s : Bytes} {k : Nat} (h : s.length / 4 = k + 1) :
    (msatEntries e s).length = k := by
  rw [msatEntries_eq h, wordsAt_length]

/-! ### One step of each loop, in terms of the sectors of the device -/

theorem msatLoop_step (io : IoHandle) (dev : Dev) {entries : Nat} (fuel : Nat) {id index : Nat}
    {t : AllocTable} (he : io.sectorSize / 4 = entries + 1) (hid : id < 2 ^ 32) (h1 : id ≠ EOC)
    (h2 : index < t.n) :
    msatLoop io dev entries (fuel + 1) id index t =
      match sector dev io.sectorSize id with
      | none => ⟨[(sectorPos io.sectorSize id, io.sectorSize)], .err⟩
      | some s =>
        if index + entries ≤ t.n then
          (msatLoop io dev entries fuel (msatLink io.byteOrder s) (index + entries)
            ⟨overwrite t.ids index (msatEntries io.byteOrder s)⟩).cons
              (sectorPos io.sectorSize id, io.sectorSize)
        else ⟨[(sectorPos io.sectorSize id, io.sectorSize)], .err⟩ := by
  rw [msatLoop, if_neg h1]
  simp only [ge_iff_le]
  rw [if_neg (by omega), dev_get_sector dev _ hid, sectorOffset_eq _ hid]
  cases hs : sector dev io.sectorSize id with
  | none => rfl
  | some s =>
    have hl := sector_length hs
    simp only []
    by_cases hf : index + entries ≤ t.n
    · rw [if_pos hf, fillChecked_ok _ _ _ _ _ _ (by omega) hf, rd32_ok _ (by omega)]
      simp only []
      rw [msatLink_eq (by rw [hl]; exact he), msatEntries_eq (by rw [hl]; exact he)]
    · rw [if_neg hf, fillChecked_full _ _ _ _ _ _ (by omega) (by omega) (by omega)]

theorem satLoop_step (io : IoHandle) (dev : Dev) {id index : Nat} (rest : List Nat)
    {t : AllocTable} (hid : id < 2 ^ 32) (h1 : id ≠ UNUSED) (h2 : index < t.n)
    (hf : index + io.sectorSize / 4 ≤ t.n) :
    satLoop io dev (io.sectorSize / 4) (id :: rest) index t =
      match sector dev io.sectorSize id with
      | none => ⟨[(sectorPos io.sectorSize id, io.sectorSize)], .ok t⟩
      | some s =>
          (satLoop io dev (io.sectorSize / 4) rest (index + io.sectorSize / 4)
            ⟨overwrite t.ids index (words io.byteOrder s)⟩).cons
              (sectorPos io.sectorSize id, io.sectorSize) := by
  rw [satLoop, if_neg h1]
  simp only [ge_iff_le]
  rw [if_neg (by omega), dev_get_sector dev _ hid, sectorOffset_eq _ hid]
  cases hs : sector dev io.sectorSize id with
  | none => rfl
  | some s =>
    have hl := sector_length hs
    simp only []
    rw [fillUnchecked_ok _ _ _ _ _ _ (by omega) hf]
    simp only []
    rw [words_eq_wordsAt, hl]

theorem ssatLoop_step (io : IoHandle) (dev : Dev) (sat : AllocTable) (count fuel : Nat)
    {id sectorIndex index : Nat} {t : AllocTable} (hid : id < 2 ^ 32) (h1 : id ≠ EOC)
    (h2 : id ≠ UNUSED) (hc : sectorIndex < count) (hi : index ≤ t.n) :
    ssatLoop io dev sat (io.sectorSize / 4) count (fuel + 1) id sectorIndex index t =
      match sector dev io.sectorSize id with
      | none => ⟨[(sectorPos io.sectorSize id, io.sectorSize)], .ok t⟩
      | some s =>
        if index + io.sectorSize / 4 ≤ t.n then
          match sat.next id with
          | .ok nextId =>
            (ssatLoop io dev sat (io.sectorSize / 4) count fuel nextId (sectorIndex + 1)
              (index + io.sectorSize / 4)
              ⟨overwrite t.ids index (words io.byteOrder s)⟩).cons
                (sectorPos io.sectorSize id, io.sectorSize)
          | _ => ⟨[(sectorPos io.sectorSize id, io.sectorSize)],
              .ok ⟨overwrite t.ids index (words io.byteOrder s)⟩⟩
        else ⟨[(sectorPos io.sectorSize id, io.sectorSize)],
          .ok ⟨overwrite t.ids index ((words io.byteOrder s).take (t.n - index))⟩⟩ := by
  rw [ssatLoop, if_neg h1]
  simp only [ge_iff_le]
  rw [if_neg (by omega), if_neg h2, dev_get_sector dev _ hid, sectorOffset_eq _ hid]
  cases hs : sector dev io.sectorSize id with
  | none => rfl
  | some s =>
    have hl := sector_length hs
    simp only []
    by_cases hf : index + io.sectorSize / 4 ≤ t.n
    · rw [if_pos hf, fillChecked_ok _ _ _ _ _ _ (by omega) hf]
      simp only []
      rw [words_eq_wordsAt, hl]
      rcases next_defined sat id with ⟨v, hv⟩ | hv <;> rw [hv]
    · rw [if_neg hf, fillChecked_full _ _ _ _ _ _ (by omega) hi (by omega)]
      simp only []
      rw [words_eq_wordsAt, hl, wordsAt_take _ _ _ (by omega)]

/-! ### Master table -/

/-- The loop refines the chain of master table sectors: with room for `cap` sectors left in
  the table and `fuel` iterations left. -/
theorem msatLoop_spec (io : IoHandle) (dev : Dev) {entries : Nat}
    (he : io.sectorSize / 4 = entries + 1) (hpos : 0 < entries) :
    ∀ (fuel id cap : Nat) (l : List Nat), id < 2 ^ 32 →
      (msatLoop io dev entries fuel id l.length ⟨padTo (l.length + cap * entries) l⟩).res =
        match msatChain dev io.byteOrder io.sectorSize (min fuel cap) id with
        | none => .err
        | some (secs, b) =>
          if b = EOC ∨ cap < fuel then
            .ok ⟨padTo (l.length + cap * entries) (l ++ secs.flatMap (msatEntries io.byteOrder))⟩
          else .err := by
  intro fuel
  induction fuel with
  | zero =>
    intro id cap l hid
    rw [msatLoop, Nat.zero_min]
    simp only [msatChain]
    by_cases h : id = EOC
    · simp [h]
    · simp [h]
  | succ fuel ih =>
    intro id cap l hid
    by_cases h : id = EOC
    · subst h
      rw [msatLoop, if_pos rfl]
      have : msatChain dev io.byteOrder io.sectorSize (min (fuel + 1) cap) EOC = some ([], EOC) := by
        cases min (fuel + 1) cap <;> simp [msatChain, EOC]
      rw [this]
      simp
    · cases cap with
      | zero =>
        rw [msatLoop, if_neg h]
        simp only [Nat.min_zero, msatChain]
        simp [AllocTable.n, padTo]
      | succ cap =>
        have hn : (⟨padTo (l.length + (cap + 1) * entries) l⟩ : AllocTable).n
            = l.length + (cap + 1) * entries := padTo_length (by omega)
        have hm : (cap + 1) * entries = cap * entries + entries := by
          rw [Nat.add_mul, Nat.one_mul]
        rw [msatLoop_step io dev fuel he hid h (by rw [hn, hm]; omega)]
        rw [Nat.add_min_add_right]
        simp only [msatChain]
        rw [if_neg (show ¬ id = 4294967294 from h)]
        cases hs : sector dev io.sectorSize id with
        | none => rfl
        | some s =>
          have hl := sector_length hs
          have hel : (msatEntries io.byteOrder s).length = entries :=
            msatEntries_length (by rw [hl]; exact he)
          simp only []
          rw [if_pos (by rw [hn, hm]; omega), Out.cons_res]
          rw [overwrite_padTo (by rw [hel, hm]; omega)]
          have hlen : l.length + (cap + 1) * entries =
              (l ++ msatEntries io.byteOrder s).length + cap * entries := by
            rw [List.length_append, hel, hm]; omega
          have hidx : l.length + entries = (l ++ msatEntries io.byteOrder s).length := by
            rw [List.length_append, hel]
          rw [hlen, hidx, ih _ _ _ (msatLink_lt _ _)]
          cases msatChain dev io.byteOrder io.sectorSize (min fuel cap)
              (msatLink io.byteOrder s) with
          | none => rfl
          | some p =>
            obtain ⟨secs, b⟩ := p
            simp only [List.flatMap_cons, List.append_assoc, Nat.add_lt_add_iff_right]

theorem overwrite_lt {l vs : List Nat} {i : Nat} (h1 : ∀ v ∈ l, v < 2 ^ 32)
    (h2 : ∀ v ∈ vs, v < 2 ^ 32) : ∀ v ∈ overwrite l i vs, v < 2 ^ 32 := by
  intro v hv
  simp only [overwrite, List.mem_append] at hv
  rcases hv with (h | h) | h
  · exact h1 v (List.mem_of_mem_take h)
  · exact h2 v h
  · exact h1 v (List.mem_of_mem_drop h)

/-- The tables the library builds: at most 2^25 entries of 32 bits. -/
structure AllocTable.WF (t : AllocTable) : Prop where
  size : t.n ≤ 2 ^ 25
  lt : ∀ v ∈ t.ids, v < 2 ^ 32

theorem AllocTable.WF.int_max {t : AllocTable} (h : t.WF) : t.n ≤ INT_MAX := by
  have := h.size; unfold INT_MAX; omega

theorem AllocTable.WF.next_iff {t : AllocTable} (h : t.WF) {i v : Nat} :
    t.next i = .ok v ↔ t.ids[i]? = some v :=
  ⟨fun h' => (next_ok h').1, next_of_some h.int_max⟩

theorem AllocTable.WF.next_lt {t : AllocTable} (h : t.WF) {i v : Nat} (hv : t.next i = .ok v) :
    v < 2 ^ 32 := h.lt v (List.mem_of_getElem? (next_ok hv).1)

theorem resize_WF {t t' : AllocTable} {k : Int} (h : t.WF) (hr : t.resize k = .ok t') :
    t'.WF ∧ t.n ≤ t'.n := by
  have hmax : AllocTable.maxIds = 2 ^ 25 := by decide
  have hs := h.size
  rcases resize_cases t k with ⟨_, h2⟩ | ⟨h1, h2⟩
  · rw [h2] at hr; cases hr
  · rw [h2] at hr; cases hr
    rw [hmax] at h1
    refine ⟨⟨?_, ?_⟩, ?_⟩
    · simp only [AllocTable.n, List.length_append, List.length_replicate] at hs ⊢; omega
    · intro v hv
      simp only [List.mem_append, List.mem_replicate] at hv
      rcases hv with hv | hv
      · exact h.lt v hv
      · omega
    · simp only [AllocTable.n, List.length_append, List.length_replicate]; omega

/-- Whatever the device delivers: no undefined behaviour, one read per iteration, the table
  keeps its size. -/
theorem msatLoop_safe (io : IoHandle) (dev : Dev) {entries : Nat}
    (he : io.sectorSize / 4 = entries + 1) :
    ∀ (fuel id index : Nat) (t : AllocTable), id < 2 ^ 32 → t.WF → index ≤ t.n →
      ((msatLoop io dev entries fuel id index t).res = .err ∨
        ∃ t', (msatLoop io dev entries fuel id index t).res = .ok t' ∧ t'.n = t.n ∧ t'.WF) ∧
      (msatLoop io dev entries fuel id index t).reads.length ≤ fuel := by
  intro fuel
  induction fuel with
  | zero =>
    intro id index t hid hwf hi
    rw [msatLoop]
    split
    · exact ⟨Or.inr ⟨t, rfl, rfl, hwf⟩, by simp⟩
    · exact ⟨Or.inl rfl, by simp⟩
  | succ fuel ih =>
    intro id index t hid hwf hi
    by_cases h : id = EOC
    · rw [msatLoop, if_pos h]
      exact ⟨Or.inr ⟨t, rfl, rfl, hwf⟩, by simp⟩
    · by_cases h2 : index < t.n
      · rw [msatLoop_step io dev fuel he hid h h2]
        cases hs : sector dev io.sectorSize id with
        | none => exact ⟨Or.inl rfl, by simp⟩
        | some s =>
          have hl := sector_length hs
          have hel : (msatEntries io.byteOrder s).length = entries :=
            msatEntries_length (by rw [hl]; exact he)
          simp only []
          split
          · next hf =>
            have hn : (⟨overwrite t.ids index (msatEntries io.byteOrder s)⟩ : AllocTable).n = t.n :=
              overwrite_length (by rw [hel]; exact hf)
            have := ih (msatLink io.byteOrder s) (index + entries)
              ⟨overwrite t.ids index (msatEntries io.byteOrder s)⟩ (msatLink_lt _ _)
              ⟨by rw [hn]; exact hwf.size, overwrite_lt hwf.lt fun v hv =>
                words_lt _ _ v (List.dropLast_subset _ hv)⟩
              (by rw [hn]; exact hf)
            rw [hn] at this
            refine ⟨this.1, ?_⟩
            have := this.2
            simp only [Out.cons_reads, List.length_cons]
            omega
          · exact ⟨Or.inl rfl, by simp⟩
      · rw [msatLoop, if_neg h]
        simp only []
        rw [if_pos (by omega)]
        exact ⟨Or.inr ⟨t, rfl, rfl, hwf⟩, by simp⟩

/-- Safety of reading the master table. -/
theorem readMsat_safe (io : IoHandle) (dev : Dev) (msat : AllocTable) (id count : Nat)
    (hid : id < 2 ^ 32) (hwf : msat.WF) :
    ((readMsat io dev msat id count).res = .err ∨
      ∃ t', (readMsat io dev msat id count).res = .ok t' ∧ t'.WF ∧ 109 ≤ t'.n) ∧
    (readMsat io dev msat id count).reads.length ≤ 257 := by
  unfold readMsat
  split
  · exact ⟨Or.inl rfl, by simp⟩
  · split
    · exact ⟨Or.inl rfl, by simp⟩
    · next h109 =>
      split
      · exact ⟨Or.inr ⟨msat, rfl, hwf, by omega⟩, by simp⟩
      · split
        · exact ⟨Or.inl rfl, by simp⟩
        · simp only []
          split
          · exact ⟨Or.inl rfl, by simp⟩
          · next he =>
            split
            · next msat' hm =>
              have hm' : msat'.WF ∧ msat.n ≤ msat'.n := by
                generalize (if count = 0 then 1 else count) = c at hm
                split at hm
                · exact resize_WF hwf hm
                · cases hm; exact ⟨hwf, Nat.le_refl _⟩
              have := msatLoop_safe io dev (entries := io.sectorSize / 4 - 1) (by omega)
                tableFuel id 109 msat' hid hm'.1 (by omega)
              refine ⟨?_, this.2⟩
              rcases this.1 with h | ⟨t', h1, h2, h3⟩
              · exact Or.inl h
              · exact Or.inr ⟨t', h1, h3, by omega⟩
            · exact ⟨Or.inl rfl, by simp⟩

/-! ### Sector table -/

/-- Size and zero content of a table that was empty before `resize`. -/
theorem sizeEmpty (count entries : Nat) :
    (∃ t : AllocTable, (if ((⟨[]⟩ : AllocTable).n : Int) < toInt32 (count * entries)
        then (⟨[]⟩ : AllocTable).resize (toInt32 (count * entries)) else .ok ⟨[]⟩) = .ok t ∧
      t = ⟨List.replicate (tableSize count entries) 0⟩) ∨
    ((if ((⟨[]⟩ : AllocTable).n : Int) < toInt32 (count * entries)
        then (⟨[]⟩ : AllocTable).resize (toInt32 (count * entries)) else .ok ⟨[]⟩) = .err ∧
      tableSize count entries = 0) := by
  have hmax : AllocTable.maxIds = 2 ^ 25 := by decide
  rcases toInt32_cases (count * entries) with ⟨h1, h2⟩ | ⟨h1, h2⟩
  · rw [h2]
    by_cases h0 : count * entries % 2 ^ 32 = 0
    · left
      refine ⟨⟨[]⟩, ?_, ?_⟩
      · rw [h0]; rfl
      · unfold tableSize
        rw [h0]; rfl
    · rw [if_pos (by simp only [AllocTable.n, List.length_nil]; omega)]
      rcases resize_cases ⟨[]⟩ ((count * entries % 2 ^ 32 : Nat) : Int) with ⟨h3, h4⟩ | ⟨h3, h4⟩
      · right
        refine ⟨h4, ?_⟩
        unfold tableSize
        rw [hmax] at h3
        rw [if_neg (by omega)]
      · left
        refine ⟨_, h4, ?_⟩
        unfold tableSize
        rw [hmax] at h3
        rw [if_pos (by omega)]
        simp only [List.nil_append, AllocTable.n, List.length_nil, Nat.sub_zero, Int.toNat_natCast]
  · left
    refine ⟨⟨[]⟩, ?_, ?_⟩
    · rw [if_neg (by simp only [AllocTable.n, List.length_nil]; omega)]
    · unfold tableSize
      rw [if_neg (by omega)]; rfl

theorem tableSize_dvd {count entries k : Nat} (h : entries = 2 ^ k) (hk : k ≤ 32) :
    entries ∣ tableSize count entries := by
  unfold tableSize
  split
  · have h1 : entries ∣ 2 ^ 32 := by rw [h]; exact Nat.pow_dvd_pow 2 hk
    exact (Nat.dvd_mod_iff h1).2 (Nat.dvd_mul_left _ _)
  · exact Nat.dvd_zero _

theorem tableSize_eq {count entries : Nat} (h : count * entries ≤ 2 ^ 25) :
    tableSize count entries = count * entries := by
  unfold tableSize
  rw [Nat.mod_eq_of_lt (by omega), if_pos h]

theorem padTo_nil (n : Nat) : padTo n [] = List.replicate n 0 := by simp [padTo]

/-- The master table entries that are in use. -/
def used (ids : List Nat) : List Nat := ids.filter (· ≠ 0xffffffff)

/-- The sector table loop computes the concatenation of the readable listed sectors. -/
theorem satLoop_spec (io : IoHandle) (dev : Dev) (hpos : 0 < io.sectorSize / 4) :
    ∀ (ids : List Nat) (l : List Nat) (cap : Nat), (∀ id ∈ ids, id < 2 ^ 32) →
      (satLoop io dev (io.sectorSize / 4) ids l.length
        ⟨padTo (l.length + cap * (io.sectorSize / 4)) l⟩).res =
      .ok ⟨padTo (l.length + cap * (io.sectorSize / 4))
        (l ++ (readable dev io.sectorSize ((used ids).take cap)).flatMap (words io.byteOrder))⟩ ∧
      (satLoop io dev (io.sectorSize / 4) ids l.length
        ⟨padTo (l.length + cap * (io.sectorSize / 4)) l⟩).reads.length
        ≤ ((used ids).take cap).length := by
  intro ids
  induction ids with
  | nil => intro l cap _; simp [satLoop, used, readable]
  | cons id ids ih =>
    intro l cap hids
    by_cases hu : id = UNUSED
    · subst hu
      rw [satLoop, if_pos rfl]
      have : used (UNUSED :: ids) = used ids := by
        simp [used, UNUSED]
      rw [this]
      exact ih l cap fun i hi => hids i (by simp [hi])
    · have hus : used (id :: ids) = id :: used ids := by
        unfold used
        rw [List.filter_cons_of_pos]
        simpa [UNUSED] using hu
      rw [hus]
      cases cap with
      | zero =>
        rw [satLoop, if_neg hu]
        simp [AllocTable.n, padTo, readable]
      | succ cap =>
        have hn : (⟨padTo (l.length + (cap + 1) * (io.sectorSize / 4)) l⟩ : AllocTable).n
            = l.length + (cap + 1) * (io.sectorSize / 4) := padTo_length (by omega)
        have hm : (cap + 1) * (io.sectorSize / 4)
            = cap * (io.sectorSize / 4) + io.sectorSize / 4 := by
          rw [Nat.add_mul, Nat.one_mul]
        rw [satLoop_step io dev ids (hids id (by simp)) hu (by rw [hn, hm]; omega)
          (by rw [hn, hm]; omega)]
        simp only [List.take_succ_cons, readable]
        cases hs : sector dev io.sectorSize id with
        | none => simp
        | some s =>
          have hl := sector_length hs
          simp only [Out.cons_res, Out.cons_reads, List.length_cons]
          rw [overwrite_padTo (by rw [words_length, hl, hm]; omega)]
          have hlen : l.length + (cap + 1) * (io.sectorSize / 4) =
              (l ++ words io.byteOrder s).length + cap * (io.sectorSize / 4) := by
            rw [List.length_append, words_length, hl, hm]; omega
          have hidx : l.length + io.sectorSize / 4 = (l ++ words io.byteOrder s).length := by
            rw [List.length_append, words_length, hl]
          rw [hlen, hidx]
          have := ih (l ++ words io.byteOrder s) cap fun i hi => hids i (by simp [hi])
          rw [this.1]
          refine ⟨by simp [List.flatMap_cons, List.append_assoc], ?_⟩
          have := this.2
          omega

theorem satLoop_empty (io : IoHandle) (dev : Dev) (entries : Nat) (ids : List Nat) :
    satLoop io dev entries ids 0 ⟨[]⟩ = .of (.ok ⟨[]⟩) := by
  induction ids with
  | nil => rfl
  | cons id ids ih =>
    rw [satLoop]
    split
    · exact ih
    · simp [AllocTable.n]

/-! ### Short sector table -/

theorem ssatLoop_unused (io : IoHandle) (dev : Dev) (sat : AllocTable) (entries count : Nat)
    (fuel si index : Nat) (t : AllocTable) :
    ssatLoop io dev sat entries count fuel UNUSED si index t = .of (.ok t) := by
  induction fuel generalizing si with
  | zero => rw [ssatLoop]; rfl
  | succ fuel ih =>
    rw [ssatLoop, if_neg (by decide)]
    simp only []
    split
    · rfl
    · rw [if_pos trivial, ih]

theorem ssatLoop_spec (io : IoHandle) (dev : Dev) (sat : AllocTable)
    (hsat : sat.n ≤ INT_MAX) (hids : ∀ v ∈ sat.ids, v < 2 ^ 32) (count : Nat) :
    ∀ (fuel id si : Nat) (l : List Nat) (cap : Nat), id < 2 ^ 32 → si + cap = count →
      (ssatLoop io dev sat (io.sectorSize / 4) count fuel id si l.length
        ⟨padTo (l.length + cap * (io.sectorSize / 4)) l⟩).res =
      .ok ⟨padTo (l.length + cap * (io.sectorSize / 4))
        (l ++ (readable dev io.sectorSize (follow sat.ids (min fuel cap) id)).flatMap
          (words io.byteOrder))⟩ ∧
      (ssatLoop io dev sat (io.sectorSize / 4) count fuel id si l.length
        ⟨padTo (l.length + cap * (io.sectorSize / 4)) l⟩).reads.length ≤ min fuel cap := by
  intro fuel
  induction fuel with
  | zero =>
    intro id si l cap hid hc
    rw [ssatLoop]
    split <;> simp [follow, readable]
  | succ fuel ih =>
    intro id si l cap hid hc
    by_cases h : id = EOC
    · rw [ssatLoop, if_pos h]
      subst h
      cases hmin : min (fuel + 1) cap <;> simp [follow, readable, EOC]
    · cases cap with
      | zero =>
        rw [ssatLoop, if_neg h]
        simp only [ge_iff_le]
        rw [if_pos (by omega)]
        simp [follow, readable]
      | succ cap =>
        have hm : (cap + 1) * (io.sectorSize / 4)
            = cap * (io.sectorSize / 4) + io.sectorSize / 4 := by
          rw [Nat.add_mul, Nat.one_mul]
        have hn : (⟨padTo (l.length + (cap + 1) * (io.sectorSize / 4)) l⟩ : AllocTable).n
            = l.length + (cap + 1) * (io.sectorSize / 4) := padTo_length (by omega)
        by_cases hu : id = UNUSED
        · subst hu
          rw [ssatLoop_unused]
          rw [Nat.add_min_add_right]
          simp [follow, readable, UNUSED]
        · rw [ssatLoop_step io dev sat count fuel hid h hu (by omega) (by rw [hn]; omega)]
          rw [Nat.add_min_add_right]
          simp only [follow]
          rw [if_neg (by simp only [EOC, UNUSED] at h hu; omega)]
          simp only [readable]
          cases hs : sector dev io.sectorSize id with
          | none => simp
          | some s =>
            have hl := sector_length hs
            simp only []
            rw [if_pos (by rw [hn, hm]; omega)]
            have hov := @overwrite_padTo (l.length + (cap + 1) * (io.sectorSize / 4)) l
              (words io.byteOrder s) (by rw [words_length, hl, hm]; omega)
            have hlen : l.length + (cap + 1) * (io.sectorSize / 4) =
                (l ++ words io.byteOrder s).length + cap * (io.sectorSize / 4) := by
              rw [List.length_append, words_length, hl, hm]; omega
            have hidx : l.length + io.sectorSize / 4 = (l ++ words io.byteOrder s).length := by
              rw [List.length_append, words_length, hl]
            rcases next_defined sat id with ⟨v, hv⟩ | hv
            · rw [hv, (next_ok hv).1]
              simp only [Out.cons_res, Out.cons_reads, List.length_cons]
              rw [hov, hlen, hidx]
              have := ih v (si + 1) (l ++ words io.byteOrder s) cap
                (hids v (List.mem_of_getElem? (next_ok hv).1)) (by omega)
              rw [this.1]
              refine ⟨by simp [List.flatMap_cons, List.append_assoc], ?_⟩
              have := this.2
              omega
            · rw [hv]
              have hnone : sat.ids[id]? = none := by
                cases hx : sat.ids[id]? with
                | none => rfl
                | some v => rw [next_of_some hsat hx] at hv; cases hv
              rw [hnone]
              simp only []
              rw [hov]
              exact ⟨by simp [readable], by simp⟩

/-! ### The readers as called by open: with an empty table -/

theorem tableSize_zero (count : Nat) : tableSize count 0 = 0 := by simp [tableSize]

/-- Result of reading the sector table into an empty table. -/
theorem readSat_eq (io : IoHandle) (dev : Dev) (msat : AllocTable) (count k : Nat)
    (hk : k ≤ 15) (hs : io.sectorSize = 2 ^ k) (hids : ∀ v ∈ msat.ids, v < 2 ^ 32) :
    (readSat io dev msat ⟨[]⟩ count).res =
      .ok ⟨padTo (tableSize count (io.sectorSize / 4))
        ((readable dev io.sectorSize ((used msat.ids).take
          (tableSize count (io.sectorSize / 4) / (io.sectorSize / 4)))).flatMap
            (words io.byteOrder))⟩ ∧
    (readSat io dev msat ⟨[]⟩ count).reads.length ≤
      min (used msat.ids).length (tableSize count (io.sectorSize / 4) / (io.sectorSize / 4)) := by
  have h1 : 0 < 2 ^ k := Nat.pow_pos (by omega)
  have h2 : 2 ^ k ≤ 2 ^ 15 := Nat.pow_le_pow_right (by omega) hk
  unfold readSat
  rw [if_neg (by unfold MAX_ALLOC; omega)]
  simp only []
  have hempty : tableSize count (io.sectorSize / 4) = 0 →
      (⟨[]⟩ : AllocTable) = ⟨padTo (tableSize count (io.sectorSize / 4))
        ((readable dev io.sectorSize ((used msat.ids).take
          (tableSize count (io.sectorSize / 4) / (io.sectorSize / 4)))).flatMap
            (words io.byteOrder))⟩ := by
    intro h; rw [h, Nat.zero_div]; rfl
  rcases sizeEmpty count (io.sectorSize / 4) with ⟨t, ht, rfl⟩ | ⟨he, hz⟩
  · rw [ht]
    simp only []
    by_cases hp : 0 < io.sectorSize / 4
    · have hkk : io.sectorSize / 4 = 2 ^ (k - 2) := by
        have : 2 ≤ k := by
          rcases Nat.lt_or_ge k 2 with h | h
          · have : 2 ^ k ≤ 2 ^ 1 := Nat.pow_le_pow_right (by omega) (by omega)
            omega
          · exact h
        rw [hs, show (4 : Nat) = 2 ^ 2 from rfl, Nat.pow_div this (by omega)]
      obtain ⟨c, hc⟩ := tableSize_dvd (count := count) hkk (by omega)
      have hcap : tableSize count (io.sectorSize / 4) / (io.sectorSize / 4) = c := by
        rw [hc, Nat.mul_div_cancel_left _ hp]
      rw [hcap, ← padTo_nil]
      have := satLoop_spec io dev hp msat.ids [] c hids
      rw [show tableSize count (io.sectorSize / 4) = ([] : List Nat).length
        + c * (io.sectorSize / 4) by rw [hc, Nat.mul_comm]; simp]
      refine ⟨this.1, ?_⟩
      have h3 := this.2
      rw [List.length_take, Nat.min_comm] at h3
      exact h3
    · have hz : io.sectorSize / 4 = 0 := by omega
      rw [hz, tableSize_zero] at hempty ⊢
      rw [List.replicate_zero, satLoop_empty]
      refine ⟨?_, by simp⟩
      rw [← hempty rfl]; rfl
  · rw [he]
    refine ⟨?_, by simp⟩
    rw [← hempty hz]; rfl

/-- Whatever the device delivers and whatever the table looks like: no undefined behaviour,
  one read per iteration, the table keeps its size. -/
theorem ssatLoop_safe (io : IoHandle) (dev : Dev) (sat : AllocTable) (hsat : sat.WF)
    (count : Nat) :
    ∀ (fuel id si index : Nat) (t : AllocTable), id < 2 ^ 32 → t.WF → index ≤ t.n →
      (∃ t', (ssatLoop io dev sat (io.sectorSize / 4) count fuel id si index t).res = .ok t' ∧
        t'.n = t.n ∧ t'.WF) ∧
      (ssatLoop io dev sat (io.sectorSize / 4) count fuel id si index t).reads.length
        ≤ min fuel (count - si) := by
  intro fuel
  induction fuel with
  | zero =>
    intro id si index t hid hwf hi
    rw [ssatLoop]
    split <;> exact ⟨⟨t, rfl, rfl, hwf⟩, by simp⟩
  | succ fuel ih =>
    intro id si index t hid hwf hi
    by_cases h : id = EOC
    · rw [ssatLoop, if_pos h]; exact ⟨⟨t, rfl, rfl, hwf⟩, by simp⟩
    · by_cases hc : si < count
      · by_cases hu : id = UNUSED
        · subst hu
          rw [ssatLoop_unused]; exact ⟨⟨t, rfl, rfl, hwf⟩, by simp⟩
        · rw [ssatLoop_step io dev sat count fuel hid h hu hc hi]
          cases hs : sector dev io.sectorSize id with
          | none => exact ⟨⟨t, rfl, rfl, hwf⟩, by simp; omega⟩
          | some s =>
            have hl := sector_length hs
            simp only []
            split
            · next hf =>
              have hn : (⟨overwrite t.ids index (words io.byteOrder s)⟩ : AllocTable).n = t.n :=
                overwrite_length (by rw [words_length, hl]; exact hf)
              have hwf' : (⟨overwrite t.ids index (words io.byteOrder s)⟩ : AllocTable).WF :=
                ⟨by rw [hn]; exact hwf.size, overwrite_lt hwf.lt (words_lt _ _)⟩
              rcases next_defined sat id with ⟨v, hv⟩ | hv
              · rw [hv]
                simp only [Out.cons_res, Out.cons_reads, List.length_cons]
                have := ih v (si + 1) (index + io.sectorSize / 4) _ (hsat.next_lt hv) hwf'
                  (by rw [hn]; exact hf)
                rw [hn] at this
                exact ⟨this.1, by have := this.2; omega⟩
              · rw [hv]
                exact ⟨⟨_, rfl, hn, hwf'⟩, by simp; omega⟩
            · next hf =>
              have hn : (⟨overwrite t.ids index ((words io.byteOrder s).take (t.n - index))⟩ :
                  AllocTable).n = t.n := by
                have hx : t.n = t.ids.length := rfl
                refine overwrite_length ?_
                rw [List.length_take, words_length, hl]; omega
              exact ⟨⟨_, rfl, hn, ⟨by rw [hn]; exact hwf.size, overwrite_lt hwf.lt fun v hv =>
                words_lt _ _ v (List.mem_of_mem_take hv)⟩⟩, by simp; omega⟩
      · rw [ssatLoop, if_neg h]
        simp only []
        rw [if_pos (by omega)]
        exact ⟨⟨t, rfl, rfl, hwf⟩, by simp⟩

/-- Result of reading the short sector table into an empty table. -/
theorem readSsat_eq (io : IoHandle) (dev : Dev) (sat : AllocTable) (id count k : Nat)
    (hk : k ≤ 15) (hs : io.sectorSize = 2 ^ k) (hwf : sat.WF) (hid : id < 2 ^ 32) 
    (hc : count * (io.sectorSize / 4) ≤ 2 ^ 25) :
    (readSsat io dev sat ⟨[]⟩ id count).res =
      .ok ⟨padTo (count * (io.sectorSize / 4))
        ((readable dev io.sectorSize (follow sat.ids (min 257 count) id)).flatMap
            (words io.byteOrder))⟩ ∧
    (readSsat io dev sat ⟨[]⟩ id count).reads.length ≤ min 257 count := by
  have h1 : 0 < 2 ^ k := Nat.pow_pos (by omega)
  have h2 : 2 ^ k ≤ 2 ^ 15 := Nat.pow_le_pow_right (by omega) hk
  unfold readSsat
  rw [if_neg (by unfold MAX_ALLOC; omega)]
  simp only []
  rcases sizeEmpty count (io.sectorSize / 4) with ⟨t, ht, rfl⟩ | ⟨he, hz⟩
  · rw [ht, tableSize_eq hc]
    simp only []
    have := ssatLoop_spec io dev sat hwf.int_max hwf.lt count tableFuel id 0 [] count hid (by omega)
    simp only [List.length_nil, Nat.zero_add, padTo_nil, List.nil_append] at this
    exact this
  · exfalso
    rw [tableSize_eq hc] at hz
    rw [hz] at he
    rw [show toInt32 0 = 0 by decide] at he
    exact absurd he (by decide)

theorem replicate_WF {n : Nat} (h : n ≤ 2 ^ 25) : (⟨List.replicate n 0⟩ : AllocTable).WF :=
  ⟨by simpa [AllocTable.n] using h, fun v hv => by
    rw [List.mem_replicate] at hv; omega⟩

theorem tableSize_le (count entries : Nat) : tableSize count entries ≤ 2 ^ 25 := by
  unfold tableSize; split <;> omega

/-- Safety of reading the short sector table, for any number of sectors. -/
theorem readSsat_safe (io : IoHandle) (dev : Dev) (sat : AllocTable) (id count : Nat)
    (h0 : 0 < io.sectorSize) (hm : io.sectorSize ≤ MAX_ALLOC) (hwf : sat.WF)
    (hid : id < 2 ^ 32) :
    (∃ t', (readSsat io dev sat ⟨[]⟩ id count).res = .ok t' ∧
      t'.n = tableSize count (io.sectorSize / 4) ∧ t'.WF) ∧
    (readSsat io dev sat ⟨[]⟩ id count).reads.length ≤ min 257 count := by
  unfold readSsat
  rw [if_neg (by omega)]
  simp only []
  rcases sizeEmpty count (io.sectorSize / 4) with ⟨t, ht, rfl⟩ | ⟨he, hz⟩
  · rw [ht]
    have := ssatLoop_safe io dev sat hwf count tableFuel id 0 0
      ⟨List.replicate (tableSize count (io.sectorSize / 4)) 0⟩ hid
      (replicate_WF (tableSize_le _ _)) (Nat.zero_le _)
    simpa [AllocTable.n, tableFuel, maxTableDepth] using this
  · rw [he, hz]
    exact ⟨⟨⟨[]⟩, rfl, rfl, replicate_WF (n := 0) (by omega)⟩, by simp⟩

theorem padTo_WF {n : Nat} {l : List Nat} (hn : n ≤ 2 ^ 25) (hl : l.length ≤ n)
    (h : ∀ v ∈ l, v < 2 ^ 32) : (⟨padTo n l⟩ : AllocTable).WF := by
  refine ⟨?_, ?_⟩
  · show (padTo n l).length ≤ _
    rw [padTo_length hl]; exact hn
  · intro v hv
    simp only [padTo, List.mem_append, List.mem_replicate] at hv
    rcases hv with hv | hv
    · exact h v hv
    · omega

theorem readable_length_le (dev : Dev) (ss : Nat) (ids : List Nat) :
    (readable dev ss ids).length ≤ ids.length := by
  induction ids with
  | nil => simp [readable]
  | cons a ids ih => rw [readable]; split <;> simp; omega

theorem readable_sector {dev : Dev} {ss : Nat} {ids : List Nat} :
    ∀ s ∈ readable dev ss ids, s.length = ss := by
  induction ids with
  | nil => simp [readable]
  | cons a ids ih =>
    rw [readable]
    split
    · next s hs =>
      intro s' hs'
      rcases List.mem_cons.1 hs' with rfl | h
      · exact sector_length hs
      · exact ih s' h
    · simp

theorem flatMap_words_length {e : Endian} {ss : Nat} {secs : List Bytes}
    (h : ∀ s ∈ secs, s.length = ss) :
    (secs.flatMap (words e)).length = secs.length * (ss / 4) := by
  induction secs with
  | nil => simp
  | cons s secs ih =>
    rw [List.flatMap_cons, List.length_append, words_length, h s (by simp),
      ih fun s' hs' => h s' (by simp [hs']), List.length_cons, Nat.add_mul, Nat.one_mul,
      Nat.add_comm]

theorem flatMap_words_lt {e : Endian} {secs : List Bytes} :
    ∀ v ∈ secs.flatMap (words e), v < 2 ^ 32 := by
  intro v hv
  rw [List.mem_flatMap] at hv
  obtain ⟨s, _, hv⟩ := hv
  exact words_lt _ _ v hv

/-- Safety of reading the sector table. -/
theorem readSat_safe (io : IoHandle) (dev : Dev) (msat : AllocTable) (count k : Nat)
    (hk : k ≤ 15) (hs : io.sectorSize = 2 ^ k) (hids : ∀ v ∈ msat.ids, v < 2 ^ 32) :
    ∃ t', (readSat io dev msat ⟨[]⟩ count).res = .ok t' ∧ t'.WF ∧
      t'.n = tableSize count (io.sectorSize / 4) := by
  have h := (readSat_eq io dev msat count k hk hs hids).1
  have hle : ((readable dev io.sectorSize ((used msat.ids).take
      (tableSize count (io.sectorSize / 4) / (io.sectorSize / 4)))).flatMap
        (words io.byteOrder)).length ≤ tableSize count (io.sectorSize / 4) := by
    rw [flatMap_words_length readable_sector]
    refine Nat.le_trans (Nat.mul_le_mul_right _ (Nat.le_trans (readable_length_le _ _ _)
      (Nat.le_trans (by rw [List.length_take]; exact Nat.min_le_left _ _) (Nat.le_refl _)))) ?_
    exact Nat.div_mul_le_self _ _
  exact ⟨_, h, padTo_WF (tableSize_le _ _) hle flatMap_words_lt, padTo_length hle⟩

end Olecf
