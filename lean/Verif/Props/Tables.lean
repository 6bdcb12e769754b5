import Verif.Lemmas.Readers

/-
  Loading the master table, the sector table and the short sector table (C06 to C11, C49).

  The readers are run as `libolecf_internal_file_open_read` runs them: a master table of
  109 entries, empty sector tables, a sector size of 2^k bytes.
-/

namespace Olecf.Props
open Olecf Olecf.Spec

/-- The bytes of a file of 64 bytes that is all 0x07. -/
def flatDev : Dev := Dev.ofBytes (List.replicate 64 7)

def io16 : IoHandle :=
  { majorVersion := 3, minorVersion := 62, sectorSize := 16, shortSectorSize := 64,
    minStreamSize := 4096, byteOrder := .little, shortStreamStart := 0, codepage := 1252 }

/-- A device without end of which all bytes are 1. -/
def onesDev : Dev := ⟨fun _ n => some (List.replicate n 1), by
  intro o n b h; cases h; simp⟩

/-! ### C06: no access out of bounds -/

/-- Whatever the device delivers and whatever the header says, loading the three tables
  ends in success or error: no store outside of the table arrays, no load outside of the
  sector buffer (both would be the outcome `ub`). -/
theorem C06_no_out_of_bounds (io : IoHandle) (dev : Dev) (hdr : List Nat)
    (msatId msatCount satCount ssatId ssatCount k : Nat)
    (hk : k ≤ 15) (hs : io.sectorSize = 2 ^ k)
    (hl : hdr.length = 109) (hv : ∀ v ∈ hdr, v < 2 ^ 32)
    (hm : msatId < 2 ^ 32) (hss : ssatId < 2 ^ 32) :
    let msat := (readMsat io dev ⟨hdr⟩ msatId msatCount).res
    (msat = .err ∨ ∃ t, msat = .ok t ∧
      ∃ sat, (readSat io dev t ⟨[]⟩ satCount).res = .ok sat ∧
      ∃ ssat, (readSsat io dev sat ⟨[]⟩ ssatId ssatCount).res = .ok ssat) := by
  have h1 : 0 < 2 ^ k := Nat.pow_pos (by omega)
  have h2 : 2 ^ k ≤ 2 ^ 15 := Nat.pow_le_pow_right (by omega) hk
  have hwf : (⟨hdr⟩ : AllocTable).WF := ⟨by simp [AllocTable.n, hl], hv⟩
  rcases (readMsat_safe io dev ⟨hdr⟩ msatId msatCount hm hwf).1 with h | ⟨t, h, hw, _⟩
  · exact Or.inl h
  · refine Or.inr ⟨t, h, ?_⟩
    obtain ⟨sat, hsat, hsw, _⟩ := readSat_safe io dev t satCount k hk hs hw.lt
    refine ⟨sat, hsat, ?_⟩
    obtain ⟨⟨ssat, hx, _⟩, _⟩ := readSsat_safe io dev sat ssatId ssatCount (by omega)
      (by unfold MAX_ALLOC; omega) hsw hss
    exact ⟨ssat, hx⟩

/-- The stores of the sector table loop are unchecked: they are safe only because the table
  is sized in whole sectors.  With a table that is not, the same loop writes out of
  bounds. -/
theorem C06_sat_size_is_needed :
    (satLoop io16 flatDev 4 [0] 0 ⟨List.replicate 3 0⟩).res = .ub := by
  decide +kernel

/-! ### C07: bounded number of reads -/

theorem C07_bounded_reads (io : IoHandle) (dev : Dev) (msat sat : AllocTable)
    (msatId msatCount satCount ssatId ssatCount k : Nat)
    (hk : k ≤ 15) (hs : io.sectorSize = 2 ^ k)
    (hmw : msat.WF) (hsw : sat.WF) (hm : msatId < 2 ^ 32) (hss : ssatId < 2 ^ 32) :
    (readMsat io dev msat msatId msatCount).reads.length ≤ 257 ∧
    (readSat io dev msat ⟨[]⟩ satCount).reads.length
      ≤ (msat.ids.filter (· ≠ 0xffffffff)).length ∧
    (readSsat io dev sat ⟨[]⟩ ssatId ssatCount).reads.length ≤ min 257 ssatCount := by
  have h1 : 0 < 2 ^ k := Nat.pow_pos (by omega)
  have h2 : 2 ^ k ≤ 2 ^ 15 := Nat.pow_le_pow_right (by omega) hk
  refine ⟨(readMsat_safe io dev msat msatId msatCount hm hmw).2, ?_, ?_⟩
  · exact Nat.le_trans (readSat_eq io dev msat satCount k hk hs hmw.lt).2 (Nat.min_le_left _ _)
  · exact (readSsat_safe io dev sat ssatId ssatCount (by omega) (by unfold MAX_ALLOC; omega)
      hsw hss).2

/-- The bound is attained: a master table sector that links to itself is read 257 times
  (when the header declares that many sectors), then reported as an error. -/
example : (readMsat { io16 with sectorSize := 8 } onesDev
    ⟨List.replicate 109 0⟩ 0x01010101 400).reads.length = 257 ∧
    (readMsat { io16 with sectorSize := 8 } onesDev
    ⟨List.replicate 109 0⟩ 0x01010101 400).res = .err := by
  decide +kernel

/-! ### C08: master table -/

theorem msatSectors_chain {dev : Dev} {e : Endian} {ss a : Nat} {secs : List Bytes}
    (h : MsatSectors dev e ss a secs) :
    ∀ n, secs.length ≤ n → msatChain dev e ss n a = some (secs, 0xfffffffe) := by
  induction h with
  | done => intro n _; cases n <;> simp [msatChain]
  | step hne hs _ ih =>
    intro n hn
    cases n with
    | zero => simp at hn
    | succ n =>
      rw [msatChain, if_neg hne, hs]
      simp only []
      rw [ih n (by simpa using hn)]

/-- The outcome for every device and every declared number of sectors. -/
theorem C08_msat_outcome (io : IoHandle) (dev : Dev) (hdr : List Nat) (id count : Nat)
    (hl : hdr.length = 109) (h8 : 8 ≤ io.sectorSize) (hmax : io.sectorSize ≤ 128 * 1024 * 1024)
    (hid : id < 2 ^ 32) (hne : id ≠ 0xfffffffe) (hc : 1 ≤ count)
    (hsz : 109 + count * (io.sectorSize / 4 - 1) ≤ 2 ^ 25) :
    (readMsat io dev ⟨hdr⟩ id count).res =
      match msatChain dev io.byteOrder io.sectorSize (min 257 count) id with
      | none => .err
      | some (secs, b) =>
        if b = 0xfffffffe ∨ count < 257 then
          .ok ⟨padTo (109 + count * (io.sectorSize / 4 - 1))
            (hdr ++ secs.flatMap (msatEntries io.byteOrder))⟩
        else .err := by
  have hn : (⟨hdr⟩ : AllocTable).n = 109 := hl
  have hmx : AllocTable.maxIds = 2 ^ 25 := by decide
  have hc0 : ¬ count = 0 := by omega
  have hee : ¬ id = EOC := by simpa [EOC] using hne
  have hpos : 0 < count * (io.sectorSize / 4 - 1) := Nat.mul_pos (by omega) (by omega)
  unfold readMsat
  rw [if_neg (by unfold MAX_ALLOC; omega), hn, if_neg (by omega), if_neg (by simp [hc0]),
    if_neg hee]
  simp only []
  rw [if_neg (show ¬ io.sectorSize / 4 = 0 by omega), if_neg hc0,
    toInt32_small (by omega), if_pos (by omega), AllocTable.resize,
    if_neg (by rw [hmx]; omega), if_pos (by rw [hn]; omega)]
  have hp : hdr ++ List.replicate ((109 + count * (io.sectorSize / 4 - 1)) - 109) 0 =
      padTo (hdr.length + count * (io.sectorSize / 4 - 1)) hdr := by
    rw [padTo, hl]
  have := msatLoop_spec io dev (entries := io.sectorSize / 4 - 1) (by omega) (by omega)
    tableFuel id count hdr hid
  rw [hl] at this
  simp only [hn, Int.toNat_natCast]
  rw [hp, hl, this]
  rfl

/-- A readable chain of at most 257 sectors, not longer than declared: the table is the 109
  entries of the header followed by the entries of the sectors in chain order. -/
theorem C08_msat_exact (io : IoHandle) (dev : Dev) (hdr : List Nat) (id count : Nat)
    (secs : List Bytes)
    (hl : hdr.length = 109) (h8 : 8 ≤ io.sectorSize) (hmax : io.sectorSize ≤ 128 * 1024 * 1024)
    (hid : id < 2 ^ 32) (hne : id ≠ 0xfffffffe) (hc : 1 ≤ count)
    (hsz : 109 + count * (io.sectorSize / 4 - 1) ≤ 2 ^ 25)
    (hch : MsatSectors dev io.byteOrder io.sectorSize id secs)
    (h257 : secs.length ≤ 257) (hlen : secs.length = count) :
    (readMsat io dev ⟨hdr⟩ id count).res =
      .ok ⟨hdr ++ secs.flatMap (msatEntries io.byteOrder)⟩ := by
  have hmap : (hdr ++ secs.flatMap (msatEntries io.byteOrder)).length =
      109 + count * (io.sectorSize / 4 - 1) := by
    rw [List.length_append, hl, ← hlen]
    congr 1
    clear hlen h257 hne hid
    induction hch with
    | done => simp
    | step _ hs _ ih =>
      rw [List.flatMap_cons, List.length_append, ih, msatEntries_length
        (k := io.sectorSize / 4 - 1) (by rw [sector_length hs]; omega),
        List.length_cons, Nat.add_mul, Nat.one_mul, Nat.add_comm]
  rw [C08_msat_outcome io dev hdr id count hl h8 hmax hid hne hc hsz,
    msatSectors_chain hch (min 257 count) (by omega)]
  simp only [true_or, if_true]
  rw [padTo, hmap, Nat.sub_self, List.replicate_zero, List.append_nil]

/-- Without extra sectors the table is that of the header; a missing first sector with
  extra sectors declared is an error; a first sector with no sectors declared is read as
  one sector. -/
theorem C08_msat_header_only (io : IoHandle) (dev : Dev) (hdr : List Nat) (count : Nat)
    (hl : hdr.length = 109) (h0 : 0 < io.sectorSize) (hmax : io.sectorSize ≤ 128 * 1024 * 1024) :
    (readMsat io dev ⟨hdr⟩ 0xfffffffe 0).res = .ok ⟨hdr⟩ ∧
    (1 ≤ count → (readMsat io dev ⟨hdr⟩ 0xfffffffe count).res = .err) ∧
    (∀ id, id ≠ 0xfffffffe → readMsat io dev ⟨hdr⟩ id 0 = readMsat io dev ⟨hdr⟩ id 1) := by
  have hn : (⟨hdr⟩ : AllocTable).n = 109 := hl
  refine ⟨?_, ?_, ?_⟩
  · unfold readMsat
    rw [if_neg (by unfold MAX_ALLOC; omega), hn, if_neg (by omega), if_pos ⟨rfl, rfl⟩]; rfl
  · intro hc
    unfold readMsat
    rw [if_neg (by unfold MAX_ALLOC; omega), hn, if_neg (by omega),
      if_neg (by rintro ⟨_, h⟩; omega), if_pos (show (0xfffffffe : Nat) = EOC from rfl)]; rfl
  · intro id hne
    have hee : ¬ id = EOC := by simpa [EOC] using hne
    unfold readMsat
    simp [hee]

/-- A declared number of sectors that needs more than 2^25 entries (and does not wrap in 32
  bits) is rejected. -/
theorem C08_msat_too_big (io : IoHandle) (dev : Dev) (hdr : List Nat) (id count : Nat)
    (hl : hdr.length = 109) (h4 : 4 ≤ io.sectorSize) (hmax : io.sectorSize ≤ 128 * 1024 * 1024)
    (hne : id ≠ 0xfffffffe) (hc : 1 ≤ count)
    (hsz : 2 ^ 25 < 109 + count * (io.sectorSize / 4 - 1))
    (hwrap : 109 + count * (io.sectorSize / 4 - 1) < 2 ^ 31) :
    (readMsat io dev ⟨hdr⟩ id count).res = .err := by
  have hn : (⟨hdr⟩ : AllocTable).n = 109 := hl
  have hmx : AllocTable.maxIds = 2 ^ 25 := by decide
  have hc0 : ¬ count = 0 := by omega
  have hee : ¬ id = EOC := by simpa [EOC] using hne
  unfold readMsat
  rw [if_neg (by unfold MAX_ALLOC; omega), hn, if_neg (by omega), if_neg (by simp [hc0]),
    if_neg hee]
  simp only []
  rw [if_neg (show ¬ io.sectorSize / 4 = 0 by omega), if_neg hc0,
    toInt32_small (by omega), if_pos (by omega), AllocTable.resize,
    if_pos (by rw [hmx]; omega)]
  rfl

/-- A chain of two sectors of 8 bytes. -/
example : MsatSectors (Dev.ofBytes ([0,0,0,0, 0,0,0,0] ++ [5,0,0,0, 1,0,0,0] ++
    [6,0,0,0, 0xfe,0xff,0xff,0xff])) .little 8 0
    [[5,0,0,0, 1,0,0,0], [6,0,0,0, 0xfe,0xff,0xff,0xff]] :=
  .step (by decide) (by decide) (.step (by decide) (by decide) .done)

/-! ### C09: sector table -/

/-- The outcome for every device: the concatenation of the sectors named by the used entries
  of the master table, in order, up to the first one that cannot be read and up to the
  declared number of sectors; zeros beyond. -/
theorem C09_sat_outcome (io : IoHandle) (dev : Dev) (msat : List Nat) (count k : Nat)
    (hk2 : 2 ≤ k) (hk : k ≤ 15) (hs : io.sectorSize = 2 ^ k) (hids : ∀ v ∈ msat, v < 2 ^ 32)
    (hsz : count * (io.sectorSize / 4) ≤ 2 ^ 25) :
    (readSat io dev ⟨msat⟩ ⟨[]⟩ count).res =
      .ok ⟨padTo (count * (io.sectorSize / 4))
        ((readable dev io.sectorSize
          ((msat.filter (· ≠ 0xffffffff)).take count)).flatMap (words io.byteOrder))⟩ := by
  have hp : 0 < io.sectorSize / 4 := by
    have : 2 ^ 2 ≤ 2 ^ k := Nat.pow_le_pow_right (by omega) hk2
    omega
  rw [(readSat_eq io dev ⟨msat⟩ count k hk hs hids).1, tableSize_eq hsz,
    Nat.mul_div_cancel _ hp]
  rfl

theorem readable_all {dev : Dev} {ss : Nat} :
    ∀ {ids : List Nat} {secs : List Bytes},
      ids.map (sector dev ss) = secs.map some → readable dev ss ids = secs := by
  intro ids
  induction ids with
  | nil =>
    intro secs h
    cases secs <;> simp_all [readable]
  | cons a ids ih =>
    intro secs h
    cases secs with
    | nil => simp at h
    | cons s secs =>
      simp only [List.map_cons, List.cons.injEq] at h
      rw [readable, h.1]
      simp only []
      rw [ih h.2]

/-- All the listed sectors can be read and there are as many as declared: the table is their
  concatenation. -/
theorem C09_sat_exact (io : IoHandle) (dev : Dev) (msat : List Nat) (secs : List Bytes)
    (count k : Nat)
    (hk2 : 2 ≤ k) (hk : k ≤ 15) (hs : io.sectorSize = 2 ^ k) (hids : ∀ v ∈ msat, v < 2 ^ 32)
    (hsz : count * (io.sectorSize / 4) ≤ 2 ^ 25)
    (hread : (msat.filter (· ≠ 0xffffffff)).map (sector dev io.sectorSize) = secs.map some)
    (hlen : secs.length = count) :
    (readSat io dev ⟨msat⟩ ⟨[]⟩ count).res = .ok ⟨secs.flatMap (words io.byteOrder)⟩ := by
  have hl : (msat.filter (· ≠ 0xffffffff)).length = count := by
    have := congrArg List.length hread
    simpa [hlen] using this
  rw [C09_sat_outcome io dev msat count k hk2 hk hs hids hsz,
    List.take_of_length_le (by omega), readable_all hread]
  have : (secs.flatMap (words io.byteOrder)).length = count * (io.sectorSize / 4) := by
    rw [flatMap_words_length (ss := io.sectorSize), hlen]
    rw [← readable_all hread]
    exact readable_sector
  rw [padTo, this, Nat.sub_self, List.replicate_zero, List.append_nil]

example : ([0, 0xffffffff, 1].filter (· ≠ 0xffffffff)).map (sector flatDev 16)
    = [List.replicate 16 7, List.replicate 16 7].map some := by decide +kernel

/-! ### C10: short sector table -/

/-- The outcome for every device: the concatenation of the sectors met from `id` along the
  sector table, up to the first one that cannot be read, the declared number of sectors, and
  257 sectors; zeros beyond. -/
theorem C10_ssat_outcome (io : IoHandle) (dev : Dev) (sat : List Nat) (id count k : Nat)
    (hk : k ≤ 15) (hs : io.sectorSize = 2 ^ k)
    (hsn : sat.length ≤ 2 ^ 25) (hids : ∀ v ∈ sat, v < 2 ^ 32) (hid : id < 2 ^ 32)
    (hsz : count * (io.sectorSize / 4) ≤ 2 ^ 25) :
    (readSsat io dev ⟨sat⟩ ⟨[]⟩ id count).res =
      .ok ⟨padTo (count * (io.sectorSize / 4))
        ((readable dev io.sectorSize (follow sat (min 257 count) id)).flatMap
          (words io.byteOrder))⟩ :=
  (readSsat_eq io dev ⟨sat⟩ id count k hk hs ⟨hsn, hids⟩ hid hsz).1

theorem follow_chain {table : List Nat} {a b : Nat} {ids : List Nat} (hlen : table.length ≤ 2 ^ 31)
    (h : Chain table a ids b) (hb : b = 0xfffffffe ∨ b = 0xffffffff) :
    ∀ n, follow table n a = ids.take n := by
  induction h with
  | nil a => intro n; cases n <;> simp [follow, hb]
  | @cons a nxt b ids ha _ ih =>
    intro n
    have : a < table.length := by
      rcases Nat.lt_or_ge a table.length with h | h
      · exact h
      · rw [List.getElem?_eq_none h] at ha; cases ha
    cases n with
    | zero => simp [follow]
    | succ n =>
      rw [follow, if_neg (by omega), ha]
      simp only [List.take_succ_cons]
      rw [ih hb]

/-- A readable chain of at most 257 sectors, as many as declared: the table is the
  concatenation of the sectors in chain order. -/
theorem C10_ssat_exact (io : IoHandle) (dev : Dev) (sat ids : List Nat) (secs : List Bytes)
    (id count k : Nat)
    (hk : k ≤ 15) (hs : io.sectorSize = 2 ^ k)
    (hsn : sat.length ≤ 2 ^ 25) (hids : ∀ v ∈ sat, v < 2 ^ 32) (hid : id < 2 ^ 32)
    (hsz : count * (io.sectorSize / 4) ≤ 2 ^ 25)
    (hch : Chain sat id ids 0xfffffffe)
    (hread : ids.map (sector dev io.sectorSize) = secs.map some)
    (hlen : secs.length = count) (h257 : count ≤ 257) :
    (readSsat io dev ⟨sat⟩ ⟨[]⟩ id count).res = .ok ⟨secs.flatMap (words io.byteOrder)⟩ := by
  have hl : ids.length = count := by
    have := congrArg List.length hread
    simpa [hlen] using this
  rw [C10_ssat_outcome io dev sat id count k hk hs hsn hids hid hsz,
    follow_chain (by omega) hch (Or.inl rfl), List.take_of_length_le (by omega),
    readable_all hread]
  have : (secs.flatMap (words io.byteOrder)).length = count * (io.sectorSize / 4) := by
    rw [flatMap_words_length (ss := io.sectorSize), hlen]
    rw [← readable_all hread]
    exact readable_sector
  rw [padTo, this, Nat.sub_self, List.replicate_zero, List.append_nil]

example : Chain [0xfffffffe, 0xfffffffe, 0] 2 [2, 0] 0xfffffffe :=
  .cons rfl (.cons rfl (.nil _))

/-! ### C49: short sector tables of more than 257 sectors (false of the code) -/

/-- The code stops after 257 sectors and reports success: for every readable chain of more
  than 257 sectors the entries from the 258th sector on are zero, whatever the file says. -/
theorem C49_ssat_truncated (io : IoHandle) (dev : Dev) (sat ids : List Nat)
    (secs : List Bytes) (id count k : Nat)
    (hk : k ≤ 15) (hs : io.sectorSize = 2 ^ k)
    (hsn : sat.length ≤ 2 ^ 25) (hids : ∀ v ∈ sat, v < 2 ^ 32) (hid : id < 2 ^ 32)
    (hsz : count * (io.sectorSize / 4) ≤ 2 ^ 25)
    (hch : Chain sat id ids 0xfffffffe)
    (hread : ids.map (sector dev io.sectorSize) = secs.map some)
    (hlen : secs.length = count) (h257 : 257 < count) :
    (readSsat io dev ⟨sat⟩ ⟨[]⟩ id count).res =
      .ok ⟨(secs.take 257).flatMap (words io.byteOrder) ++
        List.replicate ((count - 257) * (io.sectorSize / 4)) 0⟩ := by
  have hl : ids.length = count := by
    have := congrArg List.length hread
    simpa [hlen] using this
  have hr : readable dev io.sectorSize (ids.take 257) = secs.take 257 :=
    readable_all (by rw [List.map_take, hread, ← List.map_take])
  rw [C10_ssat_outcome io dev sat id count k hk hs hsn hids hid hsz,
    follow_chain (by omega) hch (Or.inl rfl), Nat.min_eq_left (by omega), hr]
  have : ((secs.take 257).flatMap (words io.byteOrder)).length = 257 * (io.sectorSize / 4) := by
    rw [flatMap_words_length (ss := io.sectorSize), List.length_take, hlen,
      Nat.min_eq_left (by omega)]
    rw [← hr]
    exact readable_sector
  rw [padTo, this, Nat.sub_mul]

/-! ### C11: unreadable table sectors (false of the code) -/

/-- The second sector of the sector table lies beyond the end of the file; loading the table
  succeeds. -/
theorem C11_violated :
    sector flatDev 16 100 = none ∧
    (readSat io16 flatDev ⟨[0, 100]⟩ ⟨[]⟩ 2).res =
      .ok ⟨[0x07070707, 0x07070707, 0x07070707, 0x07070707, 0, 0, 0, 0]⟩ := by
  decide +kernel

/-- More generally no read failure at all is reported: loading the sector table and the short
  sector table always succeeds. -/
theorem C11_never_reported (io : IoHandle) (dev : Dev) (msat sat : AllocTable)
    (satCount ssatId ssatCount k : Nat) (hk : k ≤ 15) (hs : io.sectorSize = 2 ^ k)
    (hmw : msat.WF) (hsw : sat.WF) (hss : ssatId < 2 ^ 32) :
    (∃ t, (readSat io dev msat ⟨[]⟩ satCount).res = .ok t) ∧
    (∃ t, (readSsat io dev sat ⟨[]⟩ ssatId ssatCount).res = .ok t) := by
  have h1 : 0 < 2 ^ k := Nat.pow_pos (by omega)
  have h2 : 2 ^ k ≤ 2 ^ 15 := Nat.pow_le_pow_right (by omega) hk
  obtain ⟨t, ht, _⟩ := readSat_safe io dev msat satCount k hk hs hmw.lt
  obtain ⟨⟨t', ht', _⟩, _⟩ := readSsat_safe io dev sat ssatId ssatCount (by omega)
    (by unfold MAX_ALLOC; omega) hsw hss
  exact ⟨⟨t, ht⟩, ⟨t', ht'⟩⟩

/-- `MsatUnreadable dev e ss n a`: one of the first `n` master table sectors from `a` on
  cannot be read. -/
inductive MsatUnreadable (dev : Dev) (e : Endian) (ss : Nat) : Nat → Nat → Prop
  | here {n a : Nat} : a ≠ 0xfffffffe → sector dev ss a = none →
      MsatUnreadable dev e ss (n + 1) a
  | later {n a : Nat} {s : Bytes} : a ≠ 0xfffffffe → sector dev ss a = some s →
      MsatUnreadable dev e ss n (msatLink e s) → MsatUnreadable dev e ss (n + 1) a

theorem MsatUnreadable.chain {dev : Dev} {e : Endian} {ss n a : Nat}
    (h : MsatUnreadable dev e ss n a) : msatChain dev e ss n a = none := by
  induction h with
  | here hne hs => rw [msatChain, if_neg hne, hs]
  | later hne hs _ ih => rw [msatChain, if_neg hne, hs]; simp only []; rw [ih]

/-- What does hold: a master table sector that cannot be read is reported.  Missing: the
  sector table and the short sector table (see `C11_violated`). -/
theorem C11_msat_unreadable_reported_partial (io : IoHandle) (dev : Dev) (hdr : List Nat)
    (id count : Nat)
    (hl : hdr.length = 109) (h8 : 8 ≤ io.sectorSize) (hmax : io.sectorSize ≤ 128 * 1024 * 1024)
    (hid : id < 2 ^ 32) (hne : id ≠ 0xfffffffe) (hc : 1 ≤ count)
    (hsz : 109 + count * (io.sectorSize / 4 - 1) ≤ 2 ^ 25)
    (hun : MsatUnreadable dev io.byteOrder io.sectorSize (min 257 count) id) :
    (readMsat io dev ⟨hdr⟩ id count).res = .err := by
  rw [C08_msat_outcome io dev hdr id count hl h8 hmax hid hne hc hsz, hun.chain]

example : MsatUnreadable flatDev .little 16 1 100 := .here (by decide) (by decide +kernel)

end Olecf.Props
