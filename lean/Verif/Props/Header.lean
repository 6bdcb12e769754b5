import Verif.Lemmas.Header

/-
  C01, C02, C03: the file header.
-/

namespace Olecf.Props

open Olecf Olecf.Spec

/-! ### C01 -/

/-- C01, for any data handed to the header parser: it succeeds exactly on acceptable
  headers (of a size that fits `ssize_t`), fails with an error on everything else and
  has no other outcome. -/
theorem C01_header_data_acceptance (d : Bytes) (msat : AllocTable) :
    ((∃ h t, headerReadData d msat = .ok (h, t)) ↔ AcceptableHeader d ∧ d.length ≤ SSIZE_MAX) ∧
    (¬ (AcceptableHeader d ∧ d.length ≤ SSIZE_MAX) → headerReadData d msat = .err) := by
  by_cases hc : 512 ≤ d.length ∧ d.length ≤ SSIZE_MAX ∧ (signature <+: d ∨ signatureBeta <+: d) ∧
      ∃ e, byteOrderMark e <+: d.drop 28
  · obtain ⟨hl, hm, hs, e, he⟩ := hc
    have hacc : AcceptableHeader d ∧ d.length ≤ SSIZE_MAX ↔
        (u16At e d 30 ≤ 15 ∧ u16At e d 32 ≤ 15) := by
      constructor
      · rintro ⟨⟨_, _, e', he', h1, h2⟩, _⟩
        rw [bom_unique he he']; exact ⟨h1, h2⟩
      · exact fun h => ⟨⟨hl, hs, e, he, h⟩, hm⟩
    rw [headerReadData_bom msat hl hm hs he, hacc]
    by_cases hx : u16At e d 30 ≤ 15 ∧ u16At e d 32 ≤ 15
    · rw [if_pos hx]
      exact ⟨⟨fun _ => hx, fun _ => ⟨_, _, rfl⟩⟩, fun h => absurd hx h⟩
    · rw [if_neg hx]
      exact ⟨⟨fun ⟨_, _, h⟩ => (by cases h), fun h => absurd h hx⟩, fun _ => rfl⟩
  · rw [headerReadData_err msat hc]
    refine ⟨⟨fun ⟨_, _, h⟩ => (by cases h), ?_⟩, fun _ => rfl⟩
    rintro ⟨⟨hl, hs, e, he, _⟩, hm⟩
    exact absurd ⟨hl, hm, hs, e, he⟩ hc

/-- C01: reading the header of a device succeeds if and only if the device delivers 512
  bytes at offset 0 and they are acceptable; in every other case (short read, I/O error,
  unacceptable bytes) the outcome is an error. -/
theorem C01_header_acceptance (dev : Dev) (msat : AllocTable) :
    ((∃ h t, (headerRead dev msat).res = .ok (h, t)) ↔
      ∃ d, dev.read 0 512 = some d ∧ d.length = 512 ∧ AcceptableHeader d) ∧
    ((¬ ∃ d, dev.read 0 512 = some d ∧ d.length = 512 ∧ AcceptableHeader d) →
      (headerRead dev msat).res = .err) ∧
    (headerRead dev msat).reads = [(0, 512)] := by
  unfold headerRead Dev.get
  cases hr : dev.read 0 512 with
  | none => simp
  | some d =>
    by_cases hl : d.length = 512
    · simp only [if_pos hl, Option.some.injEq]
      have hm : d.length ≤ SSIZE_MAX := by rw [hl]; decide
      have := C01_header_data_acceptance d msat
      refine ⟨⟨fun h => ⟨d, rfl, hl, (this.1.1 h).1⟩, ?_⟩, ?_, trivial⟩
      · rintro ⟨d', rfl, _, ha⟩
        exact this.1.2 ⟨ha, hm⟩
      · intro h
        exact this.2 fun ⟨ha, _⟩ => h ⟨d, rfl, hl, ha⟩
    · simp only [if_neg hl, Option.some.injEq]
      refine ⟨⟨fun ⟨_, _, h⟩ => (by cases h), ?_⟩, fun _ => trivial, trivial⟩
      rintro ⟨d', rfl, h, _⟩
      exact absurd h hl

/-- C01 for a file given by its bytes. -/
theorem C01_file_header_acceptance (f : Bytes) (msat : AllocTable) :
    (∃ h t, (headerRead (Dev.ofBytes f) msat).res = .ok (h, t)) ↔ AcceptableHeader (f.take 512) := by
  rw [(C01_header_acceptance _ _).1]
  simp only [Dev.ofBytes, List.drop_zero, Option.some.injEq]
  constructor
  · rintro ⟨d, rfl, _, h⟩; exact h
  · intro h
    refine ⟨_, rfl, ?_, h⟩
    have h1 := h.1
    simp only [List.length_take] at h1 ⊢
    omega

/-! ### C02 -/

/-- The parse result a header with these field values must give in byte order `e`. -/
def parsedFields (e : Endian) (h : HeaderFields) : FileHeader where
  minorVersion := h.minor
  majorVersion := h.major
  byteOrder := e
  sectorSize := 2 ^ h.sectorExp
  shortSectorSize := 2 ^ h.shortExp
  satSectors := h.satSectors
  rootDirSector := h.rootDirSector
  minStreamSize := h.minStreamSize
  ssatSector := h.ssatSector
  ssatSectors := h.ssatSectors
  msatSector := h.msatSector
  msatSectors := h.msatSectors

theorem encodeHeader_length (e : Endian) (h : HeaderFields) (hf : h.Fits) :
    (encodeHeader e h).length = 512 := by
  have h1 : (if h.beta then signatureBeta else signature).length = 8 := by split <;> rfl
  have h2 : (byteOrderMark e).length = 2 := by cases e <;> rfl
  simp [encodeHeader, headerPieces, hf.classId, hf.reserved, hf.transaction, hf.msatLength, h1, h2]

/-- C02: every header serialised from field values that fit their fields is parsed back
  to exactly these values, in either byte order, and the first 109 entries of the master
  table are the ones in the header (entries the table already had beyond these stay). -/
theorem C02_header_roundtrip (e : Endian) (h : HeaderFields) (hf : h.Fits) (msat : AllocTable) :
    headerReadData (encodeHeader e h) msat =
      .ok (parsedFields e h, ⟨h.msat ++ msat.ids.drop 109⟩) := by
  have hlen := encodeHeader_length e h hf
  have hsl : (if h.beta then signatureBeta else signature).length = 8 := by split <;> rfl
  have hbl : (byteOrderMark e).length = 2 := by cases e <;> rfl
  have hoff : ∀ i ∈ List.range 17, offsetOf (headerPieces e h) i =
      ([0, 8, 24, 26, 28, 30, 32, 34, 44, 48, 52, 56, 60, 64, 68, 72, 76].getD i 0) := by
    simp [offsetOf, headerPieces, hsl, hbl, hf.classId, hf.reserved, hf.transaction, List.range,
      List.range.loop]
  have hs : signature <+: encodeHeader e h ∨ signatureBeta <+: encodeHeader e h := by
    have := prefix_drop_flatten (headerPieces e h) 0 0 _ rfl (by rw [hoff _ (by decide)]; rfl)
    rw [List.drop_zero] at this
    by_cases hb : h.beta
    · rw [if_pos hb] at this; exact Or.inr this
    · rw [if_neg hb] at this; exact Or.inl this
  have hb : byteOrderMark e <+: (encodeHeader e h).drop 28 :=
    prefix_drop_flatten (headerPieces e h) 4 28 _ rfl (by rw [hoff _ (by decide)]; rfl)
  have f16 : ∀ i v o, (headerPieces e h)[i]? = some (enc16 e v) → i ∈ List.range 17 →
      o = ([0, 8, 24, 26, 28, 30, 32, 34, 44, 48, 52, 56, 60, 64, 68, 72, 76].getD i 0) →
      v < 2 ^ 16 → u16At e (encodeHeader e h) o = v := fun i v o h1 h2 h3 h4 =>
    u16At_flatten e _ i v o h1 (h3.trans (hoff i h2).symm) h4
  have f32 : ∀ i v o, (headerPieces e h)[i]? = some (enc32 e v) → i ∈ List.range 17 →
      o = ([0, 8, 24, 26, 28, 30, 32, 34, 44, 48, 52, 56, 60, 64, 68, 72, 76].getD i 0) →
      v < 2 ^ 32 → u32At e (encodeHeader e h) o = v := fun i v o h1 h2 h3 h4 =>
    u32At_flatten e _ i v o h1 (h3.trans (hoff i h2).symm) h4
  have hse := hf.sectorExp
  have hsh := hf.shortExp
  have g24 := f16 2 h.minor 24 rfl (by decide) rfl hf.minor
  have g26 := f16 3 h.major 26 rfl (by decide) rfl hf.major
  have g30 := f16 5 h.sectorExp 30 rfl (by decide) rfl (by omega)
  have g32 := f16 6 h.shortExp 32 rfl (by decide) rfl (by omega)
  have g44 := f32 8 h.satSectors 44 rfl (by decide) rfl hf.satSectors
  have g48 := f32 9 h.rootDirSector 48 rfl (by decide) rfl hf.rootDirSector
  have g56 := f32 11 h.minStreamSize 56 rfl (by decide) rfl hf.minStreamSize
  have g60 := f32 12 h.ssatSector 60 rfl (by decide) rfl hf.ssatSector
  have g64 := f32 13 h.ssatSectors 64 rfl (by decide) rfl hf.ssatSectors
  have g68 := f32 14 h.msatSector 68 rfl (by decide) rfl hf.msatSector
  have g72 := f32 15 h.msatSectors 72 rfl (by decide) rfl hf.msatSectors
  have gm : wordsAt e (encodeHeader e h) 76 109 = h.msat := by
    obtain ⟨a, c, h1, h2⟩ := flatten_split (headerPieces e h) 16 (enc32s e h.msat) rfl
    rw [hoff _ (by decide)] at h2
    have h2 : a.length = 76 := h2
    have h3 : c = [] := by
      have : (encodeHeader e h).length = (a ++ enc32s e h.msat ++ c).length := by
        rw [encodeHeader, h1]
      simp only [hlen, List.length_append, enc32s_length, hf.msatLength, h2] at this
      exact List.length_eq_zero_iff.1 (by omega)
    rw [wordsAt_eq_map]
    apply List.ext_getElem
    · simp [hf.msatLength]
    · intro i h4 h5
      simp only [List.getElem_map, List.getElem_range]
      rw [← u32At_enc32s e h.msat i h5 hf.msat, encodeHeader, h1, h3, List.append_nil,
        u32At_append_right _ (by omega)]
      congr 1
      omega
  rw [headerReadData_bom msat (by omega) (by rw [hlen]; decide) hs hb, g30, g32,
    if_pos ⟨hf.sectorExp, hf.shortExp⟩]
  simp only [headerOf, parsedFields, headerMsat, g24, g26, g30, g32, g44, g48, g56, g60, g64, g68,
    g72, gm]

/-- C02: the two serialisations of the same values are parsed to the same header apart
  from the recorded byte order. -/
theorem C02_byte_orders_agree (h : HeaderFields) (hf : h.Fits) (msat : AllocTable) :
    ∃ hl hb t,
      headerReadData (encodeHeader .little h) msat = .ok (hl, t) ∧
      headerReadData (encodeHeader .big h) msat = .ok (hb, t) ∧
      hl.byteOrder = .little ∧ hb.byteOrder = .big ∧
      hb = { hl with byteOrder := .big } :=
  ⟨_, _, _, C02_header_roundtrip .little h hf msat, C02_header_roundtrip .big h hf msat,
    rfl, rfl, rfl⟩

/-- A typical header: 512-byte sectors, 64-byte short sectors, one table sector. -/
def sampleHeader : HeaderFields where
  beta := false
  classId := List.replicate 16 0
  minor := 0x3e
  major := 3
  sectorExp := 9
  shortExp := 6
  reserved := List.replicate 10 0
  satSectors := 1
  rootDirSector := 1
  transaction := [0, 0, 0, 0]
  minStreamSize := 4096
  ssatSector := 2
  ssatSectors := 1
  msatSector := EOC
  msatSectors := 0
  msat := 0 :: List.replicate 108 UNUSED

theorem sampleHeader_fits : sampleHeader.Fits := by
  constructor <;> first | decide | (intro v hv; simp [sampleHeader, UNUSED] at hv; omega)

/-- Non-vacuity of C02 and of the accepting side of C01. -/
example : AcceptableHeader (encodeHeader .big sampleHeader) :=
  ((C01_header_data_acceptance _ ⟨[]⟩).1.1
    ⟨_, _, C02_header_roundtrip .big sampleHeader sampleHeader_fits ⟨[]⟩⟩).1

/-- Non-vacuity of the rejecting side of C01. -/
example : ¬ AcceptableHeader (List.replicate 512 0) := by
  rintro ⟨_, h | h, _⟩ <;> exact absurd h (by decide)

/-! ### C03 -/

/-- C03: the sector sizes taken from any accepted header are powers of two between 1 and
  32768 (so never zero), and no sector offset formed with them reaches 2^63. -/
theorem C03_sector_sizes (dev : Dev) (msat : AllocTable) (h : FileHeader) (t : AllocTable)
    (hr : (headerRead dev msat).res = .ok (h, t)) :
    (∃ k, k ≤ 15 ∧ h.sectorSize = 2 ^ k) ∧ (∃ k, k ≤ 15 ∧ h.shortSectorSize = 2 ^ k) ∧
    (0 < h.sectorSize ∧ h.sectorSize ≤ 32768) ∧
    (0 < h.shortSectorSize ∧ h.shortSectorSize ≤ 32768) ∧
    ∀ id, sectorOffset id h.sectorSize + h.sectorSize < 2 ^ 63 := by
  have hp : ∀ k, k ≤ 15 → 0 < 2 ^ k ∧ 2 ^ k ≤ 32768 := by
    intro k hk
    exact ⟨Nat.pow_pos (by omega), by
      have := Nat.pow_le_pow_right (show 0 < 2 by omega) hk
      omega⟩
  have key : (∃ k, k ≤ 15 ∧ h.sectorSize = 2 ^ k) ∧ (∃ k, k ≤ 15 ∧ h.shortSectorSize = 2 ^ k) := by
    obtain ⟨d, hd, hl, ha⟩ := (C01_header_acceptance dev msat).1.1 ⟨h, t, hr⟩
    obtain ⟨_, hs, e, he, h1, h2⟩ := ha
    have hg : dev.get 0 512 = some d := by simp [Dev.get, hd, hl]
    simp only [headerRead, hg] at hr
    rw [headerReadData_bom msat (by omega) (by rw [hl]; decide) hs he, if_pos ⟨h1, h2⟩] at hr
    cases hr
    exact ⟨⟨_, h1, rfl⟩, ⟨_, h2, rfl⟩⟩
  refine ⟨key.1, key.2, ?_, ?_, ?_⟩
  · obtain ⟨k, hk, he⟩ := key.1
    rw [he]; exact hp k hk
  · obtain ⟨k, hk, he⟩ := key.2
    rw [he]; exact hp k hk
  · intro id
    obtain ⟨k, hk, he⟩ := key.1
    have h2 := (hp k hk).2
    rw [← he] at h2
    unfold sectorOffset
    have h3 : (id + 1) % 2 ^ 32 * h.sectorSize ≤ (2 ^ 32 - 1) * 32768 :=
      Nat.mul_le_mul (by have := Nat.mod_lt (id + 1) (show 0 < 2 ^ 32 by decide); omega) h2
    omega

/-- Non-vacuity of C03. -/
example : ∃ h t, (headerRead (Dev.ofBytes (encodeHeader .little sampleHeader)) ⟨[]⟩).res
    = .ok (h, t) := by
  rw [C01_file_header_acceptance, List.take_of_length_le
    (by rw [encodeHeader_length _ _ sampleHeader_fits]; omega)]
  exact ((C01_header_data_acceptance _ ⟨[]⟩).1.1
    ⟨_, _, C02_header_roundtrip .little sampleHeader sampleHeader_fits ⟨[]⟩⟩).1

end Olecf.Props
