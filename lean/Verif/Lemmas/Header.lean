import Verif.Lemmas.Tables
import Verif.Spec.Header

namespace Olecf

open Spec

theorem prefix8_iff {d s : Bytes} (hs : s.length = 8) : s <+: d ↔ d.take 8 = s := by
  constructor
  · rintro ⟨t, rfl⟩
    rw [List.take_append_of_le_length (by omega), List.take_of_length_le (by omega)]
  · intro h
    exact ⟨d.drop 8, by rw [← h, List.take_append_drop]⟩

theorem byteAt_eq_iff {d : Bytes} {o : Nat} (h : o < d.length) (x : UInt8) :
    byteAt d o = x.toNat ↔ d[o]? = some x := by
  simp only [byteAt, List.getD, List.getElem?_eq_getElem h, Option.getD_some, Option.some.injEq]
  exact UInt8.toNat_inj

theorem bom_iff {d : Bytes} (h : 30 ≤ d.length) (a b : UInt8) :
    [a, b] <+: d.drop 28 ↔ byteAt d 28 = a.toNat ∧ byteAt d 29 = b.toNat := by
  rw [byteAt_eq_iff (by omega), byteAt_eq_iff (by omega)]
  have h1 : d.drop 28 = d[28] :: d[29] :: d.drop 30 := by
    rw [List.drop_eq_getElem_cons (by omega), List.drop_eq_getElem_cons (by omega)]
  rw [h1, List.getElem?_eq_getElem (by omega), List.getElem?_eq_getElem (by omega)]
  simp only [List.cons_prefix_cons, List.nil_prefix, and_true, Option.some.injEq]
  exact ⟨fun h => ⟨h.1.symm, h.2.symm⟩, fun h => ⟨h.1.symm, h.2.symm⟩⟩

theorem headerByteOrder_eq {d : Bytes} (h : 30 ≤ d.length) :
    headerByteOrder d =
      if byteOrderMark .little <+: d.drop 28 then .ok .little
      else if byteOrderMark .big <+: d.drop 28 then .ok .big
      else .err := by
  unfold headerByteOrder
  rw [rdByte_lt (by omega), rdByte_lt (by omega)]
  simp only [byteOrderMark, bom_iff h, Res.ok_bind, UInt8.reduceToNat]

theorem bom_unique {d : Bytes} {e e' : Endian} (h : byteOrderMark e <+: d.drop 28)
    (h' : byteOrderMark e' <+: d.drop 28) : e = e' := by
  obtain ⟨t, ht⟩ := h
  obtain ⟨t', ht'⟩ := h'
  rw [← ht] at ht'
  cases e <;> cases e' <;> simp [byteOrderMark] at ht' ⊢

theorem headerByteOrder_ok_iff {d : Bytes} (h : 30 ≤ d.length) (e : Endian) :
    headerByteOrder d = .ok e ↔ byteOrderMark e <+: d.drop 28 := by
  rw [headerByteOrder_eq h]
  constructor
  · intro h'
    split at h'
    · cases h'; assumption
    · split at h'
      · cases h'; assumption
      · cases h'
  · intro h'
    split
    · next hl => rw [bom_unique h' hl]
    · split
      · next hb => rw [bom_unique h' hb]
      · cases e <;> contradiction

/-- The master table after the header was read. -/
def headerMsat (e : Endian) (d : Bytes) (msat : AllocTable) : AllocTable :=
  ⟨wordsAt e d 76 109 ++ msat.ids.drop 109⟩

/-- The header decoded in byte order `e`. -/
def headerOf (e : Endian) (d : Bytes) : FileHeader where
  minorVersion := u16At e d 24
  majorVersion := u16At e d 26
  byteOrder := e
  sectorSize := 2 ^ u16At e d 30
  shortSectorSize := 2 ^ u16At e d 32
  satSectors := u32At e d 44
  rootDirSector := u32At e d 48
  minStreamSize := u32At e d 56
  ssatSector := u32At e d 60
  ssatSectors := u32At e d 64
  msatSector := u32At e d 68
  msatSectors := u32At e d 72

theorem resize109 (t : AllocTable) :
    (if t.n < 109 then t.resize 109 else .ok t) =
      .ok (⟨t.ids ++ List.replicate (109 - t.n) 0⟩ : AllocTable) := by
  by_cases h : t.n < 109
  · rw [if_pos h]
    unfold AllocTable.resize
    rw [if_neg (by simp [AllocTable.maxIds, MAX_ALLOC]), if_pos (by omega)]
    rfl
  · rw [if_neg h]
    have : 109 - t.n = 0 := by omega
    rw [this]; simp

theorem headerReadData_bom {d : Bytes} {e : Endian} (msat : AllocTable)
    (hl : 512 ≤ d.length) (hm : d.length ≤ SSIZE_MAX)
    (hs : signature <+: d ∨ signatureBeta <+: d)
    (he : byteOrderMark e <+: d.drop 28) :
    headerReadData d msat =
      if u16At e d 30 ≤ 15 ∧ u16At e d 32 ≤ 15 then .ok (headerOf e d, headerMsat e d msat)
      else .err := by
  unfold headerReadData
  rw [if_neg (by omega), if_neg (by omega)]
  rw [prefix8_iff rfl, prefix8_iff rfl] at hs
  rw [if_neg (by simp only [fileSignature, betaFileSignature, signature, signatureBeta] at *
                 rcases hs with h | h <;> simp [h])]
  rw [(headerByteOrder_ok_iff (by omega) e).2 he]
  simp only [Res.ok_bind, rd16_ok e (show 24 + 2 ≤ d.length by omega),
    rd16_ok e (show 26 + 2 ≤ d.length by omega), rd16_ok e (show 30 + 2 ≤ d.length by omega),
    rd16_ok e (show 32 + 2 ≤ d.length by omega), rd32_ok e (show 44 + 4 ≤ d.length by omega),
    rd32_ok e (show 48 + 4 ≤ d.length by omega), rd32_ok e (show 56 + 4 ≤ d.length by omega),
    rd32_ok e (show 60 + 4 ≤ d.length by omega), rd32_ok e (show 64 + 4 ≤ d.length by omega),
    rd32_ok e (show 68 + 4 ≤ d.length by omega), rd32_ok e (show 72 + 4 ≤ d.length by omega)]
  by_cases h1 : u16At e d 30 ≤ 15
  · rw [if_neg (by omega)]
    by_cases h2 : u16At e d 32 ≤ 15
    · rw [if_neg (by omega), resize109, if_pos ⟨h1, h2⟩]
      simp only [Res.ok_bind, headerMsatLoop_eq]
      rw [fillUnchecked_ok _ _ _ _ _ _ (by omega)
        (by simp only [AllocTable.n, List.length_append, List.length_replicate]; omega)]
      simp only [Res.ok_bind]
      congr 2
      simp only [headerMsat, overwrite, List.take_zero, List.nil_append, wordsAt_length,
        Nat.zero_add]
      congr 2
      rw [List.drop_append]
      by_cases hn : msat.ids.length ≤ 109
      · rw [List.drop_of_length_le hn, List.nil_append]
        simp [AllocTable.n]
      · simp only [AllocTable.n]
        rw [show 109 - msat.ids.length = 0 by omega]; simp
    · rw [if_pos (by omega), if_neg (by omega)]
  · rw [if_pos (by omega), if_neg (by omega)]

theorem headerReadData_err {d : Bytes} (msat : AllocTable)
    (h : ¬ (512 ≤ d.length ∧ d.length ≤ SSIZE_MAX ∧ (signature <+: d ∨ signatureBeta <+: d) ∧
      ∃ e, byteOrderMark e <+: d.drop 28)) : headerReadData d msat = .err := by
  unfold headerReadData
  split
  · rfl
  · split
    · rfl
    · rename_i h1 h2
      split
      · rfl
      · rename_i h3
        have hs : signature <+: d ∨ signatureBeta <+: d := by
          rw [prefix8_iff rfl, prefix8_iff rfl]
          by_cases h4 : d.take 8 = fileSignature
          · exact Or.inl h4
          · by_cases h5 : d.take 8 = betaFileSignature
            · exact Or.inr h5
            · exact absurd ⟨h4, h5⟩ h3
        have : headerByteOrder d = .err := by
          rw [headerByteOrder_eq (by omega)]
          split
          · next hl => exact absurd ⟨by omega, by omega, hs, _, hl⟩ h
          · split
            · next hb => exact absurd ⟨by omega, by omega, hs, _, hb⟩ h
            · rfl
        rw [this]
        rfl

end Olecf
