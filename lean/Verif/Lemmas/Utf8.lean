import Verif.Spec.Mount

/-
  The UTF-8 encoding of Lean's library meets what is assumed of libuna.
-/

namespace Olecf

open Spec

/-- UTF-8 as defined by Lean's library. -/
def libUtf8 : Codec where
  sep := 0x5c
  step s := match s.toByteArray.utf8DecodeChar? 0 with
    | some ch => some (ch.toNat, ch.utf8Size)
    | none => none
  enc c := if c.isValidChar then some (String.utf8EncodeChar (Char.ofNat c)) else none

theorem scalar_valid {c : Nat} (h : Scalar c) : c.isValidChar := by
  unfold Scalar at h
  unfold Nat.isValidChar
  omega

theorem ofNat_toNat {c : Nat} (h : c.isValidChar) : (Char.ofNat c).toNat = c := by
  unfold Char.ofNat
  rw [dif_pos h]
  rfl

theorem encode_ascii {c : Nat} (h : c < 0x80) :
    String.utf8EncodeChar (Char.ofNat c) = [UInt8.ofNat c] := by
  have hv : c.isValidChar := .inl (by omega)
  have hn : (Char.ofNat c).val.toNat = c := ofNat_toNat hv
  unfold String.utf8EncodeChar
  simp only [hn]
  rw [if_pos (by omega)]

theorem encode_high {c : Nat} (hv : c.isValidChar) (h : 0x80 ≤ c) :
    ∀ b ∈ String.utf8EncodeChar (Char.ofNat c), 0x80 ≤ b.toNat := by
  have hn : (Char.ofNat c).val.toNat = c := ofNat_toNat hv
  unfold String.utf8EncodeChar
  simp only [hn]
  rw [if_neg (by omega)]
  have key : ∀ x, 0x80 ≤ x → x < 0x100 → 0x80 ≤ (UInt8.ofNat x).toNat := by
    intro x h1 h2; rw [UInt8.toNat_ofNat']; omega
  unfold Nat.isValidChar at hv
  split
  · intro b hb
    simp only [List.mem_cons, List.not_mem_nil, or_false] at hb
    rcases hb with rfl | rfl <;> exact key _ (by omega) (by omega)
  · split
    · intro b hb
      simp only [List.mem_cons, List.not_mem_nil, or_false] at hb
      rcases hb with rfl | rfl | rfl <;> exact key _ (by omega) (by omega)
    · intro b hb
      simp only [List.mem_cons, List.not_mem_nil, or_false] at hb
      rcases hb with rfl | rfl | rfl | rfl <;> exact key _ (by omega) (by omega)

theorem libUtf8_isUtf8 : IsUtf8 libUtf8 where
  sep := rfl
  ascii_enc c hc := by
    have hv : c.isValidChar := .inl (by omega)
    show (if c.isValidChar then _ else _) = _
    rw [if_pos hv, encode_ascii hc]
  enc_size c hc := by
    refine ⟨_, if_pos (scalar_valid hc), ?_, ?_⟩
    · intro h
      have := congrArg List.length h
      rw [String.length_utf8EncodeChar] at this
      have := (Char.ofNat c).utf8Size_pos
      simp at *
    · rw [String.length_utf8EncodeChar]; exact Char.utf8Size_le_four _
  enc_high c u hc h hu := by
    have hv := scalar_valid hc
    change (if c.isValidChar then _ else _) = _ at hu
    rw [if_pos hv] at hu
    cases hu
    exact encode_high hv h
  dec_enc c u rest hc hu := by
    have hv := scalar_valid hc
    change (if c.isValidChar then _ else _) = _ at hu
    rw [if_pos hv] at hu
    cases hu
    show (match (_ ++ rest).toByteArray.utf8DecodeChar? 0 with
      | some ch => some (ch.toNat, ch.utf8Size) | none => none) = _
    rw [List.toByteArray_append, ByteArray.utf8DecodeChar?_utf8EncodeChar_append]
    simp only [ofNat_toNat hv, String.length_utf8EncodeChar]

end Olecf
