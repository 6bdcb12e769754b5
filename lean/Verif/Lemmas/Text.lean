import Verif.Spec.Text
import Verif.Lemmas.Utf8

/-
  Encodings of strings of characters: UTF-16 can be decoded, and there is a libuna that does what is
  assumed of it.
-/

namespace Olecf

open Spec

/-! ### UTF-16 -/

/-- The first character of a UTF-16 string, and the number of its code units. -/
def step16 : List UInt16 → Option (Nat × Nat)
  | [] => none
  | a :: rest =>
    if a.toNat < 0xd800 ∨ 0xdfff < a.toNat then some (a.toNat, 1)
    else match rest with
      | [] => none
      | b :: _ =>
        if a.toNat < 0xdc00 ∧ 0xdc00 ≤ b.toNat ∧ b.toNat ≤ 0xdfff then
          some (0x10000 + (a.toNat - 0xd800) * 0x400 + (b.toNat - 0xdc00), 2)
        else none

theorem step16_encode {c : Nat} (h : Scalar c) (rest : List UInt16) :
    step16 (encode16 c ++ rest) = some (c, (encode16 c).length) := by
  unfold Scalar at h
  unfold encode16
  split
  · rename_i hc
    have hn : (UInt16.ofNat c).toNat = c := by rw [UInt16.toNat_ofNat']; omega
    simp only [List.cons_append, List.nil_append, step16, hn]
    rw [if_pos (by omega)]
    rfl
  · rename_i hc
    have h1 : (UInt16.ofNat (0xd800 + (c - 0x10000) / 0x400)).toNat = 0xd800 + (c - 0x10000) / 0x400 := by
      rw [UInt16.toNat_ofNat']; omega
    have h2 : (UInt16.ofNat (0xdc00 + (c - 0x10000) % 0x400)).toNat = 0xdc00 + (c - 0x10000) % 0x400 := by
      rw [UInt16.toNat_ofNat']; omega
    simp only [List.cons_append, List.nil_append, step16, h1, h2]
    rw [if_neg (by omega), if_pos (by omega)]
    refine congrArg some (Prod.ext ?_ rfl)
    dsimp only
    omega

theorem encode16_ne {c : Nat} : encode16 c ≠ [] := by
  unfold encode16
  split <;> simp

theorem libUtf16_isEncoding : IsEncoding (α := UInt16) ⟨0x5c, step16⟩ encode16 where
  sep := by decide
  nonempty _ _ := encode16_ne
  step _ rest h := step16_encode h rest

theorem encode8_eq {c : Nat} (h : Scalar c) : libUtf8.enc c = some (encode8 c) :=
  if_pos (scalar_valid h)

theorem libUtf8_isEncoding : IsEncoding (α := UInt8) ⟨0x5c, libUtf8.step⟩ encode8 where
  sep := by decide
  nonempty c h := by
    obtain ⟨u, h1, h2, _⟩ := libUtf8_isUtf8.enc_size c h
    rw [encode8_eq h] at h1
    cases h1
    exact h2
  step c rest h := libUtf8_isUtf8.dec_enc c _ rest h (encode8_eq h)

/-! ### Decoding strings -/

/-- All characters of a string. -/
def decodeAll (step : List α → Option (Nat × Nat)) : Nat → List α → Option (List Nat)
  | _, [] => some []
  | 0, _ => none
  | fuel + 1, s =>
    match step s with
    | none => none
    | some (c, n) => (decodeAll step fuel (s.drop n)).map (c :: ·)

theorem decodeAll_encode {dec : Decoder α} {enc : Nat → List α} (h : IsEncoding dec enc) :
    ∀ (cs : List Nat) (fuel : Nat), (∀ c ∈ cs, Scalar c) → (cs.flatMap enc).length ≤ fuel →
      decodeAll dec.step fuel (cs.flatMap enc) = some cs
  | [], fuel, _, _ => by cases fuel <;> rfl
  | c :: cs, fuel, hc, hf => by
    have hs := hc c (by simp)
    have hne := h.nonempty c hs
    have hpos : 0 < (enc c).length := List.length_pos_iff.2 hne
    rw [List.flatMap_cons, List.length_append] at hf
    match fuel, hf with
    | 0, hf => omega
    | fuel + 1, hf =>
      rw [List.flatMap_cons]
      have hcons : ∃ a l, enc c ++ cs.flatMap enc = a :: l := by
        cases hx : enc c with
        | nil => exact absurd hx hne
        | cons a l => exact ⟨a, _, rfl⟩
      obtain ⟨a, l, hal⟩ := hcons
      rw [hal, decodeAll, ← hal, h.step c _ hs]
      · dsimp only
        rw [List.drop_left, decodeAll_encode h cs fuel (fun x hx => hc x (by simp [hx])) (by omega)]
        rfl
      · simp

/-- The code units of a stream of bytes. -/
def unitsOf (e : Endian) : Bytes → List UInt16
  | a :: b :: rest =>
    (match e with
      | .little => UInt16.ofNat (a.toNat + 256 * b.toNat)
      | .big => UInt16.ofNat (b.toNat + 256 * a.toNat)) :: unitsOf e rest
  | _ => []

theorem unitsOf_bytes (e : Endian) : ∀ (us : List UInt16) (rest : Bytes),
    unitsOf e (us.flatMap (unitBytes e) ++ rest) = us ++ unitsOf e rest
  | [], rest => rfl
  | u :: us, rest => by
    have hu : u.toNat < 65536 := u.toNat_lt
    have key : ∀ x, x < 256 → (UInt8.ofNat x).toNat = x := by
      intro x hx; rw [UInt8.toNat_ofNat']; omega
    have k1 := key (u.toNat % 256) (by omega)
    have k2 := key (u.toNat / 256) (by omega)
    have hadd : u.toNat % 256 + 256 * (u.toNat / 256) = u.toNat := by omega
    cases e <;>
      · rw [List.flatMap_cons]
        simp only [unitBytes, List.cons_append, List.nil_append, unitsOf]
        rw [k1, k2, hadd, UInt16.ofNat_toNat]
        exact congrArg (u :: ·) (unitsOf_bytes _ us rest)

/-- The characters of a stored name. -/
def textOf (e : Endian) (n : Bytes) : Option (List Nat) :=
  let us := (unitsOf e n).takeWhile (· ≠ 0)
  decodeAll step16 us.length us

theorem encode16_ne_zero {c : Nat} (h : Scalar c) (h0 : c ≠ 0) : ∀ u ∈ encode16 c, u ≠ 0 := by
  unfold Scalar at h
  unfold encode16
  have key : ∀ x, x < 65536 → x ≠ 0 → UInt16.ofNat x ≠ 0 := by
    intro x hx hne heq
    have := congrArg UInt16.toNat heq
    rw [UInt16.toNat_ofNat'] at this
    simp at this
    omega
  split
  · intro u hu
    rw [List.mem_singleton.1 hu]
    exact key _ (by omega) h0
  · intro u hu
    simp only [List.mem_cons, List.not_mem_nil, or_false] at hu
    rcases hu with rfl | rfl <;> exact key _ (by omega) (by omega)

theorem takeWhile_append_zero {us : List UInt16} (h : ∀ u ∈ us, u ≠ 0) (rest : List UInt16) :
    (us ++ 0 :: rest).takeWhile (· ≠ 0) = us := by
  induction us with
  | nil => simp
  | cons u us ih =>
    have := h u (by simp)
    simp only [List.cons_append]
    rw [List.takeWhile_cons, if_pos (by simpa using this), ih fun x hx => h x (by simp [hx])]

theorem textOf_stored (e : Endian) {cs : List Nat} (h : NameText cs) :
    textOf e (storedName e cs) = some cs := by
  unfold textOf storedName
  rw [unitsOf_bytes]
  have : unitsOf e [0, 0] = [0] := by cases e <;> decide
  rw [this, takeWhile_append_zero]
  · exact decodeAll_encode libUtf16_isEncoding cs _ (fun c hc => (h.chars.2 c hc).1) (Nat.le_refl _)
  · intro u hu
    obtain ⟨c, hc, hu⟩ := List.mem_flatMap.1 hu
    exact encode16_ne_zero (h.chars.2 c hc).1 (h.chars.2 c hc).2 u hu

/-- Different strings are stored differently. -/
theorem storedName_inj {e : Endian} {a b : List Nat} (ha : NameText a) (hb : NameText b)
    (h : storedName e a = storedName e b) : a = b := by
  have := textOf_stored e ha
  rw [h, textOf_stored e hb] at this
  exact (Option.some.inj this).symm

/-! ### A libuna -/

/-- The characters of a string without the end of string character. -/
def queryOf (s : Bytes) : Option (List Nat) :=
  decodeAll libUtf8.step s.length (s.takeWhile (· ≠ 0))

theorem encode8_ne_zero {c : Nat} (h : Scalar c) (h0 : c ≠ 0) : ∀ b ∈ encode8 c, b ≠ 0 := by
  by_cases hc : c < 0x80
  · intro b hb
    unfold encode8 at hb
    rw [encode_ascii hc, List.mem_singleton] at hb
    rw [hb]
    intro heq
    have := congrArg UInt8.toNat heq
    rw [UInt8.toNat_ofNat'] at this
    simp at this
    omega
  · intro b hb hz
    have := encode_high (scalar_valid h) (by omega) b hb
    rw [hz] at this
    simp at this

theorem takeWhile_all8 {us : Bytes} (h : ∀ u ∈ us, u ≠ 0) (rest : Bytes)
    (hr : rest = [] ∨ rest = [0]) : (us ++ rest).takeWhile (· ≠ 0) = us := by
  induction us with
  | nil => rcases hr with rfl | rfl <;> simp
  | cons u us ih =>
    have := h u (by simp)
    simp only [List.cons_append]
    rw [List.takeWhile_cons, if_pos (by simpa using this), ih fun x hx => h x (by simp [hx])]

theorem queryOf_encode {cs : List Nat} (h : NameText cs) {rest : Bytes}
    (hr : rest = [] ∨ rest = [0]) : queryOf (cs.flatMap encode8 ++ rest) = some cs := by
  unfold queryOf
  rw [takeWhile_all8 _ rest hr]
  · exact decodeAll_encode libUtf8_isEncoding cs _ (fun c hc => (h.chars.2 c hc).1) (by simp)
  · intro u hu
    obtain ⟨c, hc, hu⟩ := List.mem_flatMap.1 hu
    exact encode8_ne_zero (h.chars.2 c hc).1 (h.chars.2 c hc).2 u hu

/-- Equality of two strings, when there are two. -/
def sameText (a b : Option (List Nat)) : Option Bool :=
  match a, b with
  | some a, some b => some (decide (a = b))
  | _, _ => none

/-- A libuna that decodes to compare and to copy. -/
def plainUna : Libuna where
  dec8 := ⟨0x5c, libUtf8.step⟩
  dec16 := ⟨0x5c, step16⟩
  cmp8 e s n := sameText (queryOf s) (textOf e n)
  cmp16 e s n := sameText (decodeAll step16 s.length s) (textOf e n)
  size8 e n := (textOf e n).map fun cs => (cs.flatMap encode8).length + 1
  size16 e n := (textOf e n).map fun cs => (cs.flatMap encode16).length + 1
  copy8 e n size := (textOf e n).bind fun cs =>
    if (cs.flatMap encode8).length + 1 ≤ size then some (cs.flatMap encode8 ++ [0]) else none
  copy16 e n size := (textOf e n).bind fun cs =>
    if (cs.flatMap encode16).length + 1 ≤ size then some (cs.flatMap encode16 ++ [0]) else none

theorem plainUna_isLibuna : IsLibuna plainUna where
  dec8 := libUtf8_isEncoding
  dec16 := libUtf16_isEncoding
  cmp8 e a b ha hb := by
    have h1 := queryOf_encode ha (Or.inl (rfl : ([] : Bytes) = []))
    rw [List.append_nil] at h1
    have h2 := queryOf_encode ha (Or.inr (rfl : ([0] : Bytes) = [0]))
    constructor
    · show sameText _ _ = _
      rw [h1, textOf_stored e hb]
      rfl
    · show sameText _ _ = _
      rw [h2, textOf_stored e hb]
      rfl
  cmp16 e a b ha hb := by
    show sameText _ _ = _
    have := decodeAll_encode libUtf16_isEncoding a _ (fun c hc => (ha.chars.2 c hc).1) (Nat.le_refl _)
    dsimp only at this
    rw [this, textOf_stored e hb]
    rfl
  size8 e a ha := by
    show Option.map _ _ = _
    rw [textOf_stored e ha]; rfl
  size16 e a ha := by
    show Option.map _ _ = _
    rw [textOf_stored e ha]; rfl
  copy8 e a size ha := by
    refine ⟨fun h _ => ?_, fun h => ?_⟩
    · show Option.bind _ _ = _
      rw [textOf_stored e ha]
      exact if_pos h
    · show Option.bind _ _ = _
      rw [textOf_stored e ha]
      exact if_neg (by omega)
  copy16 e a size ha := by
    refine ⟨fun h _ => ?_, fun h => ?_⟩
    · show Option.bind _ _ = _
      rw [textOf_stored e ha]
      exact if_pos h
    · show Option.bind _ _ = _
      rw [textOf_stored e ha]
      exact if_neg (by omega)

end Olecf
