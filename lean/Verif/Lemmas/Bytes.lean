import Verif.Spec.Bytes

namespace Olecf

open Spec

theorem rdByte_lt {b : Bytes} {o : Nat} (h : o < b.length) : rdByte b o = .ok (byteAt b o) := by
  simp [rdByte, byteAt, List.getElem?_eq_getElem h, List.getD]

theorem rdByte_ge {b : Bytes} {o : Nat} (h : b.length ≤ o) : rdByte b o = .ub := by
  simp [rdByte, List.getElem?_eq_none h]

theorem byteAt_lt (b : Bytes) (o : Nat) : byteAt b o < 256 := by
  unfold byteAt; exact UInt8.toNat_lt _

theorem rd16_ok (e : Endian) {b : Bytes} {o : Nat} (h : o + 2 ≤ b.length) :
    rd16 e b o = .ok (u16At e b o) := by
  unfold rd16
  rw [rdByte_lt (by omega), rdByte_lt (by omega)]
  cases e <;> simp [u16At] <;> omega

theorem rd32_ok (e : Endian) {b : Bytes} {o : Nat} (h : o + 4 ≤ b.length) :
    rd32 e b o = .ok (u32At e b o) := by
  unfold rd32
  rw [rdByte_lt (by omega), rdByte_lt (by omega), rdByte_lt (by omega), rdByte_lt (by omega)]
  cases e <;> simp [u32At] <;> omega

theorem rd64_ok (e : Endian) {b : Bytes} {o : Nat} (h : o + 8 ≤ b.length) :
    rd64 e b o = .ok (u64At e b o) := by
  unfold rd64
  rw [rd32_ok e (by omega), rd32_ok e (by omega)]
  cases e <;> simp [u64At] <;> omega

theorem rd32_lt {e : Endian} {b : Bytes} {o v : Nat} (h : rd32 e b o = .ok v) : v < 2 ^ 32 := by
  by_cases hl : o + 4 ≤ b.length
  · rw [rd32_ok e hl] at h
    cases h
    have := byteAt_lt b o
    have := byteAt_lt b (o+1)
    have := byteAt_lt b (o+2)
    have := byteAt_lt b (o+3)
    cases e <;> simp only [u32At] <;> omega
  · exfalso
    have h3 : rdByte b (o+3) = .ub := rdByte_ge (by omega)
    unfold rd32 at h
    rw [h3] at h
    rcases h0 : rdByte b o <;> rw [h0] at h <;> simp at h
    rcases h1 : rdByte b (o+1) <;> rw [h1] at h <;> simp at h
    rcases h2 : rdByte b (o+2) <;> rw [h2] at h <;> simp at h

theorem u32At_lt (e : Endian) (b : Bytes) (o : Nat) : u32At e b o < 2 ^ 32 := by
  have := byteAt_lt b o
  have := byteAt_lt b (o+1)
  have := byteAt_lt b (o+2)
  have := byteAt_lt b (o+3)
  cases e <;> simp only [u32At] <;> omega

theorem u16At_lt (e : Endian) (b : Bytes) (o : Nat) : u16At e b o < 2 ^ 16 := by
  have := byteAt_lt b o
  have := byteAt_lt b (o+1)
  cases e <;> simp only [u16At] <;> omega

theorem u64At_lt (e : Endian) (b : Bytes) (o : Nat) : u64At e b o < 2 ^ 64 := by
  have := u32At_lt e b o
  have := u32At_lt e b (o+4)
  cases e <;> simp only [u64At] <;> omega

@[simp] theorem enc16_length (e : Endian) (v : Nat) : (enc16 e v).length = 2 := by
  cases e <;> rfl

@[simp] theorem enc32_length (e : Endian) (v : Nat) : (enc32 e v).length = 4 := by
  cases e <;> rfl

@[simp] theorem enc64_length (e : Endian) (v : Nat) : (enc64 e v).length = 8 := by
  cases e <;> simp [enc64]

@[simp] theorem enc32s_length (e : Endian) (vs : List Nat) :
    (enc32s e vs).length = 4 * vs.length := by
  induction vs with
  | nil => rfl
  | cons v vs ih => simp only [enc32s, List.flatMap_cons, List.length_append, enc32_length] at *
                    simp only [List.length_cons]; omega

theorem byteAt_append_left {a b : Bytes} {o : Nat} (h : o < a.length) :
    byteAt (a ++ b) o = byteAt a o := by
  simp [byteAt, List.getD, List.getElem?_append_left h]

theorem byteAt_append_right {a b : Bytes} {o : Nat} (h : a.length ≤ o) :
    byteAt (a ++ b) o = byteAt b (o - a.length) := by
  simp [byteAt, List.getD, List.getElem?_append_right h]

theorem u16At_append_right (e : Endian) {a b : Bytes} {o : Nat} (h : a.length ≤ o) :
    u16At e (a ++ b) o = u16At e b (o - a.length) := by
  have h1 : o + 1 - a.length = o - a.length + 1 := by omega
  cases e <;> simp only [u16At] <;>
    rw [byteAt_append_right (by omega), byteAt_append_right (by omega), h1]

theorem u32At_append_right (e : Endian) {a b : Bytes} {o : Nat} (h : a.length ≤ o) :
    u32At e (a ++ b) o = u32At e b (o - a.length) := by
  have h1 : o + 1 - a.length = o - a.length + 1 := by omega
  have h2 : o + 2 - a.length = o - a.length + 2 := by omega
  have h3 : o + 3 - a.length = o - a.length + 3 := by omega
  cases e <;> simp only [u32At] <;>
    rw [byteAt_append_right (by omega), byteAt_append_right (by omega),
      byteAt_append_right (by omega), byteAt_append_right (by omega), h1, h2, h3]

theorem u64At_append_right (e : Endian) {a b : Bytes} {o : Nat} (h : a.length ≤ o) :
    u64At e (a ++ b) o = u64At e b (o - a.length) := by
  have h1 : o + 4 - a.length = o - a.length + 4 := by omega
  cases e <;> simp only [u64At] <;>
    rw [u32At_append_right _ (by omega), u32At_append_right _ (by omega), h1]

theorem u16At_append_left (e : Endian) {a b : Bytes} {o : Nat} (h : o + 2 ≤ a.length) :
    u16At e (a ++ b) o = u16At e a o := by
  cases e <;> simp only [u16At] <;>
    rw [byteAt_append_left (by omega), byteAt_append_left (by omega)]

theorem u32At_append_left (e : Endian) {a b : Bytes} {o : Nat} (h : o + 4 ≤ a.length) :
    u32At e (a ++ b) o = u32At e a o := by
  cases e <;> simp only [u32At] <;>
    rw [byteAt_append_left (by omega), byteAt_append_left (by omega),
      byteAt_append_left (by omega), byteAt_append_left (by omega)]

theorem u64At_append_left (e : Endian) {a b : Bytes} {o : Nat} (h : o + 8 ≤ a.length) :
    u64At e (a ++ b) o = u64At e a o := by
  cases e <;> simp only [u64At] <;>
    rw [u32At_append_left _ (by omega), u32At_append_left _ (by omega)]

theorem u16At_enc16 (e : Endian) {v : Nat} (h : v < 2 ^ 16) : u16At e (enc16 e v) 0 = v := by
  cases e <;> simp [u16At, enc16, byteAt, List.getD] <;> omega

theorem u32At_enc32 (e : Endian) {v : Nat} (h : v < 2 ^ 32) : u32At e (enc32 e v) 0 = v := by
  cases e <;> simp [u32At, enc32, byteAt, List.getD] <;> omega

theorem u64At_enc64 (e : Endian) {v : Nat} (h : v < 2 ^ 64) : u64At e (enc64 e v) 0 = v := by
  cases e <;> simp only [u64At, enc64] <;>
  · rw [u32At_append_left _ (by simp), u32At_append_right _ (by simp)]
    simp only [enc32_length, Nat.zero_add, Nat.sub_self]
    rw [u32At_enc32 _ (by omega), u32At_enc32 _ (by omega)]
    omega

/-- Field access in a concatenation of serialised pieces. -/
theorem u16At_piece (e : Endian) (a c : Bytes) {v o : Nat} (h : v < 2 ^ 16) (ho : o = a.length) :
    u16At e (a ++ enc16 e v ++ c) o = v := by
  subst ho
  rw [List.append_assoc, u16At_append_right _ (Nat.le_refl _), Nat.sub_self,
    u16At_append_left _ (by simp), u16At_enc16 _ h]

theorem u32At_piece (e : Endian) (a c : Bytes) {v o : Nat} (h : v < 2 ^ 32) (ho : o = a.length) :
    u32At e (a ++ enc32 e v ++ c) o = v := by
  subst ho
  rw [List.append_assoc, u32At_append_right _ (Nat.le_refl _), Nat.sub_self,
    u32At_append_left _ (by simp), u32At_enc32 _ h]

theorem u64At_piece (e : Endian) (a c : Bytes) {v o : Nat} (h : v < 2 ^ 64) (ho : o = a.length) :
    u64At e (a ++ enc64 e v ++ c) o = v := by
  subst ho
  rw [List.append_assoc, u64At_append_right _ (Nat.le_refl _), Nat.sub_self,
    u64At_append_left _ (by simp), u64At_enc64 _ h]

/-- The number of bytes before piece `i` of a concatenation. -/
def offsetOf (ps : List Bytes) (i : Nat) : Nat := ((ps.take i).map List.length).sum

theorem flatten_split : ∀ (ps : List Bytes) (i : Nat) (p : Bytes), ps[i]? = some p →
    ∃ a c, ps.flatten = a ++ p ++ c ∧ a.length = offsetOf ps i
  | [], i, p, h => by simp at h
  | q :: ps, 0, p, h => by
    simp only [List.getElem?_cons_zero, Option.some.injEq] at h
    subst h
    exact ⟨[], ps.flatten, by simp, by simp [offsetOf]⟩
  | q :: ps, i + 1, p, h => by
    simp only [List.getElem?_cons_succ] at h
    obtain ⟨a, c, h1, h2⟩ := flatten_split ps i p h
    refine ⟨q ++ a, c, by simp [h1], ?_⟩
    simp only [List.length_append, h2, offsetOf, List.take_succ_cons, List.map_cons, List.sum_cons]

theorem u16At_flatten (e : Endian) (ps : List Bytes) (i v o : Nat)
    (hp : ps[i]? = some (enc16 e v)) (ho : o = offsetOf ps i) (hv : v < 2 ^ 16) :
    u16At e ps.flatten o = v := by
  obtain ⟨a, c, h1, h2⟩ := flatten_split ps i _ hp
  rw [h1]; exact u16At_piece e a c hv (ho.trans h2.symm)

theorem u32At_flatten (e : Endian) (ps : List Bytes) (i v o : Nat)
    (hp : ps[i]? = some (enc32 e v)) (ho : o = offsetOf ps i) (hv : v < 2 ^ 32) :
    u32At e ps.flatten o = v := by
  obtain ⟨a, c, h1, h2⟩ := flatten_split ps i _ hp
  rw [h1]; exact u32At_piece e a c hv (ho.trans h2.symm)

theorem u64At_flatten (e : Endian) (ps : List Bytes) (i v o : Nat)
    (hp : ps[i]? = some (enc64 e v)) (ho : o = offsetOf ps i) (hv : v < 2 ^ 64) :
    u64At e ps.flatten o = v := by
  obtain ⟨a, c, h1, h2⟩ := flatten_split ps i _ hp
  rw [h1]; exact u64At_piece e a c hv (ho.trans h2.symm)

/-- A raw piece of a concatenation is found at its offset. -/
theorem drop_take_flatten (ps : List Bytes) (i o n : Nat) (p : Bytes)
    (hp : ps[i]? = some p) (ho : o = offsetOf ps i) (hn : n = p.length) :
    (ps.flatten.drop o).take n = p := by
  obtain ⟨a, c, h1, h2⟩ := flatten_split ps i _ hp
  subst ho hn
  rw [h1, ← h2, List.append_assoc, List.drop_left, List.take_left]

theorem prefix_drop_flatten (ps : List Bytes) (i o : Nat) (p : Bytes)
    (hp : ps[i]? = some p) (ho : o = offsetOf ps i) : p <+: ps.flatten.drop o := by
  obtain ⟨a, c, h1, h2⟩ := flatten_split ps i _ hp
  subst ho
  rw [h1, ← h2, List.append_assoc, List.drop_left]
  exact List.prefix_append _ _

theorem u32At_enc32s (e : Endian) : ∀ (vs : List Nat) (i : Nat) (hi : i < vs.length),
    (∀ v ∈ vs, v < 2 ^ 32) → u32At e (enc32s e vs) (4 * i) = vs[i]
  | [], i, hi, _ => absurd hi (by simp)
  | v :: vs, 0, _, hv => by
    simp only [enc32s, List.flatMap_cons, Nat.mul_zero, List.getElem_cons_zero]
    rw [u32At_append_left _ (by simp), u32At_enc32 _ (hv v (by simp))]
  | v :: vs, i + 1, hi, hv => by
    have ih := u32At_enc32s e vs i (by simpa using hi) (fun w hw => hv w (by simp [hw]))
    simp only [enc32s, List.flatMap_cons, List.getElem_cons_succ] at *
    rw [u32At_append_right _ (by simp; omega), enc32_length]
    have : 4 * (i + 1) - 4 = 4 * i := by omega
    rw [this, ih]

@[simp] theorem words_length (e : Endian) (d : Bytes) : (words e d).length = d.length / 4 := by
  simp [words]

theorem words_getElem (e : Endian) (d : Bytes) (i : Nat) (h : i < (words e d).length) :
    (words e d)[i] = u32At e d (4 * i) := by
  simp [words]

/-- Decoding the words of a serialised sequence gives the sequence. -/
theorem words_enc32s (e : Endian) (vs : List Nat) (h : ∀ v ∈ vs, v < 2 ^ 32) :
    words e (enc32s e vs) = vs := by
  apply List.ext_getElem
  · simp
  · intro i h1 h2
    rw [words_getElem, u32At_enc32s e vs i h2 h]

theorem words_lt (e : Endian) (d : Bytes) : ∀ v ∈ words e d, v < 2 ^ 32 := by
  intro v hv
  simp only [words, List.mem_map] at hv
  obtain ⟨i, _, rfl⟩ := hv
  exact u32At_lt _ _ _

theorem Dev.get_length {d : Dev} {o n : Nat} {b : Bytes} (h : d.get o n = some b) :
    b.length = n := by
  unfold Dev.get at h
  split at h
  · split at h
    · cases h; assumption
    · cases h
  · cases h

theorem Dev.get_ofBytes (f : Bytes) (o n : Nat) (hn : 0 < n) :
    (Dev.ofBytes f).get o n = slice f o n := by
  simp only [Dev.get, Dev.ofBytes, slice, List.length_take, List.length_drop]
  by_cases h : o + n ≤ f.length
  · rw [if_pos (by omega), if_pos h]
  · rw [if_neg (by omega), if_neg h]

end Olecf
