import Verif.Spec.Py
import Verif.Lemmas.Bytes

/-
  Lemmas about the bytes of integers.
-/

namespace Olecf.Lemmas
open Olecf Olecf.Spec

/-- The number with the given bytes, least significant first. -/
def leVal : Bytes → Nat
  | [] => 0
  | b :: l => b.toNat + 256 * leVal l

theorem leVal_lt (b : Bytes) : leVal b < 256 ^ b.length := by
  induction b with
  | nil => exact Nat.one_pos
  | cons x l ih =>
    have := x.toNat_lt
    simp only [leVal, List.length_cons, Nat.pow_succ]
    omega

theorem leVal_inj {a : Bytes} : ∀ {b : Bytes}, a.length = b.length → leVal a = leVal b → a = b := by
  induction a with
  | nil => intro b h _; cases b with
    | nil => rfl
    | cons _ _ => cases h
  | cons x l ih =>
    intro b h hv
    cases b with
    | nil => cases h
    | cons y m =>
      have hx := x.toNat_lt
      have hy := y.toNat_lt
      simp only [leVal] at hv
      have h1 : x.toNat = y.toNat := by omega
      have h2 : leVal l = leVal m := by omega
      rw [UInt8.toNat_inj.1 h1, ih (by simpa using h) h2]

theorem leBytes_length (n : Nat) : ∀ z, (leBytes n z).length = n := by
  induction n with
  | zero => intro z; rfl
  | succ n ih => intro z; simp [leBytes, ih]

theorem emod_split (z P : Int) (hP : 0 < P) : z % 256 + 256 * (z / 256 % P) = z % (256 * P) := by
  have h1 := Int.emod_add_mul_ediv z 256
  have h2 := Int.emod_add_mul_ediv (z / 256) P
  have h4 := Int.emod_nonneg (z / 256) (by omega : P ≠ 0)
  have h5 := Int.emod_lt_of_pos (z / 256) hP
  have h3 : (z % 256 + 256 * (z / 256 % P)) + (256 * P) * (z / 256 / P) = z := by
    rw [Int.mul_assoc]; omega
  have h6 := Int.add_mul_emod_self_left (z % 256 + 256 * (z / 256 % P)) (256 * P) (z / 256 / P)
  rw [h3] at h6
  rw [h6]
  exact (Int.emod_eq_of_lt (by omega) (by omega)).symm

theorem leVal_leBytes (n : Nat) : ∀ z : Int, (leVal (leBytes n z) : Int) = z % 256 ^ n := by
  induction n with
  | zero => intro z; simp [leBytes, leVal, Int.emod_one]
  | succ n ih =>
    intro z
    have h0 : 0 ≤ z % 256 := Int.emod_nonneg _ (by decide)
    have h1 : z % 256 < 256 := Int.emod_lt_of_pos _ (by decide)
    have hb : (UInt8.ofNat (z % 256).toNat).toNat = (z % 256).toNat := by
      rw [UInt8.toNat_ofNat']
      omega
    simp only [leBytes, leVal]
    rw [hb, Int.natCast_add, Int.natCast_mul, ih, Int.toNat_of_nonneg h0, Int.pow_succ,
      Int.mul_comm (256 ^ n) 256]
    exact emod_split z _ (Int.pow_pos (by decide))

/-- The bytes of a value in the order of their weights. -/
def orient (e : Endian) (b : Bytes) : Bytes :=
  match e with
  | .little => b
  | .big => b.reverse

theorem integerBytes_iff {e : Endian} {n : Nat} {z : Int} {b : Bytes} (hb : b.length = n) :
    b = integerBytes e n z ↔ z % 256 ^ n = (leVal (orient e b) : Int) := by
  have hor : b = integerBytes e n z ↔ orient e b = leBytes n z := by
    cases e
    · rfl
    · unfold integerBytes orient
      dsimp only
      constructor
      · intro h; rw [h, List.reverse_reverse]
      · intro h; rw [← h, List.reverse_reverse]
  have hl : (orient e b).length = n := by
    cases e <;> simp [orient, hb]
  rw [hor, ← leVal_leBytes]
  constructor
  · intro h; rw [h]
  · intro h
    exact leVal_inj (by rw [hl, leBytes_length]) (Int.ofNat.inj h.symm)

theorem u16_leVal (e : Endian) {b : Bytes} (hb : b.length = 2) :
    u16At e b 0 = leVal (orient e b) := by
  match b, hb with
  | [x, y], _ => cases e <;> simp [u16At, byteAt, orient, leVal] <;> omega

theorem u32_leVal (e : Endian) {b : Bytes} (hb : b.length = 4) :
    u32At e b 0 = leVal (orient e b) := by
  match b, hb with
  | [x, y, z, u], _ => cases e <;> simp [u32At, byteAt, orient, leVal] <;> omega

theorem u64_leVal (e : Endian) {b : Bytes} (hb : b.length = 8) :
    u64At e b 0 = leVal (orient e b) := by
  match b, hb with
  | [x, y, z, u, p, q, r, s], _ => cases e <;> simp [u64At, u32At, byteAt, orient, leVal] <;> omega

theorem signed_iff {bits m : Nat} (h1 : m = 2 ^ bits) (hb : 0 < bits) {v : Nat} (hv : v < m) {z : Int} :
    z = toSigned bits v ↔ (-(2 ^ (bits - 1)) ≤ z ∧ z < 2 ^ (bits - 1)) ∧ z % (m : Int) = v := by
  subst h1
  obtain ⟨k, rfl⟩ : ∃ k, bits = k + 1 := ⟨bits - 1, by omega⟩
  unfold toSigned
  rw [Nat.mod_eq_of_lt hv, Nat.add_sub_cancel]
  have hpow : (2 : Int) ^ (k + 1) = 2 * 2 ^ k := by rw [Int.pow_succ]; omega
  have hpn : 2 ^ (k + 1) = 2 * 2 ^ k := by rw [Nat.pow_succ]; omega
  have hc : ((2 ^ k : Nat) : Int) = 2 ^ k := by simp
  have hc' : ((2 ^ (k + 1) : Nat) : Int) = 2 ^ (k + 1) := by simp
  rw [hc', hpow]
  generalize hP : (2 : Int) ^ k = P at *
  rw [hpn] at hv
  constructor
  · intro hz
    split at hz
    · subst hz
      refine ⟨by omega, Int.emod_eq_of_lt (by omega) (by omega)⟩
    · subst hz
      refine ⟨by omega, ?_⟩
      rw [Int.sub_emod_right]
      exact Int.emod_eq_of_lt (by omega) (by omega)
  · rintro ⟨⟨ha, hb'⟩, hm⟩
    by_cases hz : 0 ≤ z
    · rw [Int.emod_eq_of_lt hz (by omega)] at hm
      rw [if_pos (by omega)]; exact hm
    · have : z % (2 * P) = z + 2 * P := by
        rw [← Int.add_emod_right]
        exact Int.emod_eq_of_lt (by omega) (by omega)
      rw [this] at hm
      rw [if_neg (by omega)]
      omega

theorem unsigned_iff {m : Nat} {v : Nat} (hv : v < m) {z : Int} :
    z = (v : Int) ↔ (0 ≤ z ∧ z < (m : Int)) ∧ z % (m : Int) = v := by
  constructor
  · rintro rfl
    exact ⟨by omega, Int.emod_eq_of_lt (by omega) (by omega)⟩
  · rintro ⟨⟨h1, h2⟩, h3⟩
    rwa [Int.emod_eq_of_lt h1 h2] at h3

end Olecf.Lemmas
