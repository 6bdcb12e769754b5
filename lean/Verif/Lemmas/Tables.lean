import Verif.Lemmas.Bytes
import Verif.Model.Header
import Verif.Model.Tables

namespace Olecf

open Spec

/-- `k` consecutive words starting at byte `pos`. -/
def wordsAt (e : Endian) (d : Bytes) : Nat → Nat → List Nat
  | _, 0 => []
  | pos, k + 1 => u32At e d pos :: wordsAt e d (pos + 4) k

@[simp] theorem wordsAt_length (e : Endian) (d : Bytes) (pos k : Nat) :
    (wordsAt e d pos k).length = k := by
  induction k generalizing pos with
  | zero => rfl
  | succ k ih => simp [wordsAt, ih]

theorem wordsAt_eq_map (e : Endian) (d : Bytes) (pos k : Nat) :
    wordsAt e d pos k = (List.range k).map fun i => u32At e d (pos + 4 * i) := by
  induction k generalizing pos with
  | zero => rfl
  | succ k ih =>
    rw [wordsAt, ih, List.range_succ_eq_map, List.map_cons, List.map_map]
    simp only [Nat.mul_zero, Nat.add_zero, List.cons.injEq, true_and]
    apply List.map_congr_left
    intro i _
    simp only [Function.comp]
    congr 1
    omega

theorem words_eq_wordsAt (e : Endian) (d : Bytes) : words e d = wordsAt e d 0 (d.length / 4) := by
  rw [wordsAt_eq_map, words]
  simp

theorem wordsAt_take (e : Endian) (d : Bytes) {k m : Nat} (pos : Nat) (h : k ≤ m) :
    (wordsAt e d pos m).take k = wordsAt e d pos k := by
  rw [wordsAt_eq_map, wordsAt_eq_map, ← List.map_take, List.take_range, Nat.min_eq_left h]

/-- Replace the entries of `l` starting at `i` by `vs`. -/
def overwrite (l : List Nat) (i : Nat) (vs : List Nat) : List Nat :=
  l.take i ++ vs ++ l.drop (i + vs.length)

theorem overwrite_length {l : List Nat} {i : Nat} {vs : List Nat} (h : i + vs.length ≤ l.length) :
    (overwrite l i vs).length = l.length := by
  simp only [overwrite, List.length_append, List.length_take, List.length_drop]
  omega

theorem overwrite_nil (l : List Nat) (i : Nat) : overwrite l i [] = l := by
  simp [overwrite]

theorem overwrite_set {l : List Nat} {i : Nat} (v : Nat) (vs : List Nat) (h : i < l.length) :
    overwrite (l.set i v) (i + 1) vs = overwrite l i (v :: vs) := by
  have h2 : (l.set i v).drop (i + 1 + vs.length) = l.drop (i + (v :: vs).length) := by
    rw [List.drop_set_of_lt (by omega)]
    simp only [List.length_cons]
    congr 1; omega
  have h3 : (l.set i v).take (i + 1) = l.take i ++ [v] := by
    rw [List.take_add_one, List.take_set_of_le (Nat.le_refl i)]
    simp [h]
  simp only [overwrite, h2, h3, List.append_assoc, List.cons_append]
  simp

theorem overwrite_append (l : List Nat) (i : Nat) (vs ws : List Nat)
    (h : i + vs.length ≤ l.length) :
    overwrite (overwrite l i vs) (i + vs.length) ws = overwrite l i (vs ++ ws) := by
  have hl : (l.take i ++ vs).length = i + vs.length := by
    simp only [List.length_append, List.length_take]; omega
  have h1 : (overwrite l i vs).take (i + vs.length) = l.take i ++ vs := by
    unfold overwrite
    rw [List.take_append_of_le_length (by omega), List.take_of_length_le (by omega)]
  have h2 : (overwrite l i vs).drop (i + vs.length + ws.length)
      = l.drop (i + (vs ++ ws).length) := by
    unfold overwrite
    rw [List.drop_append, List.drop_of_length_le (by omega), hl, List.nil_append, List.drop_drop,
      List.length_append]
    congr 1; omega
  rw [overwrite, h1, h2, overwrite]
  simp [List.append_assoc]

theorem store_lt {t : AllocTable} {i : Nat} (v : Nat) (h : i < t.n) :
    t.store i v = .ok ⟨t.ids.set i v⟩ := by
  unfold AllocTable.store; rw [if_pos h]

theorem fillUnchecked_ok (e : Endian) (s : Bytes) (k pos index : Nat) (t : AllocTable)
    (hs : pos + 4 * k ≤ s.length) (ht : index + k ≤ t.n) :
    fillUnchecked e s k pos index t = .ok ⟨overwrite t.ids index (wordsAt e s pos k)⟩ := by
  induction k generalizing pos index t with
  | zero => simp [fillUnchecked, wordsAt, overwrite_nil]
  | succ k ih =>
    have hn : t.n = t.ids.length := rfl
    simp only [fillUnchecked, rd32_ok e (show pos + 4 ≤ s.length by omega), Res.ok_bind,
      store_lt _ (show index < t.n by omega)]
    rw [ih _ _ _ (by omega) (by simp only [AllocTable.n, List.length_set]; omega)]
    simp only [wordsAt, overwrite_set _ _ (show index < t.ids.length by omega)]

theorem headerMsatLoop_eq (e : Endian) (s : Bytes) (k pos index : Nat) (t : AllocTable) :
    headerMsatLoop e s k pos index t = fillUnchecked e s k pos index t := by
  induction k generalizing pos index t with
  | zero => rfl
  | succ k ih =>
    simp only [headerMsatLoop, fillUnchecked, ih]

theorem fillChecked_ok (e : Endian) (s : Bytes) (k pos index : Nat) (t : AllocTable)
    (hs : pos + 4 * k ≤ s.length) (ht : index + k ≤ t.n) :
    fillChecked e s k pos index t = (⟨overwrite t.ids index (wordsAt e s pos k)⟩, .ok ()) := by
  induction k generalizing pos index t with
  | zero => simp [fillChecked, wordsAt, overwrite_nil]
  | succ k ih =>
    have hn : t.n = t.ids.length := rfl
    simp only [fillChecked, rd32_ok e (show pos + 4 ≤ s.length by omega),
      store_lt _ (show index < t.n by omega)]
    rw [if_neg (by omega)]
    rw [ih _ _ _ (by omega) (by simp only [AllocTable.n, List.length_set]; omega)]
    simp only [wordsAt, overwrite_set _ _ (show index < t.ids.length by omega)]

/-- The checked loop stops with an error exactly when the sector does not fit; the
  entries that fit were stored. -/
theorem fillChecked_full (e : Endian) (s : Bytes) (k pos index : Nat) (t : AllocTable)
    (hs : pos + 4 * k ≤ s.length) (hi : index ≤ t.n) (ht : t.n < index + k) :
    fillChecked e s k pos index t =
      (⟨overwrite t.ids index (wordsAt e s pos (t.n - index))⟩, .err) := by
  induction k generalizing pos index t with
  | zero => omega
  | succ k ih =>
    have hn : t.n = t.ids.length := rfl
    simp only [fillChecked, rd32_ok e (show pos + 4 ≤ s.length by omega)]
    by_cases h : t.ids.length ≤ index
    · rw [if_pos (by omega)]
      have : t.ids.length - index = 0 := by omega
      simp [this, wordsAt, overwrite_nil]
    · rw [if_neg (by omega), store_lt _ (by omega)]
      simp only []
      rw [ih _ _ _ (by omega) (by simp only [AllocTable.n, List.length_set]; omega)
        (by simp only [AllocTable.n, List.length_set]; omega)]
      obtain ⟨m, hm⟩ : ∃ m, t.ids.length - index = m + 1 := ⟨t.ids.length - index - 1, by omega⟩
      simp only [AllocTable.n, List.length_set]
      rw [show t.ids.length - (index + 1) = m by omega, hm]
      simp only [wordsAt, overwrite_set _ _ (show index < t.ids.length by omega)]

theorem fillChecked_n (e : Endian) (s : Bytes) (k pos index : Nat) (t : AllocTable) :
    (fillChecked e s k pos index t).1.n = t.n := by
  induction k generalizing pos index t with
  | zero => rfl
  | succ k ih =>
    simp only [fillChecked]
    split
    · rfl
    · split
      · rename_i v _
        simp only [AllocTable.store]
        by_cases h : index < t.n
        · rw [if_pos h]
          simp only []
          rw [ih]
          simp [AllocTable.n]
        · rw [if_neg h]
      · rfl

end Olecf
