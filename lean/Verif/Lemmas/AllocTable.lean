import Verif.Lemmas.Tables
import Verif.Spec.Tables

namespace Olecf

open Spec

theorem sectorOffset_eq {id : Nat} (ss : Nat) (h : id < 2 ^ 32) :
    sectorOffset id ss = sectorPos ss id := by
  unfold sectorOffset sectorPos
  split
  · next h' => subst h'; simp
  · rw [Nat.mod_eq_of_lt (by omega)]

theorem get_ok {t : AllocTable} {i v : Nat} : t.get i = .ok v ↔ t.ids[i]? = some v := by
  unfold AllocTable.get
  have hn : t.n = t.ids.length := rfl
  by_cases h : i < t.ids.length
  · rw [if_neg (by omega)]
    simp [List.getElem?_eq_getElem h]
  · rw [if_pos (by omega)]
    simp [List.getElem?_eq_none (by omega : t.ids.length ≤ i)]

theorem get_err {t : AllocTable} {i : Nat} : t.get i = .err ↔ t.ids[i]? = none := by
  unfold AllocTable.get
  have hn : t.n = t.ids.length := rfl
  by_cases h : i < t.ids.length
  · rw [if_neg (by omega)]
    simp [List.getElem?_eq_getElem h]
  · rw [if_pos (by omega)]
    simp [List.getElem?_eq_none (by omega : t.ids.length ≤ i)]

theorem get_defined (t : AllocTable) (i : Nat) : (∃ v, t.get i = .ok v) ∨ t.get i = .err := by
  cases h : t.ids[i]? with
  | none => exact Or.inr (get_err.2 h)
  | some v => exact Or.inl ⟨v, get_ok.2 h⟩

theorem next_defined (t : AllocTable) (i : Nat) : (∃ v, t.next i = .ok v) ∨ t.next i = .err := by
  unfold AllocTable.next
  split
  · exact Or.inr rfl
  · exact get_defined t i

theorem next_ok {t : AllocTable} {i v : Nat} (h : t.next i = .ok v) :
    t.ids[i]? = some v ∧ i ≤ INT_MAX := by
  unfold AllocTable.next at h
  split at h
  · cases h
  · exact ⟨get_ok.1 h, by omega⟩

theorem next_of_some {t : AllocTable} {i v : Nat} (hn : t.n ≤ INT_MAX)
    (h : t.ids[i]? = some v) : t.next i = .ok v := by
  unfold AllocTable.next
  have : i < t.ids.length := by
    rcases Nat.lt_or_ge i t.ids.length with h' | h'
    · exact h'
    · rw [List.getElem?_eq_none h'] at h; cases h
  have hn' : t.n = t.ids.length := rfl
  rw [if_neg (by omega)]
  exact get_ok.2 h

theorem resize_cases (t : AllocTable) (k : Int) :
    (k < 0 ∨ k.toNat > AllocTable.maxIds) ∧ t.resize k = .err ∨
    (0 ≤ k ∧ k.toNat ≤ AllocTable.maxIds) ∧
      t.resize k = .ok ⟨t.ids ++ List.replicate (k.toNat - t.n) 0⟩ := by
  unfold AllocTable.resize
  split
  · next h => exact Or.inl ⟨h, rfl⟩
  · next h =>
    right
    refine ⟨by omega, ?_⟩
    split
    · rfl
    · have : k.toNat - t.n = 0 := by omega
      rw [this]; simp

theorem toInt32_small {n : Nat} (h : n < 2 ^ 31) : toInt32 n = n := by
  unfold toInt32
  rw [Nat.mod_eq_of_lt (by omega), if_pos h]

theorem toInt32_cases (n : Nat) :
    (n % 2 ^ 32 < 2 ^ 31 ∧ toInt32 n = (n % 2 ^ 32 : Nat)) ∨
    (2 ^ 31 ≤ n % 2 ^ 32 ∧ toInt32 n < 0) := by
  unfold toInt32
  split
  · next h => exact Or.inl ⟨h, rfl⟩
  · next h =>
    right
    have := Nat.mod_lt n (show 0 < 2 ^ 32 by decide)
    omega

theorem padTo_length {n : Nat} {l : List Nat} (h : l.length ≤ n) : (padTo n l).length = n := by
  simp only [padTo, List.length_append, List.length_replicate]; omega

theorem overwrite_padTo {n : Nat} {l vs : List Nat} (h : l.length + vs.length ≤ n) :
    overwrite (padTo n l) l.length vs = padTo n (l ++ vs) := by
  unfold overwrite padTo
  rw [List.take_left, List.drop_append, List.drop_of_length_le (by omega), List.nil_append,
    List.drop_replicate, List.length_append]
  congr 2
  omega

end Olecf
