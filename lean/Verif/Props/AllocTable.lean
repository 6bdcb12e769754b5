import Verif.Lemmas.AllocTable

/-
  C05: the allocation table as a growable array.
-/

namespace Olecf.Props

open Olecf Olecf.Spec

/-- The operations on an allocation table.  `store` is the assignment made by the table
  readers; it is only ever made at an index below the size (C06). -/
inductive TableOp where
  | resize (k : Int)
  | store (i v : Nat)
  deriving Repr

/-- One operation; a failed resize leaves the table as it is (the C function returns
  before changing anything).  A store outside of the table has no outcome here. -/
def stepTable (t : AllocTable) : TableOp → Option AllocTable
  | .resize k => match t.resize k with
    | .ok t' => some t'
    | _ => some t
  | .store i v => match t.store i v with
    | .ok t' => some t'
    | _ => none

/-- A history of operations. -/
def runTable (t : AllocTable) : List TableOp → Option AllocTable
  | [] => some t
  | op :: ops => match stepTable t op with
    | some t' => runTable t' ops
    | none => none

/-! Specification: the size is the largest accepted request, an entry is the last value
  stored at its index, or 0. -/

/-- The limit on the number of entries: 128 MiB of 32-bit values. -/
def tableLimit : Nat := 33554432

/-- Size after a history that started at size `n`. -/
def sizeAfter (n : Nat) : List TableOp → Nat
  | [] => n
  | .resize k :: ops => sizeAfter (if 0 ≤ k ∧ k ≤ tableLimit then max n k.toNat else n) ops
  | .store _ _ :: ops => sizeAfter n ops

/-- Last value stored at index `i` (`d` if there was none). -/
def lastStored (i : Nat) (d : Nat) : List TableOp → Nat
  | [] => d
  | .store j v :: ops => lastStored i (if i = j then v else d) ops
  | .resize _ :: ops => lastStored i d ops

/-- A resize in detail: it fails exactly for a negative or too large request; otherwise
  old entries are kept, new ones are zero and the table never shrinks. -/
theorem C05_resize (t : AllocTable) (k : Int) :
    ((k < 0 ∨ tableLimit < k) → t.resize k = .err) ∧
    (¬ (k < 0 ∨ tableLimit < k) → ∃ t', t.resize k = .ok t' ∧ t'.n = max t.n k.toNat ∧
      (∀ i, i < t.n → t'.ids[i]? = t.ids[i]?) ∧
      (∀ i, t.n ≤ i → i < t'.n → t'.ids[i]? = some 0)) := by
  have hl : AllocTable.maxIds = tableLimit := by decide
  rcases resize_cases t k with ⟨h1, h2⟩ | ⟨h1, h2⟩
  · refine ⟨fun _ => h2, fun h => ?_⟩
    rw [hl] at h1; omega
  · refine ⟨fun h => ?_, fun _ => ⟨_, h2, ?_, ?_, ?_⟩⟩
    · rw [hl] at h1; omega
    · simp only [AllocTable.n, List.length_append, List.length_replicate]; omega
    · intro i hi
      exact List.getElem?_append_left hi
    · intro i hi hi'
      have hn : t.n = t.ids.length := rfl
      simp only [AllocTable.n, List.length_append, List.length_replicate] at hi hi'
      rw [List.getElem?_append_right hi, List.getElem?_replicate, if_pos (by omega)]

/-- C05: after every history of resizes and stores a lookup of `i` succeeds exactly for
  `0 ≤ i < n`, where `n` is the largest accepted size, and returns the last value stored
  at `i`, 0 if there was none. -/
theorem C05_table_history (k : Int) (t0 t : AllocTable) (ops : List TableOp)
    (h0 : AllocTable.init k = .ok t0) (h : runTable t0 ops = some t) :
    t.n = sizeAfter k.toNat ops ∧
    ∀ i : Int, t.get i =
      if 0 ≤ i ∧ i < sizeAfter k.toNat ops then .ok (lastStored i.toNat 0 ops) else .err := by
  have gen : ∀ (ops : List TableOp) (t0 t : AllocTable) (d : Nat → Nat),
      (∀ i, i < t0.n → t0.ids[i]? = some (d i)) → (∀ i, t0.n ≤ i → d i = 0) →
      runTable t0 ops = some t →
      t.n = sizeAfter t0.n ops ∧ ∀ i, i < t.n → t.ids[i]? = some (lastStored i (d i) ops) := by
    intro ops
    induction ops with
    | nil =>
      intro t0 t d hd _ h
      cases h
      exact ⟨rfl, hd⟩
    | cons op ops ih =>
      intro t0 t d hd hz h
      cases op with
      | resize k =>
        simp only [runTable, stepTable] at h
        have hr := C05_resize t0 k
        by_cases hk : k < 0 ∨ (tableLimit : Int) < k
        · rw [hr.1 hk] at h
          have := ih t0 t d hd hz h
          simp only [sizeAfter, lastStored]
          rw [if_neg (by omega)]
          exact this
        · obtain ⟨t', h1, h2, h3, h4⟩ := hr.2 hk
          rw [h1] at h
          have := ih t' t d (fun i hi => by
              by_cases hi' : i < t0.n
              · rw [h3 i hi', hd i hi']
              · rw [h4 i (by omega) hi, hz i (by omega)])
            (fun i hi => hz i (by omega)) h
          simp only [sizeAfter, lastStored]
          rw [if_pos (by omega), ← h2]
          exact this
      | store j v =>
        simp only [runTable, stepTable] at h
        by_cases hj : j < t0.n
        · rw [store_lt v hj] at h
          have := ih ⟨t0.ids.set j v⟩ t (fun i => if i = j then v else d i) (fun i hi => by
              simp only [AllocTable.n, List.length_set] at hi
              simp only [List.getElem?_set]
              by_cases hij : j = i
              · subst hij; simp [hi]
              · rw [if_neg hij, if_neg (Ne.symm hij), hd i hi])
            (fun i hi => by
              simp only [AllocTable.n, List.length_set] at hi
              have : i ≠ j := by have : t0.n = t0.ids.length := rfl; omega
              rw [if_neg this, hz i hi]) h
          simp only [sizeAfter, lastStored]
          simpa [AllocTable.n] using this
        · have : t0.store j v = .ub := by unfold AllocTable.store; rw [if_neg hj]
          rw [this] at h; cases h
  unfold AllocTable.init at h0
  split at h0
  · cases h0
  · cases h0
    have := gen ops _ t (fun _ => 0) (fun i hi => by
      simp only [AllocTable.n, List.length_replicate] at hi
      simp [hi]) (fun _ _ => rfl) h
    simp only [AllocTable.n, List.length_replicate] at this
    refine ⟨this.1, fun i => ?_⟩
    by_cases hi : 0 ≤ i ∧ i < sizeAfter k.toNat ops
    · rw [if_pos hi]
      have h2 := this.2 i.toNat (by omega)
      rw [← get_ok] at h2
      rwa [show ((i.toNat : Nat) : Int) = i by omega] at h2
    · rw [if_neg hi]
      unfold AllocTable.get
      have : t.n = t.ids.length := rfl
      rw [if_pos (by omega)]

/-- Non-vacuity: a history with a growing, a failing and a shrinking resize and stores. -/
example : ∃ t0 t, AllocTable.init 2 = .ok t0 ∧
    runTable t0 [.store 1 7, .resize 4, .resize (-1), .store 3 9, .resize 1, .store 1 8] = some t ∧
    t.ids = [0, 8, 0, 9] := by
  refine ⟨⟨[0, 0]⟩, ⟨[0, 8, 0, 9]⟩, ?_, ?_, rfl⟩ <;> decide

end Olecf.Props
