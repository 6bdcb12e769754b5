import Verif.Spec.Directory
import Verif.Lemmas.Readers

namespace Olecf
open Olecf.Spec

theorem rdBytes_ok {b : Bytes} {o n : Nat} (h : o + n ≤ b.length) :
    rdBytes b o n = .ok ((b.drop o).take n) := by
  simp [rdBytes, h]

theorem readDirEntry_eq (e : Endian) (index : Nat) {d : Bytes} (hl : d.length = 128) :
    readDirEntry e index d =
      if byteAt d 66 = 0 then .ok none
      else if u16At e d 64 ≤ 128 then .ok (some (entryOf e index d)) else .err := by
  unfold readDirEntry
  rw [if_neg (by rw [hl]; unfold dirEntrySize SSIZE_MAX; omega), rdByte_lt (by omega)]
  simp only [Res.ok_bind]
  split
  · rfl
  · rw [rd16_ok e (by omega)]
    simp only [Res.ok_bind]
    by_cases h : u16At e d 64 ≤ 128
    · rw [if_pos h, if_neg (by unfold dirEntrySize; omega), rdBytes_ok (by omega), rd32_ok e (by omega),
        rd32_ok e (by omega), rd32_ok e (by omega), rd64_ok e (by omega), rd64_ok e (by omega),
        rd32_ok e (by omega), rd32_ok e (by omega)]
      simp only [Res.ok_bind, Res.pure_eq, List.drop_zero]
      rfl
    · rw [if_neg h, if_pos (by unfold dirEntrySize; omega)]

/-- The entries of slots `i, i+1, ...` (`k` of them) of a sector, numbered from `index`. -/
def entriesFrom (e : Endian) (d : Bytes) : Nat → Nat → Nat → List DirEntry
  | 0, _, _ => []
  | k + 1, i, index =>
    (if byteAt (slot d i) 66 = 0 then [] else [entryOf e index (slot d i)]) ++
      entriesFrom e d k (i + 1) (index + 1)

theorem slot_length {d : Bytes} {i : Nat} (h : i < slotCount d) : (slot d i).length = 128 := by
  unfold slotCount at h
  simp only [slot, List.length_take, List.length_drop]
  omega

theorem dirSlotLoop_eq (e : Endian) (d : Bytes) :
    ∀ (k i index : Nat) (acc : List DirEntry), i + k ≤ slotCount d →
      dirSlotLoop e d k (128 * i) index acc =
        if ∀ j < k, SlotOk e (slot d (i + j)) then .ok (acc ++ entriesFrom e d k i index)
        else .err := by
  intro k
  induction k with
  | zero => intro i index acc _; simp [dirSlotLoop, entriesFrom]
  | succ k ih =>
    intro i index acc h
    have hs := slot_length (d := d) (i := i) (by omega)
    rw [dirSlotLoop, rdBytes_ok (by unfold slotCount at h; unfold dirEntrySize; omega)]
    simp only []
    rw [show (List.take dirEntrySize (List.drop (128 * i) d)) = slot d i from rfl,
      readDirEntry_eq e index hs]
    have hstep : 128 * i + dirEntrySize = 128 * (i + 1) := by unfold dirEntrySize; omega
    have hiff : (∀ j < k + 1, SlotOk e (slot d (i + j))) ↔
        (SlotOk e (slot d i) ∧ ∀ j < k, SlotOk e (slot d (i + 1 + j))) := by
      constructor
      · intro hh
        refine ⟨by simpa using hh 0 (by omega), fun j hj => ?_⟩
        have := hh (j + 1) (by omega)
        rwa [show i + (j + 1) = i + 1 + j by omega] at this
      · rintro ⟨h0, hh⟩ j hj
        cases j with
        | zero => simpa using h0
        | succ j =>
          have := hh j (by omega)
          rwa [show i + 1 + j = i + (j + 1) by omega] at this
    by_cases h66 : byteAt (slot d i) 66 = 0
    · rw [if_pos h66]
      simp only []
      rw [hstep, ih (i + 1) (index + 1) acc (by omega)]
      simp only [hiff, show SlotOk e (slot d i) from Or.inl h66, true_and]
      simp [entriesFrom, h66]
    · rw [if_neg h66]
      by_cases hn : u16At e (slot d i) 64 ≤ 128
      · rw [if_pos hn]
        simp only []
        rw [hstep, ih (i + 1) (index + 1) _ (by omega)]
        simp only [hiff, show SlotOk e (slot d i) from Or.inr hn, true_and]
        simp [entriesFrom, h66]
      · rw [if_neg hn]
        simp only [hiff]
        rw [if_neg]
        rintro ⟨h1 | h1, _⟩
        · exact h66 h1
        · exact hn h1

theorem entriesFrom_eq (e : Endian) (d : Bytes) : ∀ (k i index : Nat),
    entriesFrom e d k i index = (List.range' i k).filterMap fun j =>
      if byteAt (slot d j) 66 = 0 then none else some (entryOf e (index + j - i) (slot d j)) := by
  intro k
  induction k with
  | zero => intro i index; simp [entriesFrom]
  | succ k ih =>
    intro i index
    rw [entriesFrom, List.range'_succ, List.filterMap_cons, ih]
    have : List.filterMap (fun j => if byteAt (slot d j) 66 = 0 then none
          else some (entryOf e (index + 1 + j - (i + 1)) (slot d j))) (List.range' (i + 1) k) =
        List.filterMap (fun j => if byteAt (slot d j) 66 = 0 then none
          else some (entryOf e (index + j - i) (slot d j))) (List.range' (i + 1) k) := by
      congr 1
      funext j
      rw [show index + 1 + j - (i + 1) = index + j - i by omega]
    rw [this]
    by_cases h66 : byteAt (slot d i) 66 = 0
    · simp [h66]
    · simp [h66]

theorem filterMap_congr' {α β : Type} {f g : α → Option β} {l : List α}
    (h : ∀ a ∈ l, f a = g a) : l.filterMap f = l.filterMap g := by
  induction l with
  | nil => rfl
  | cons a l ih =>
    rw [List.filterMap_cons, List.filterMap_cons, h a (by simp),
      ih fun b hb => h b (by simp [hb])]

theorem slot_append_right {a b : Bytes} {k i : Nat} (ha : a.length = 128 * k) :
    slot (a ++ b) (k + i) = slot b i := by
  unfold slot
  rw [List.drop_append, List.drop_of_length_le (by omega), List.nil_append]
  congr 2
  omega

theorem slot_append_left {a b : Bytes} {k i : Nat} (ha : a.length = 128 * k) (hi : i < k) :
    slot (a ++ b) i = slot a i := by
  unfold slot
  rw [List.drop_append_of_le_length (by omega), List.take_append_of_le_length]
  rw [List.length_drop]; omega

theorem slotCount_append {a b : Bytes} {k : Nat} (ha : a.length = 128 * k) :
    slotCount (a ++ b) = k + slotCount b := by
  unfold slotCount
  rw [List.length_append, ha]; omega

theorem entriesFrom_append (e : Endian) {a b : Bytes} {k : Nat} (ha : a.length = 128 * k)
    (n index : Nat) :
    entriesFrom e (a ++ b) (k + n) 0 index =
      entriesFrom e a k 0 index ++ entriesFrom e b n 0 (index + k) := by
  rw [entriesFrom_eq, entriesFrom_eq, entriesFrom_eq, List.range'_append_1.symm,
    List.filterMap_append]
  simp only [Nat.zero_add, Nat.sub_zero]
  congr 1
  · apply filterMap_congr'
    intro i hi
    rw [List.mem_range'] at hi
    obtain ⟨j, hj, rfl⟩ := hi
    rw [slot_append_left ha (by omega)]
  · rw [show List.range' k n = (List.range' 0 n).map (k + ·) by
      rw [List.map_add_range']; simp]
    rw [List.filterMap_map]
    apply filterMap_congr'
    intro i _
    simp only [Function.comp]
    rw [slot_append_right ha, Nat.add_assoc]

theorem entriesFrom_zero (e : Endian) (d : Bytes) :
    entriesFrom e d (slotCount d) 0 0 = entriesOf e d := by
  rw [entriesFrom_eq, entriesOf, List.range_eq_range']
  simp only [Nat.zero_add, Nat.sub_zero]

theorem SlotsOk_append {e : Endian} {a b : Bytes} {k : Nat} (ha : a.length = 128 * k) :
    SlotsOk e (a ++ b) ↔ SlotsOk e a ∧ SlotsOk e b := by
  have hk : slotCount a = k := by unfold slotCount; omega
  unfold SlotsOk
  rw [slotCount_append ha]
  constructor
  · intro h
    refine ⟨fun i hi => ?_, fun i hi => ?_⟩
    · rw [← slot_append_left (b := b) ha (by omega)]; exact h i (by omega)
    · rw [← slot_append_right (b := b) ha]; exact h (k + i) (by omega)
  · rintro ⟨h1, h2⟩ i hi
    rcases Nat.lt_or_ge i k with hlt | hge
    · rw [slot_append_left ha hlt]; exact h1 i (by omega)
    · obtain ⟨j, rfl⟩ := Nat.exists_eq_add_of_le hge
      rw [slot_append_right ha]; exact h2 j (by omega)

/-- Depth needed by a walk. -/
def walkDepth (ids : List Nat) (r : Bool) : Nat := ids.length + r.toNat

theorem dirLoop_step (io : IoHandle) (dev : Dev) (sat : AllocTable) (fuel : Nat) {id : Nat}
    {seen : List Nat} {index k : Nat} {acc : List DirEntry} (hss : io.sectorSize = 128 * k)
    (hid : id < 2 ^ 32) (h1 : id ≠ 0xfffffffe) (h2 : id ≠ 0xffffffff) (h3 : id ∉ seen) :
    dirLoop io dev sat (fuel + 1) id seen index acc =
      match sector dev io.sectorSize id with
      | none => ⟨[(sectorPos io.sectorSize id, io.sectorSize)], .err⟩
      | some s =>
        if SlotsOk io.byteOrder s then
          match sat.next id with
          | .ok nextId =>
            (dirLoop io dev sat fuel nextId (id :: seen) (index + k)
              (acc ++ entriesFrom io.byteOrder s k 0 index)).cons
                (sectorPos io.sectorSize id, io.sectorSize)
          | _ => ⟨[(sectorPos io.sectorSize id, io.sectorSize)], .err⟩
        else ⟨[(sectorPos io.sectorSize id, io.sectorSize)], .err⟩ := by
  have hk : io.sectorSize / dirEntrySize = k := by
    rw [hss]; unfold dirEntrySize; omega
  rw [dirLoop, if_neg (by simp only [EOC, UNUSED]; omega)]
  simp only []
  rw [if_neg h3, dev_get_sector dev _ hid, sectorOffset_eq _ hid]
  cases hs : sector dev io.sectorSize id with
  | none => rfl
  | some s =>
    have hl := sector_length hs
    have hsc : slotCount s = k := by unfold slotCount; omega
    simp only []
    have := dirSlotLoop_eq io.byteOrder s k 0 index acc (by omega)
    rw [Nat.mul_zero] at this
    rw [hk, this]
    have hiff : (∀ j < k, SlotOk io.byteOrder (slot s (0 + j))) ↔ SlotsOk io.byteOrder s := by
      simp only [Nat.zero_add, SlotsOk, hsc]
    simp only [hiff]
    by_cases hok : SlotsOk io.byteOrder s
    · rw [if_pos hok, if_pos hok]
      simp only []
      rcases next_defined sat id with ⟨v, hv⟩ | hv <;> rw [hv]
    · rw [if_neg hok, if_neg hok]

theorem walk_not_marker {sat seen ids : List Nat} {a : Nat} {r : Bool}
    (h : DirWalk sat seen a ids r) (hm : a = 0xfffffffe ∨ a = 0xffffffff) :
    ids = [] ∧ r = false := by
  cases h with
  | marker _ => exact ⟨rfl, rfl⟩
  | again h1 h2 _ => omega
  | step h1 h2 => omega

theorem walk_seen {sat seen ids : List Nat} {a : Nat} {r : Bool}
    (h : DirWalk sat seen a ids r) (h1 : a ≠ 0xfffffffe) (h2 : a ≠ 0xffffffff)
    (hm : a ∈ seen) : ids = [] ∧ r = true := by
  cases h with
  | marker _ => omega
  | again _ _ _ => exact ⟨rfl, rfl⟩
  | step _ _ h3 => exact absurd hm h3

/-- The directory loop succeeds exactly on readable walks within its depth, with exactly the
  entries of the sectors passed. -/
theorem dirLoop_iff (io : IoHandle) (dev : Dev) (sat : AllocTable) (hwf : sat.WF) {k : Nat}
    (hss : io.sectorSize = 128 * k) :
    ∀ (fuel id : Nat) (seen : List Nat) (index : Nat) (acc L : List DirEntry), id < 2 ^ 32 →
      ((dirLoop io dev sat fuel id seen index acc).res = .ok L ↔
        ∃ (ids : List Nat) (r : Bool) (secs : List Bytes),
          DirWalk sat.ids seen id ids r ∧ walkDepth ids r ≤ fuel ∧
          ids.map (sector dev io.sectorSize) = secs.map some ∧
          SlotsOk io.byteOrder secs.flatten ∧
          L = acc ++ entriesFrom io.byteOrder secs.flatten (slotCount secs.flatten) 0 index) := by
  have hnil : ∀ e : Endian, SlotsOk e ([] : List Bytes).flatten := by
    intro e i hi; simp [slotCount] at hi
  have hnil' : ∀ (e : Endian) index,
      entriesFrom e [] (slotCount []) 0 index = [] := by
    intro e index; rfl
  intro fuel
  induction fuel with
  | zero =>
    intro id seen index acc L hid
    rw [dirLoop]
    by_cases hm : id = 0xfffffffe ∨ id = 0xffffffff
    · rw [if_pos (show id = EOC ∨ id = UNUSED from hm)]
      constructor
      · intro h
        cases h
        exact ⟨[], false, [], .marker hm, by simp [walkDepth], rfl, hnil _, by simp [hnil']⟩
      · rintro ⟨ids, r, secs, hw, _, hr, _, rfl⟩
        obtain ⟨rfl, rfl⟩ := walk_not_marker hw hm
        obtain rfl : secs = [] := by cases secs <;> simp_all
        simp [hnil']
    · rw [if_neg (show ¬ (id = EOC ∨ id = UNUSED) from hm)]
      constructor
      · intro h; cases h
      · rintro ⟨ids, r, secs, hw, hd, _⟩
        cases hw with
        | marker h => exact absurd h hm
        | again => simp [walkDepth] at hd
        | step => simp [walkDepth] at hd
  | succ fuel ih =>
    intro id seen index acc L hid
    by_cases hm : id = 0xfffffffe ∨ id = 0xffffffff
    · rw [dirLoop, if_pos (show id = EOC ∨ id = UNUSED from hm)]
      constructor
      · intro h
        cases h
        exact ⟨[], false, [], .marker hm, by simp [walkDepth], rfl, hnil _, by simp [hnil']⟩
      · rintro ⟨ids, r, secs, hw, _, hr, _, rfl⟩
        obtain ⟨rfl, rfl⟩ := walk_not_marker hw hm
        obtain rfl : secs = [] := by cases secs <;> simp_all
        simp [hnil']
    · have h1 : id ≠ 0xfffffffe := fun h => hm (Or.inl h)
      have h2 : id ≠ 0xffffffff := fun h => hm (Or.inr h)
      by_cases hseen : id ∈ seen
      · rw [dirLoop, if_neg (show ¬ (id = EOC ∨ id = UNUSED) from hm)]
        simp only []
        rw [if_pos hseen]
        constructor
        · intro h
          cases h
          exact ⟨[], true, [], .again h1 h2 hseen, by simp [walkDepth], rfl, hnil _,
            by simp [hnil']⟩
        · rintro ⟨ids, r, secs, hw, _, hr, _, rfl⟩
          obtain ⟨rfl, rfl⟩ := walk_seen hw h1 h2 hseen
          obtain rfl : secs = [] := by cases secs <;> simp_all
          simp [hnil']
      · rw [dirLoop_step io dev sat fuel hss hid h1 h2 hseen]
        constructor
        · intro h
          cases hs : sector dev io.sectorSize id with
          | none => rw [hs] at h; cases h
          | some s =>
            have hl := sector_length hs
            rw [hs] at h
            simp only [] at h
            by_cases hok : SlotsOk io.byteOrder s
            · rw [if_pos hok] at h
              rcases next_defined sat id with ⟨v, hv⟩ | hv
              · rw [hv] at h
                simp only [Out.cons_res] at h
                obtain ⟨ids, r, secs, hw, hd, hr, hsl, hL⟩ :=
                  (ih v (id :: seen) (index + k) _ L (hwf.next_lt hv)).1 h
                refine ⟨id :: ids, r, s :: secs, .step h1 h2 hseen (hwf.next_iff.1 hv) hw, ?_, ?_,
                  ?_, ?_⟩
                · simp only [walkDepth, List.length_cons] at hd ⊢; omega
                · simp [hs, hr]
                · rw [List.flatten_cons, SlotsOk_append (k := k) (by omega)]
                  exact ⟨hok, hsl⟩
                · rw [hL, List.flatten_cons, slotCount_append (k := k) (by omega),
                    entriesFrom_append _ (by omega), List.append_assoc]
              · rw [hv] at h; cases h
            · rw [if_neg hok] at h; cases h
        · rintro ⟨ids, r, secs, hw, hd, hr, hsl, rfl⟩
          cases hw with
          | marker h => exact absurd h hm
          | again _ _ h => exact absurd h hseen
          | @step _ ids _ nxt _ _ _ _ hn hw =>
            cases secs with
            | nil => simp at hr
            | cons s secs =>
              simp only [List.map_cons, List.cons.injEq] at hr
              have hl := sector_length hr.1
              rw [List.flatten_cons, SlotsOk_append (k := k) (by omega)] at hsl
              rw [hr.1]
              simp only []
              rw [if_pos hsl.1, hwf.next_iff.2 hn]
              simp only [Out.cons_res]
              refine (ih nxt (id :: seen) (index + k) _ _ (hwf.next_lt (hwf.next_iff.2 hn))).2
                ⟨ids, r, secs, hw, ?_, hr.2, hsl.2, ?_⟩
              · simp only [walkDepth, List.length_cons] at hd ⊢; omega
              · rw [List.flatten_cons, slotCount_append (k := k) (by omega),
                    entriesFrom_append _ (by omega), List.append_assoc]

/-- Safety and reads of the directory loop. -/
theorem dirLoop_safe (io : IoHandle) (dev : Dev) (sat : AllocTable) (hwf : sat.WF) {k : Nat}
    (hss : io.sectorSize = 128 * k) :
    ∀ (fuel id : Nat) (seen : List Nat) (index : Nat) (acc : List DirEntry), id < 2 ^ 32 →
      ((dirLoop io dev sat fuel id seen index acc).res = .err ∨
        ∃ L, (dirLoop io dev sat fuel id seen index acc).res = .ok L) ∧
      (dirLoop io dev sat fuel id seen index acc).reads.length ≤ fuel ∧
      ∃ ids : List Nat, (dirLoop io dev sat fuel id seen index acc).reads =
          ids.map (fun i => ((i + 1) * io.sectorSize, io.sectorSize)) ∧
        ids.Nodup ∧ ∀ i ∈ ids, i ∉ seen := by
  intro fuel
  induction fuel with
  | zero =>
    intro id seen index acc hid
    rw [dirLoop]
    split
    · exact ⟨Or.inr ⟨acc, rfl⟩, by simp, [], by simp, by simp, by simp⟩
    · exact ⟨Or.inl rfl, by simp, [], by simp, by simp, by simp⟩
  | succ fuel ih =>
    intro id seen index acc hid
    by_cases hm : id = 0xfffffffe ∨ id = 0xffffffff
    · rw [dirLoop, if_pos (show id = EOC ∨ id = UNUSED from hm)]
      exact ⟨Or.inr ⟨acc, rfl⟩, by simp, [], by simp, by simp, by simp⟩
    · have h1 : id ≠ 0xfffffffe := fun h => hm (Or.inl h)
      have h2 : id ≠ 0xffffffff := fun h => hm (Or.inr h)
      by_cases hseen : id ∈ seen
      · rw [dirLoop, if_neg (show ¬ (id = EOC ∨ id = UNUSED) from hm)]
        simp only []
        rw [if_pos hseen]
        exact ⟨Or.inr ⟨acc, rfl⟩, by simp, [], by simp, by simp, by simp⟩
      · have hpos : sectorPos io.sectorSize id = (id + 1) * io.sectorSize := by
          rw [sectorPos, if_neg h2]
        have hone : ∃ ids : List Nat, [(sectorPos io.sectorSize id, io.sectorSize)] =
          ids.map (fun i => ((i + 1) * io.sectorSize, io.sectorSize)) ∧
            ids.Nodup ∧ ∀ i ∈ ids, i ∉ seen :=
          ⟨[id], by simp [hpos], by simp, by simpa using hseen⟩
        rw [dirLoop_step io dev sat fuel hss hid h1 h2 hseen]
        cases hs : sector dev io.sectorSize id with
        | none => exact ⟨Or.inl rfl, by simp, hone⟩
        | some s =>
          simp only []
          by_cases hok : SlotsOk io.byteOrder s
          · rw [if_pos hok]
            rcases next_defined sat id with ⟨v, hv⟩ | hv
            · rw [hv]
              obtain ⟨a, b, ids, c, d, e⟩ := ih v (id :: seen) (index + k)
                (acc ++ entriesFrom io.byteOrder s k 0 index) (hwf.next_lt hv)
              refine ⟨a, by simp; omega, id :: ids, ?_, ?_, ?_⟩
              · simp [c, hpos]
              · rw [List.nodup_cons]
                exact ⟨fun h => e id h (by simp), d⟩
              · intro i hi
                rcases List.mem_cons.1 hi with rfl | hi
                · exact hseen
                · exact fun h => e i hi (by simp [h])
            · rw [hv]; exact ⟨Or.inl rfl, by simp, hone⟩
          · rw [if_neg hok]; exact ⟨Or.inl rfl, by simp, hone⟩

end Olecf
