import Verif.Lemmas.Directory

/-
  Directory entries and the directory list (C12 to C15).
-/

namespace Olecf.Props
open Olecf Olecf.Spec

/-! ### C12: decoding a directory entry -/

/-- Every 128 byte slot: empty ones are skipped, those with a name size above 128 are
  rejected, all others give the values at the positions of the layout.  In particular no
  read leaves the 128 bytes (it would be the outcome `ub`). -/
theorem C12_slot_outcome (e : Endian) (index : Nat) (d : Bytes) (hl : d.length = 128) :
    readDirEntry e index d =
      if byteAt d 66 = 0 then .ok none
      else if u16At e d 64 ≤ 128 then .ok (some (entryOf e index d)) else .err :=
  readDirEntry_eq e index hl

theorem encodeSlot_length {e : Endian} {f : SlotFields} (hf : f.Fits) :
    (encodeSlot e f).length = 128 := by
  simp [encodeSlot, slotPieces, hf.name, hf.classId]

/-- Decoding a serialised slot gives the serialised values, in either byte order. -/
theorem C12_slot_roundtrip (e : Endian) (index : Nat) (f : SlotFields) (hf : f.Fits)
    (ht : f.type ≠ 0) :
    readDirEntry e index (encodeSlot e f) = .ok (some
      { id := index, type := f.type, name := f.name.take f.nameSize, prev := f.prev,
        next := f.next, sub := f.sub, created := f.created, modified := f.modified,
        start := f.start, size := f.size }) := by
  have h66 : byteAt (encodeSlot e f) 66 = f.type := by
    obtain ⟨a, c, h1, h2⟩ := flatten_split (slotPieces e f) 2 _ rfl
    have h3 : a.length = 66 := by rw [h2]; simp [slotPieces, offsetOf, hf.name]
    rw [encodeSlot, h1, List.append_assoc, byteAt_append_right (by omega), h3]
    have := hf.type
    simp [byteAt, List.getD]
    omega
  have hn : u16At e (encodeSlot e f) 64 = f.nameSize :=
    u16At_flatten e _ 1 _ _ rfl (by simp [slotPieces, offsetOf, hf.name]) (by have := hf.nameSize; omega)
  have h1 : u32At e (encodeSlot e f) 68 = f.prev :=
    u32At_flatten e _ 4 _ _ rfl (by simp [slotPieces, offsetOf, hf.name]) hf.prev
  have h2 : u32At e (encodeSlot e f) 72 = f.next :=
    u32At_flatten e _ 5 _ _ rfl (by simp [slotPieces, offsetOf, hf.name]) hf.next
  have h3 : u32At e (encodeSlot e f) 76 = f.sub :=
    u32At_flatten e _ 6 _ _ rfl (by simp [slotPieces, offsetOf, hf.name]) hf.sub
  have h4 : u64At e (encodeSlot e f) 100 = f.created :=
    u64At_flatten e _ 9 _ _ rfl (by simp [slotPieces, offsetOf, hf.name, hf.classId]) hf.created
  have h5 : u64At e (encodeSlot e f) 108 = f.modified :=
    u64At_flatten e _ 10 _ _ rfl (by simp [slotPieces, offsetOf, hf.name, hf.classId]) hf.modified
  have h6 : u32At e (encodeSlot e f) 116 = f.start :=
    u32At_flatten e _ 11 _ _ rfl (by simp [slotPieces, offsetOf, hf.name, hf.classId]) hf.start
  have h7 : u32At e (encodeSlot e f) 120 = f.size :=
    u32At_flatten e _ 12 _ _ rfl (by simp [slotPieces, offsetOf, hf.name, hf.classId]) hf.size
  have hname : (encodeSlot e f).take f.nameSize = f.name.take f.nameSize := by
    rw [encodeSlot, slotPieces, List.flatten_cons, List.take_append_of_le_length]
    rw [hf.name]; exact hf.nameSize
  rw [readDirEntry_eq e index (encodeSlot_length hf), h66, if_neg ht, hn,
    if_pos (by have := hf.nameSize; omega), entryOf, h66, hn, h1, h2, h3, h4, h5, h6, h7, hname]

/-- A slot that is too short is rejected. -/
theorem C12_short_data (e : Endian) (index : Nat) (d : Bytes) (hl : d.length < 128) :
    readDirEntry e index d = .err := by
  unfold readDirEntry
  rw [if_pos (Or.inl hl)]

def sampleSlot : SlotFields :=
  { name := List.replicate 64 65, nameSize := 6, type := 2, color := 1, prev := 0xffffffff,
    next := 3, sub := 0xffffffff, classId := List.replicate 16 0, flags := 0, created := 2 ^ 40,
    modified := 2 ^ 41, start := 17, size := 5000, reserved := 0 }

example : sampleSlot.Fits ∧ sampleSlot.type ≠ 0 := by
  refine ⟨?_, by decide⟩
  constructor <;> decide

/-! ### C15: directory content -/

/-- Reading the directory succeeds exactly when the chain from `root` can be walked to a
  marker within 1025 sectors (or to a sector passed before within 1024), all sectors on
  the walk are readable and all their slots acceptable; the list then is exactly the
  decoded non-empty slots of the concatenated sectors, in order. -/
theorem C15_directory_exact (io : IoHandle) (dev : Dev) (sat : List Nat) (root k : Nat)
    (list : List DirEntry)
    (hss : io.sectorSize = 128 * k) (hk : 0 < k) (hmax : io.sectorSize ≤ 128 * 1024 * 1024)
    (hsn : sat.length ≤ 2 ^ 25) (hsv : ∀ v ∈ sat, v < 2 ^ 32)
    (hr : root < 2 ^ 32) (hne : root ≠ 0xfffffffe) :
    ((readDirectory io dev ⟨sat⟩ [] root).1.res = .ok () ∧
      (readDirectory io dev ⟨sat⟩ [] root).2 = list) ↔
    ∃ (ids : List Nat) (repeated : Bool) (secs : List Bytes),
      DirWalk sat [] root ids repeated ∧
      ids.length ≤ (if repeated then 1024 else 1025) ∧
      ids.map (sector dev io.sectorSize) = secs.map some ∧
      SlotsOk io.byteOrder secs.flatten ∧
      list = entriesOf io.byteOrder secs.flatten := by
  have hwf : (⟨sat⟩ : AllocTable).WF := ⟨hsn, hsv⟩
  unfold readDirectory
  rw [if_neg (by unfold MAX_ALLOC dirEntrySize; omega), if_neg (show ¬ root = EOC from hne)]
  have key := dirLoop_iff io dev ⟨sat⟩ hwf hss (maxDirDepth + 1) root [] 0 [] list hr
  have hdepth : ∀ (ids : List Nat) (r : Bool), walkDepth ids r ≤ maxDirDepth + 1 ↔
      ids.length ≤ (if r then 1024 else 1025) := by
    intro ids r
    cases r <;> simp [walkDepth, maxDirDepth]
  simp only [hdepth, List.nil_append, entriesFrom_zero] at key
  rw [← key]
  rcases (dirLoop_safe io dev ⟨sat⟩ hwf hss (maxDirDepth + 1) root [] 0 [] hr).1 with
    h | ⟨L, h⟩
  · simp only [h]
    constructor
    · rintro ⟨h, _⟩; cases h
    · intro h; cases h
  · simp [h]

/-- A chain of 128 byte sectors: two slots, the second one empty. -/
example : DirWalk [1, 0xfffffffe] [] 0 [0, 1] false ∧
    SlotsOk .little (encodeSlot .little sampleSlot ++ List.replicate 128 0) ∧
    (entriesOf .little (encodeSlot .little sampleSlot ++ List.replicate 128 0)).length = 1 := by
  refine ⟨.step (by decide) (by decide) (by decide) rfl
    (.step (by decide) (by decide) (by decide) rfl (.marker (Or.inl rfl))), ?_, ?_⟩ <;>
    decide +kernel

/-! ### C14: termination, no sector twice, clean-up -/

/-- For every file: the outcome is success or error (no endless loop, no access out of
  bounds), at most 1025 sectors are read, no sector is read twice, and after an error the
  list is empty, or as it was if nothing was read. -/
theorem C14_directory_safe (io : IoHandle) (dev : Dev) (sat : List Nat) (list : List DirEntry)
    (root : Nat)
    (hsn : sat.length ≤ 2 ^ 25) (hsv : ∀ v ∈ sat, v < 2 ^ 32) (hr : root < 2 ^ 32) :
    let out := readDirectory io dev ⟨sat⟩ list root
    (out.1.res = .ok () ∨ (out.1.res = .err ∧ (out.2 = [] ∨ out.1.reads = [] ∧ out.2 = list))) ∧
    out.1.reads.length ≤ 1025 ∧
    out.1.reads.Nodup ∧
    ∀ r ∈ out.1.reads, r.2 = io.sectorSize := by
  have hwf : (⟨sat⟩ : AllocTable).WF := ⟨hsn, hsv⟩
  show ((readDirectory io dev ⟨sat⟩ list root).1.res = .ok () ∨ _) ∧ _
  unfold readDirectory
  by_cases hbad : io.sectorSize = 0 ∨ io.sectorSize > MAX_ALLOC ∨ io.sectorSize % dirEntrySize ≠ 0
  · rw [if_pos hbad]; exact ⟨Or.inr ⟨rfl, Or.inr ⟨rfl, rfl⟩⟩, by simp, by simp, by simp⟩
  · rw [if_neg hbad]
    by_cases he : root = EOC
    · rw [if_pos he]; exact ⟨Or.inr ⟨rfl, Or.inr ⟨rfl, rfl⟩⟩, by simp, by simp, by simp⟩
    · rw [if_neg he]
      have h0 : ¬ io.sectorSize = 0 := fun h => hbad (Or.inl h)
      have h128 : ¬ io.sectorSize % 128 ≠ 0 := fun h => hbad (Or.inr (Or.inr h))
      obtain ⟨h1, h2, ids, h3, h4, _⟩ := dirLoop_safe io dev ⟨sat⟩ hwf
        (k := io.sectorSize / 128) (by omega) (maxDirDepth + 1) root [] 0 list hr
      have hnd : (dirLoop io dev ⟨sat⟩ (maxDirDepth + 1) root [] 0 list).reads.Nodup := by
        rw [h3]
        refine (List.pairwise_map).2 (h4.imp ?_)
        intro a b hab heq
        simp only [Prod.mk.injEq, and_true] at heq
        have := Nat.eq_of_mul_eq_mul_right (by omega) heq
        omega
      have hsz : ∀ r ∈ (dirLoop io dev ⟨sat⟩ (maxDirDepth + 1) root [] 0 list).reads,
          r.2 = io.sectorSize := by
        rw [h3]; intro r hr
        rw [List.mem_map] at hr
        obtain ⟨_, _, rfl⟩ := hr
        rfl
      simp only []
      rcases h1 with h | ⟨L, h⟩ <;> rw [h]
      · exact ⟨Or.inr ⟨rfl, Or.inl rfl⟩, h2, hnd, hsz⟩
      · exact ⟨Or.inl rfl, h2, hnd, hsz⟩

/-! ### C13: identifiers are positions -/

theorem entriesOf_mem {e : Endian} {d : Bytes} {x : DirEntry} :
    x ∈ entriesOf e d ↔
      x.id < slotCount d ∧ byteAt (slot d x.id) 66 ≠ 0 ∧ x = entryOf e x.id (slot d x.id) := by
  unfold entriesOf
  rw [List.mem_filterMap]
  constructor
  · rintro ⟨i, hi, h⟩
    split at h
    · cases h
    · next h66 =>
      cases h
      exact ⟨List.mem_range.1 hi, h66, rfl⟩
  · rintro ⟨h1, h2, h3⟩
    refine ⟨x.id, List.mem_range.2 h1, ?_⟩
    rw [if_neg h2, ← h3]

theorem entriesOf_sorted (e : Endian) (d : Bytes) :
    ((entriesOf e d).map (·.id)).Pairwise (· < ·) := by
  unfold entriesOf
  rw [List.pairwise_map, List.pairwise_filterMap]
  refine List.pairwise_lt_range.imp ?_
  intro a b hab x hx y hy
  split at hx
  · cases hx
  · split at hy
    · cases hy
    · cases hx; cases hy; exact hab

theorem dirLookup_sound {list : List DirEntry} {id : Nat} {x : DirEntry}
    (h : dirLookup list id = some x) : x ∈ list ∧ x.id = id := by
  induction list with
  | nil => cases h
  | cons d rest ih =>
    rw [dirLookup] at h
    split at h
    · next hd => cases h; exact ⟨by simp, hd⟩
    · have := ih h; exact ⟨by simp [this.1], this.2⟩

theorem dirLookup_none {list : List DirEntry} {id : Nat} (h : dirLookup list id = none) :
    ∀ x ∈ list, x.id ≠ id := by
  induction list with
  | nil => simp
  | cons d rest ih =>
    rw [dirLookup] at h
    split at h
    · cases h
    · next hd =>
      intro x hx
      rcases List.mem_cons.1 hx with rfl | hx
      · exact hd
      · exact ih h x hx

/-- In the list of a directory with the concatenated sectors `d`: identifiers are strictly
  increasing (so none occurs twice), each entry carries the position of its slot, and
  looking up an identifier gives the entry decoded from the slot at that position, or
  nothing when that slot is empty or beyond the end. -/
theorem C13_identifiers_are_positions (io : IoHandle) (dev : Dev) (sat : List Nat)
    (root k : Nat) (list : List DirEntry)
    (hss : io.sectorSize = 128 * k) (hk : 0 < k) (hmax : io.sectorSize ≤ 128 * 1024 * 1024)
    (hsn : sat.length ≤ 2 ^ 25) (hsv : ∀ v ∈ sat, v < 2 ^ 32)
    (hr : root < 2 ^ 32) (hne : root ≠ 0xfffffffe)
    (hok : (readDirectory io dev ⟨sat⟩ [] root).1.res = .ok ())
    (hlist : (readDirectory io dev ⟨sat⟩ [] root).2 = list) :
    ∃ (ids : List Nat) (repeated : Bool) (secs : List Bytes),
      DirWalk sat [] root ids repeated ∧
      ids.map (sector dev io.sectorSize) = secs.map some ∧
      (list.map (·.id)).Pairwise (· < ·) ∧
      (∀ id, dirLookup list id =
        if id < slotCount secs.flatten ∧ byteAt (slot secs.flatten id) 66 ≠ 0
        then some (entryOf io.byteOrder id (slot secs.flatten id)) else none) := by
  obtain ⟨ids, r, secs, hw, _, hsec, _, hl⟩ :=
    (C15_directory_exact io dev sat root k list hss hk hmax hsn hsv hr hne).1 ⟨hok, hlist⟩
  refine ⟨ids, r, secs, hw, hsec, ?_, ?_⟩
  · rw [hl]; exact entriesOf_sorted _ _
  · intro id
    rw [hl]
    cases hx : dirLookup (entriesOf io.byteOrder secs.flatten) id with
    | some x =>
      obtain ⟨hm, rfl⟩ := dirLookup_sound hx
      obtain ⟨h1, h2, h3⟩ := entriesOf_mem.1 hm
      rw [if_pos ⟨h1, h2⟩, ← h3]
    | none =>
      rw [if_neg]
      rintro ⟨h1, h2⟩
      exact dirLookup_none hx (entryOf io.byteOrder id (slot secs.flatten id))
        (entriesOf_mem.2 ⟨h1, h2, rfl⟩) rfl

/-- A file of one 128 byte sector (after the header sector) that holds one entry is read
  successfully, so the hypotheses of C13 can be met. -/
example : (readDirectory ⟨3, 62, 128, 64, 4096, .little, 0, 1252⟩
    (Dev.ofBytes (List.replicate 128 0 ++ encodeSlot .little sampleSlot)) ⟨[0xfffffffe]⟩ [] 0).1.res
    = .ok () := by decide +kernel

end Olecf.Props
