import Verif.Spec.InPlace
import Verif.Props.Unused

/-
  C114: replacing the data of a stream in place changes this stream only.
-/

namespace Olecf.Props
open Spec

theorem chain_reaches {table : List Nat} {a b : Nat} {ids : List Nat} (hc : Chain table a ids b) :
    ∀ j ∈ ids, Reaches table a j := by
  induction hc with
  | nil => intro j hj; cases hj
  | cons h1 _ ih =>
    intro j hj
    rcases List.mem_cons.1 hj with rfl | hj
    · exact .here (List.getElem?_eq_some_iff.1 h1).1
    · exact .next h1 (ih j hj)

section
variable {content content' : Bytes} {e : Endian} {h : HeaderFields} {sat ssat : List Nat} {slots : List SlotFields}

theorem sameIn_sector {P : Nat → Prop} (hs : SameIn content content' h P) {j : Nat} (hj : P j) :
    SameSector content content' h j :=
  sector_same fun p h1 h2 => hs p (Or.inr ⟨j, hj, h1, h2⟩)

theorem layout_sameIn {P : Nat → Prop} (hs : SameIn content content' h P)
    (hP : ∀ j, TableSector content e h sat j → P j) (hl : Layout content e h sat ssat slots) :
    Layout content' e h sat ssat slots :=
  layout_same hl (fun p hp => hs p (Or.inl hp)) (fun _ hj => sameIn_sector hs (hP _ (.msat hj)))
    (fun _ h1 h2 => sameIn_sector hs (hP _ (.listed h1 h2)))
    (fun _ _ _ h1 h2 h3 h4 => sameIn_sector hs (hP _ (.further h1 h2 h3 h4)))
    (fun _ _ hc j hj => sameIn_sector hs (hP _ (.ssat (chain_reaches hc j hj))))
    (fun _ _ hc j hj => sameIn_sector hs (hP _ (.directory (chain_reaches hc j hj))))

theorem longData_same {start : Nat} {data : Bytes} (hs : ∀ j, Reaches sat start j → SameSector content content' h j)
    (hd : LongData content (2 ^ h.sectorExp) sat start data) : LongData content' (2 ^ h.sectorExp) sat start data := by
  obtain ⟨ids, last, secs, g1, g2, g3, g4⟩ := hd
  exact ⟨ids, last, secs, g1, g2, sectorsAre_same (fun j hj => hs j (chain_reaches g1 j hj)) g3, g4⟩

theorem shortData_same {container container' : Bytes} {short start : Nat} {data : Bytes}
    (hlen : container'.length = container.length)
    (hs : ∀ n, Reaches ssat start n →
      (container'.drop (n * short)).take short = (container.drop (n * short)).take short)
    (hd : ShortData container short ssat start data) : ShortData container' short ssat start data := by
  obtain ⟨ids, last, g1, g2, g3, g4⟩ := hd
  refine ⟨ids, last, g1, g2, by rw [hlen]; exact g3, ?_⟩
  have : ids.flatMap (fun n => (container'.drop (n * short)).take short) =
      ids.flatMap (fun n => (container.drop (n * short)).take short) := by
    rw [List.flatMap_def, List.flatMap_def]
    exact congrArg List.flatten (List.map_congr_left fun n hn => hs n (chain_reaches g1 n hn))
  rw [this]
  exact g4

theorem sectorsAre_length {content : Bytes} {ss : Nat} {ids : List Nat} {secs : List Bytes}
    (hi : SectorsAre content ss ids secs) : secs.flatten.length = ids.length * ss := by
  unfold SectorsAre at hi
  induction ids generalizing secs with
  | nil =>
    cases secs with
    | nil => simp
    | cons s secs => cases hi
  | cons a ids ih =>
    cases secs with
    | nil => cases hi
    | cons s secs =>
      rw [List.map_cons, List.map_cons, List.cons.injEq] at hi
      have h1 : s.length = ss := by
        have := hi.1
        unfold sector Dev.get at this
        split at this
        · split at this
          · rename_i hl
            cases this
            exact hl
          · cases this
        · cases this
      rw [List.flatten_cons, List.length_append, ih hi.2, h1, List.length_cons, Nat.succ_mul, Nat.add_comm]

/-- What the entries hold in the second file. -/
theorem holds_replaced {container container' : Bytes} {list : List DirEntry} {d : DirEntry} {data : Bytes}
    (hlong : ∀ c ∈ list, c ≠ d → c.type = 2 → h.minStreamSize ≤ c.size → ∀ x,
      LongData content (2 ^ h.sectorExp) sat c.start x → LongData content' (2 ^ h.sectorExp) sat c.start x)
    (hshort : ∀ c ∈ list, c ≠ d → c.type = 2 → c.size < h.minStreamSize → ∀ x,
      ShortData container (2 ^ h.shortExp) ssat c.start x → ShortData container' (2 ^ h.shortExp) ssat c.start x)
    (hsize : d.size = data.length)
    (hd1 : d.size < h.minStreamSize → ShortData container' (2 ^ h.shortExp) ssat d.start data)
    (hd2 : h.minStreamSize ≤ d.size → LongData content' (2 ^ h.sectorExp) sat d.start data)
    {a : DirEntry} {doc : Doc} (hh : Holds content h sat ssat container list a doc) (ha : a ∈ list) :
    ∃ doc', Replaced list d data a doc doc' ∧ Holds content' h sat ssat container' list a doc' := by
  induction hh with
  | @stream c x h1 h2 h3 h4 h5 =>
    by_cases hc : c = d
    · subst hc
      exact ⟨_, .this x, .stream h1 h2 hsize hd1 hd2⟩
    · exact ⟨_, .other x hc, .stream h1 h2 h3 (fun hs => hshort c ha hc h1 hs x (h4 hs))
        (fun hl => hlong c ha hc h1 hl x (h5 hl))⟩
  | @storage a kids es h1 h2 h3 h4 _ ih =>
    have hk : ∀ i : Nat, ∃ doc' : Doc, ∀ (c : DirEntry) (k : Bytes × Doc), es[i]? = some c → kids[i]? = some k →
        Replaced list d data c k.2 doc' ∧ Holds content' h sat ssat container' list c doc' := by
      intro i
      cases hc : es[i]? with
      | none => exact ⟨.stream [], fun c k hc' => by cases hc'⟩
      | some c =>
        cases hk : kids[i]? with
        | none => exact ⟨.stream [], fun c k _ hk' => by cases hk'⟩
        | some k =>
          obtain ⟨doc', g⟩ := ih i c k hc hk (siblings_mem h2 c (List.mem_of_getElem? hc))
          refine ⟨doc', fun c' k' hc' hk' => ?_⟩
          cases hc'
          cases hk'
          exact g
    choose f hf using hk
    have hget : ∀ i k', (kids.mapIdx fun i k => (k.1, f i))[i]? = some k' →
        ∃ k, kids[i]? = some k ∧ k' = (k.1, f i) := by
      intro i k' hk'
      rw [List.getElem?_mapIdx] at hk'
      cases hk : kids[i]? with
      | none => rw [hk] at hk'; cases hk'
      | some k => rw [hk] at hk'; cases hk'; exact ⟨k, rfl, rfl⟩
    refine ⟨.storage (kids.mapIdx fun i k => (k.1, f i)), .storage h2 h3 ?_ ?_, .storage h1 h2 ?_ ?_ ?_⟩
    · apply List.ext_getElem?
      intro i
      rw [List.getElem?_map, List.getElem?_mapIdx, List.getElem?_map]
      cases kids[i]? <;> rfl
    · intro i c k k' hc hk hk'
      obtain ⟨k1, g1, rfl⟩ := hget i k' hk'
      rw [hk] at g1
      cases g1
      exact (hf i c k hc hk).1
    · rw [List.length_mapIdx, h3]
    · intro i c k' hc hk'
      obtain ⟨k, g1, rfl⟩ := hget i k' hk'
      exact h4 i c k hc g1
    · intro i c k' hc hk'
      obtain ⟨k, g1, rfl⟩ := hget i k' hk'
      exact (hf i c k hc g1).2

/-- C114, streams in sectors: the data of the stream of the entry `d` is replaced; header, tables, directory, the
  container of the short streams and all other streams keep their bytes (whatever happens to the rest of the file).
  The file opens, and shows the document with the new data in the place of the old, and nothing else changed. -/
theorem C114_long_stream {doc : Doc} {root d : DirEntry} {data : Bytes}
    (hl : Layout content e h sat ssat slots) (hg : GoodLinks (entriesOfSlots slots) root)
    (hf : HeldBy content h slots doc)
    (hs : SameIn content content' h fun j => TableSector content e h sat j ∨ Reaches sat root.start j ∨
      OtherStreamSector h sat (entriesOfSlots slots) d j)
    (hsize : d.size = data.length) (hlong : h.minStreamSize ≤ d.size)
    (hd : LongData content' (2 ^ h.sectorExp) sat d.start data)
    (cmp : Bytes → Bytes → Option Bool) (hcmp : ∀ n ∈ (entriesOfSlots slots).map (·.name), Comparable cmp n)
    (st : FileState) (hst : Reachable cmp st) (hclosed : st.file.handle = none)
    (hid : HandleId) (hdev : st.world.dev hid = Dev.ofBytes content') (flags : Nat) (hfl : flags % 4 = 1) :
    ∃ doc', Replaced (entriesOfSlots slots) d data root doc doc' ∧
    (openHandle cmp hid flags {} st).1 = .ok () ∧
    ∃ t f it, (openHandle cmp hid flags {} st).2.file.tree = some t ∧
      (openHandle cmp hid flags {} st).2.file.ctx
        ((openHandle cmp hid flags {} st).2.world.dev hid) = some f ∧
      rootItem (some t) = some it ∧ Shows t f it doc' := by
  obtain ⟨e', sat', ssat', root', cids, clast, csecs, h1, h2, h3, h4, h5, h6⟩ := hf
  obtain ⟨rfl, rfl, rfl⟩ := layout_unique hl h1 h2
  have hr := h2.hroot.symm.trans hg.hroot
  cases hr
  have hroot := List.mem_of_find?_eq_some h2.hroot
  obtain ⟨doc', k1, k2⟩ := holds_replaced (content' := content') (container' := csecs.flatten) (d := d) (data := data)
    (fun c hc hcd ht hm x hx => longData_same
      (fun j hj => sameIn_sector hs (Or.inr (Or.inr ⟨c, hc, hcd, ht, hm, hj⟩))) hx)
    (fun _ _ _ _ _ _ hx => hx) hsize (fun hn => absurd hlong (by omega)) (fun _ => hd) h6 hroot
  refine ⟨doc', k1, C47_document_shown ⟨h, slots, ⟨e, sat, ssat, root, cids, clast, csecs,
    layout_sameIn hs (fun j hj => Or.inl hj) h1, h2, h3, h4, ?_, k2⟩, rfl⟩ cmp hcmp st hst hclosed hid hdev flags hfl⟩
  exact sectorsAre_same (fun j hj => sameIn_sector hs (Or.inr (Or.inl (chain_reaches h4 j hj)))) h5

/-- C114, streams in short sectors: the data of the stream of the entry `d` is replaced in the container of the short
  streams, which is in the sectors `cids` (`csecs` before, `csecs'` now); header, tables, directory, all long streams
  and the short sectors of all other short streams keep their bytes.  The file opens, and shows the document with the
  new data in the place of the old, and nothing else changed. -/
theorem C114_short_stream {doc : Doc} {root d : DirEntry} {data : Bytes} {cids : List Nat} {clast : Nat}
    {csecs csecs' : List Bytes}
    (hl : Layout content e h sat ssat slots) (hg : GoodLinks (entriesOfSlots slots) root)
    (hexp : h.shortExp ≤ h.sectorExp) (hc : Chain sat root.start cids clast)
    (hcs : SectorsAre content (2 ^ h.sectorExp) cids csecs)
    (hf : Holds content h sat ssat csecs.flatten (entriesOfSlots slots) root doc)
    (hs : SameIn content content' h fun j => TableSector content e h sat j ∨
      OtherStreamSector h sat (entriesOfSlots slots) d j)
    (hcs' : SectorsAre content' (2 ^ h.sectorExp) cids csecs')
    (hother : ∀ c ∈ entriesOfSlots slots, c ≠ d → c.type = 2 → c.size < h.minStreamSize → ∀ n, Reaches ssat c.start n →
      (csecs'.flatten.drop (n * 2 ^ h.shortExp)).take (2 ^ h.shortExp) =
        (csecs.flatten.drop (n * 2 ^ h.shortExp)).take (2 ^ h.shortExp))
    (hsize : d.size = data.length) (hshort : d.size < h.minStreamSize)
    (hd : ShortData csecs'.flatten (2 ^ h.shortExp) ssat d.start data)
    (cmp : Bytes → Bytes → Option Bool) (hcmp : ∀ n ∈ (entriesOfSlots slots).map (·.name), Comparable cmp n)
    (st : FileState) (hst : Reachable cmp st) (hclosed : st.file.handle = none)
    (hid : HandleId) (hdev : st.world.dev hid = Dev.ofBytes content') (flags : Nat) (hfl : flags % 4 = 1) :
    ∃ doc', Replaced (entriesOfSlots slots) d data root doc doc' ∧
    (openHandle cmp hid flags {} st).1 = .ok () ∧
    ∃ t f it, (openHandle cmp hid flags {} st).2.file.tree = some t ∧
      (openHandle cmp hid flags {} st).2.file.ctx
        ((openHandle cmp hid flags {} st).2.world.dev hid) = some f ∧
      rootItem (some t) = some it ∧ Shows t f it doc' := by
  have hroot := List.mem_of_find?_eq_some hg.hroot
  have hlen : csecs'.flatten.length = csecs.flatten.length := (sectorsAre_length hcs').trans (sectorsAre_length hcs).symm
  obtain ⟨doc', k1, k2⟩ := holds_replaced (content' := content') (container' := csecs'.flatten) (d := d) (data := data)
    (fun c hc hcd ht hm x hx => longData_same
      (fun j hj => sameIn_sector hs (Or.inr ⟨c, hc, hcd, ht, hm, hj⟩)) hx)
    (fun c hc hcd ht hm x hx => shortData_same hlen (hother c hc hcd ht hm) hx) hsize (fun _ => hd)
    (fun hn => absurd hshort (by omega)) hf hroot
  exact ⟨doc', k1, C47_document_shown ⟨h, slots, ⟨e, sat, ssat, root, cids, clast, csecs',
    layout_sameIn hs (fun j hj => Or.inl hj) hl, hg, hexp, hc, hcs', k2⟩, rfl⟩ cmp hcmp st hst hclosed hid hdev flags hfl⟩

end

/-! ### Non-vacuity -/

theorem reaches_closed {table : List Nat} {S : List Nat} (hS : ∀ x ∈ S, (table[x]?).all (fun n => decide (n ∈ S)))
    {a j : Nat} (hr : Reaches table a j) (ha : a ∈ S) : j ∈ S ∧ j < table.length := by
  induction hr with
  | here hl => exact ⟨ha, hl⟩
  | next hn _ ih =>
    have := hS _ ha
    rw [hn] at this
    exact ih (of_decide_eq_true this)

/-- The sample file with other sectors. -/
def patchedFile (secs : List Bytes) : Bytes := encodeHeader .little sampleFileHeader ++ secs.flatten

theorem patched_sector {secs : List Bytes} (hs : ∀ s ∈ secs, s.length = 512) (h7 : secs.length = 7) {i : Nat} {s : Bytes}
    (hi : secs[i]? = some s) : sector (Dev.ofBytes (patchedFile secs)) 512 i = some s := by
  refine sector_of_blocks (encodeHeader_length .little _ sampleFileHeader_fits) hs hi ?_
  have := (List.getElem?_eq_some_iff.1 hi).1
  omega

/-- The sectors of tables and directory of the sample file. -/
theorem sample_tableSector {j : Nat} (hj : TableSector (sampleFile .little) .little sampleFileHeader sampleSat j) :
    j ∈ [0, 1, 2, 5] := by
  have hS : ∀ x ∈ [1, 2, 5, 0xfffffffe], (sampleSat[x]?).all (fun n => decide (n ∈ [1, 2, 5, 0xfffffffe])) := by
    decide +kernel
  have hr : ∀ a j, a ∈ [1, 2, 5, 0xfffffffe] → Reaches sampleSat a j → j ∈ [0, 1, 2, 5] := by
    intro a j ha hj
    obtain ⟨h1, h2⟩ := reaches_closed hS hj ha
    have h3 : sampleSat.length = 128 := by decide +kernel
    rw [h3] at h2
    simp only [List.mem_cons, List.not_mem_nil, or_false] at h1 ⊢
    omega
  have hon : ∀ i, ¬ OnMsat (sampleFile .little) .little (2 ^ sampleFileHeader.sectorExp) sampleFileHeader.msatSector i := by
    intro i hi
    cases hi with
    | here h => exact h rfl
    | next h _ _ => exact h rfl
  cases hj with
  | msat h => exact absurd h (hon _)
  | listed h1 h2 =>
    have : ∀ j ∈ sampleFileHeader.msat, j ≠ 0xffffffff → j ∈ [0, 1, 2, 5] := by decide +kernel
    exact this j h1 h2
  | further h _ _ _ => exact absurd h (hon _)
  | ssat h => exact hr _ j (by decide) h
  | directory h => exact hr _ j (by decide) h

theorem patched_same {secs : List Bytes} (hs : ∀ s ∈ secs, s.length = 512) (h7 : secs.length = 7) {P : Nat → Prop}
    (hP : ∀ j, P j → ∃ s, (sampleSectors .little)[j]? = some s ∧ secs[j]? = some s) :
    SameIn (sampleFile .little) (patchedFile secs) sampleFileHeader P := by
  have h512 := encodeHeader_length .little sampleFileHeader sampleFileHeader_fits
  rintro p (hp | ⟨j, hj, h1, h2⟩)
  · unfold sampleFile patchedFile
    rw [List.getElem?_append_left (by omega), List.getElem?_append_left (by omega)]
  · obtain ⟨s, g1, g2⟩ := hP j hj
    have k1 := (get_ofBytes_iff _ _ _ _ (by decide)).1 (sample_sector .little g1)
    have k2 := (get_ofBytes_iff _ _ _ _ (by decide)).1 (patched_sector hs h7 g2)
    rw [show 2 ^ sampleFileHeader.sectorExp = 512 from rfl] at h1 h2
    obtain ⟨q, rfl⟩ := Nat.exists_eq_add_of_le h1
    rw [k1.2 q (by omega), k2.2 q (by omega)]

theorem sample_set_length {secs : List Bytes} (hs : ∀ s ∈ secs, s.length = 512) (i : Nat) {x : Bytes}
    (hx : x.length = 512) : ∀ s ∈ secs.set i x, s.length = 512 := by
  intro s hm
  rcases List.mem_or_eq_of_mem_set hm with hm | rfl
  · exact hs s hm
  · exact hx

/-- The hypotheses of C114_long_stream are met: the stream `C` of the sample file, which has the sectors 4 and 6, gets
  600 bytes `b`. -/
example (b : UInt8) (cmp : Bytes → Bytes → Option Bool) (st : FileState) (hst : Reachable cmp st)
    (hclosed : st.file.handle = none) (hdev : st.world.dev (.user 1) = Dev.ofBytes (patchedFile
      (((sampleSectors .little).set 4 (List.replicate 512 b)).set 6 (List.replicate 512 b)))) :
    ∃ doc', Replaced (entriesOfSlots sampleSlots) (sampleEntry 4) (List.replicate 600 b) (sampleEntry 0) sampleDoc doc' ∧
    (openHandle cmp (.user 1) 1 {} st).1 = .ok () := by
  have hlen := sample_set_length (sample_set_length (sampleSectors_length .little) 4
    (List.length_replicate (n := 512) (a := b))) 6 (List.length_replicate (n := 512) (a := b))
  obtain ⟨doc', h1, h2, _⟩ := C114_long_stream (d := sampleEntry 4) (sample_layout .little) sample_links
    (sampleFile_held .little) (patched_same hlen rfl (fun j hj => by
      have hj : j ∈ [0, 1, 2, 5, 3] := by
        rcases hj with hj | hj | ⟨c, hc, hcd, ht, hm, _⟩
        · exact List.mem_append_left [3] (sample_tableSector hj)
        · have hS : ∀ x ∈ [3, 0xfffffffe], (sampleSat[x]?).all (fun n => decide (n ∈ [3, 0xfffffffe])) := by
            decide +kernel
          obtain ⟨h1, h2⟩ := reaches_closed hS hj (by decide)
          have h3 : sampleSat.length = 128 := by decide +kernel
          simp only [List.mem_cons, List.not_mem_nil, or_false] at h1 ⊢
          omega
        · rw [sample_entries] at hc
          have : ∀ c ∈ [0, 1, 2, 3, 4].map sampleEntry, c ≠ sampleEntry 4 → c.type = 2 →
              ¬ sampleFileHeader.minStreamSize ≤ c.size := by decide +kernel
          exact absurd hm (this c hc hcd ht)
      simp only [List.mem_cons, List.not_mem_nil, or_false] at hj
      rcases hj with rfl | rfl | rfl | rfl | rfl <;> exact ⟨_, rfl, rfl⟩))
    (data := List.replicate 600 b) List.length_replicate.symm (by decide) (by
      refine ⟨[4, 6], 0xfffffffe, [List.replicate 512 b, List.replicate 512 b],
        .cons (nxt := 6) rfl (.cons rfl (.nil _)), by decide, ?_, ⟨List.replicate 424 b, ?_⟩⟩
      · simp only [SectorsAre, List.map_cons, List.map_nil]
        rw [show 2 ^ sampleFileHeader.sectorExp = 512 from rfl, patched_sector hlen rfl (i := 4) rfl,
          patched_sector hlen rfl (i := 6) rfl]
      · rw [List.flatten_cons, List.flatten_cons, List.flatten_nil, List.append_nil, List.replicate_append_replicate,
          List.replicate_append_replicate])
    cmp (sample_comparable cmp) st hst hclosed (.user 1) hdev 1 rfl
  exact ⟨doc', h1, h2⟩

/-- The hypotheses of C114_short_stream are met: the stream `B` of the sample file, in the short sector 1, gets the bytes
  9, 9, 9. -/
example (cmp : Bytes → Bytes → Option Bool) (st : FileState) (hst : Reachable cmp st)
    (hclosed : st.file.handle = none) (hdev : st.world.dev (.user 1) = Dev.ofBytes (patchedFile
      ((sampleSectors .little).set 3 (sampleContainer.take 64 ++ List.replicate 64 9 ++ sampleContainer.drop 128)))) :
    ∃ doc', Replaced (entriesOfSlots sampleSlots) (sampleEntry 3) [9, 9, 9] (sampleEntry 0) sampleDoc doc' ∧
    (openHandle cmp (.user 1) 1 {} st).1 = .ok () := by
  have hx : (sampleContainer.take 64 ++ List.replicate 64 9 ++ sampleContainer.drop 128).length = 512 := by
    decide +kernel
  have hlen := sample_set_length (sampleSectors_length .little) 3 hx
  obtain ⟨doc', h1, h2, _⟩ := C114_short_stream (d := sampleEntry 3) (data := [9, 9, 9]) (cids := [3])
    (clast := 0xfffffffe) (csecs' := [sampleContainer.take 64 ++ List.replicate 64 9 ++ sampleContainer.drop 128])
    (sample_layout .little) sample_links (by decide) (.cons rfl (.nil _)) (sample_container .little)
    (sample_root_holds .little)
    (patched_same hlen rfl (fun j hj => by
      have hj : j ∈ [0, 1, 2, 5, 4, 6] := by
        rcases hj with hj | ⟨c, hc, hcd, ht, hm, hj⟩
        · exact List.mem_append_left [4, 6] (sample_tableSector hj)
        · rw [sample_entries] at hc
          have hc4 : ∀ c ∈ [0, 1, 2, 3, 4].map sampleEntry, c.type = 2 →
              sampleFileHeader.minStreamSize ≤ c.size → c.start = 4 := by decide +kernel
          rw [hc4 c hc ht hm] at hj
          have hS : ∀ x ∈ [4, 6, 0xfffffffe], (sampleSat[x]?).all (fun n => decide (n ∈ [4, 6, 0xfffffffe])) := by
            decide +kernel
          obtain ⟨h1, h2⟩ := reaches_closed hS hj (by decide)
          have h3 : sampleSat.length = 128 := by decide +kernel
          simp only [List.mem_cons, List.not_mem_nil, or_false] at h1 ⊢
          omega
      simp only [List.mem_cons, List.not_mem_nil, or_false] at hj
      rcases hj with rfl | rfl | rfl | rfl | rfl | rfl <;> exact ⟨_, rfl, rfl⟩))
    (by
      simp only [SectorsAre, List.map_cons, List.map_nil]
      rw [show 2 ^ sampleFileHeader.sectorExp = 512 from rfl, patched_sector hlen rfl (i := 3) rfl])
    (fun c hc hcd ht hm n hn => by
      rw [sample_entries] at hc
      have hc0 : ∀ c ∈ [0, 1, 2, 3, 4].map sampleEntry, c ≠ sampleEntry 3 → c.type = 2 →
          c.size < sampleFileHeader.minStreamSize → c.start = 0 := by decide +kernel
      rw [hc0 c hc hcd ht hm] at hn
      have hS : ∀ x ∈ [0, 2, 0xfffffffe], (sampleSsat[x]?).all (fun n => decide (n ∈ [0, 2, 0xfffffffe])) := by
        decide +kernel
      obtain ⟨h1, h2⟩ := reaches_closed hS hn (by decide)
      have h3 : sampleSsat.length = 128 := by decide +kernel
      simp only [List.mem_cons, List.not_mem_nil, or_false] at h1
      rcases h1 with rfl | rfl | rfl
      · decide +kernel
      · decide +kernel
      · omega)
    rfl (by decide)
    ⟨[1], 0xfffffffe, .cons rfl (.nil _), by decide, by decide +kernel, ⟨List.replicate 61 9, by decide +kernel⟩⟩
    cmp (sample_comparable cmp) st hst hclosed (.user 1) hdev 1 rfl
  exact ⟨doc', h1, h2⟩

end Olecf.Props
