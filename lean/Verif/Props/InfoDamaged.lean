import Verif.Props.ExportTable
import Verif.Props.Info

/-
  C121: the list of olecfinfo of damaged files.
-/

namespace Olecf.Props
open Olecf.Spec

/-- C121: the hierarchy of a damaged file.  For every file that holds a document and every damaged copy of it of which
  the header, the master table and the first `k` sectors of the sector table can be read, and the directory, which
  these describe: an object in the same state opens both, and the list that olecfinfo prints of the damaged copy, with
  the names and the sizes of all items, is that of the intact file, whichever data was lost. -/
theorem C121_same_list {content : Bytes} {hd : HeaderFields} {slots : List SlotFields} {doc : Doc}
    (hf : HeldBy content hd slots doc) (cmp : Bytes → Bytes → Option Bool)
    (hcmp : ∀ n ∈ (entriesOfSlots slots).map (·.name), Comparable cmp n)
    (st intact : FileState) (hst : Reachable cmp st) (hintact : Reachable cmp intact)
    (hclosed : st.file.handle = none) (hsame : intact.file = st.file) (h : HandleId)
    (hwhole : intact.world.dev h = Dev.ofBytes content)
    (hdev : Damaged (st.world.dev h) (Dev.ofBytes content))
    {e : Endian} {sat ssat : List Nat} (hlay : Layout content e hd sat ssat slots) {k : Nat}
    (hread : PartRead (st.world.dev h) e hd sat k)
    (flags : Nat) (hfl : flags % 4 = 1) :
    (openHandle cmp h flags {} st).1 = .ok () ∧ (openHandle cmp h flags {} intact).1 = .ok () ∧
    (openHandle cmp h flags {} st).2.file.io = (openHandle cmp h flags {} intact).2.file.io ∧
    ∃ t, (openHandle cmp h flags {} st).2.file.tree = some t ∧
      (openHandle cmp h flags {} intact).2.file.tree = some t ∧
      ∀ (u : Libuna) (signedChar : Bool) (fuel : Nat),
        infoItems ⟨u, (openHandle cmp h flags {} st).2.file.io, t, signedChar⟩ fuel (rootItem (some t)) =
        infoItems ⟨u, (openHandle cmp h flags {} intact).2.file.io, t, signedChar⟩ fuel (rootItem (some t)) := by
  obtain ⟨hok, _⟩ := C111_table_partial hf cmp hcmp st hst hclosed h hdev hlay hread flags hfl
  obtain ⟨hok', _⟩ := C47_document_shown ⟨_, _, hf, rfl⟩ cmp hcmp intact hintact (by rw [hsame]; exact hclosed) h hwhole flags hfl
  have hcmp' : ∀ d ∈ entriesOfSlots slots, NameComparable cmp d :=
    fun d hd => hcmp d.name (List.mem_map_of_mem hd)
  obtain ⟨_, _, _, root, _, _, _, _, hg, _, _, _, _⟩ := hf
  obtain ⟨l1, t1, m1, ho1, _⟩ := layout_opens hlay hg cmp hcmp' st.file.io
  obtain ⟨l2, t2, m2, _, ho2, _⟩ := part_opens hlay hg cmp hcmp' st.file.io hdev hread
  have e1 := ho1.htree.symm.trans ho2.htree
  cases e1
  obtain ⟨k1, k2⟩ := openCore_ok_iff.2 ⟨_, _, _, _, ho1⟩
  obtain ⟨j1, j2⟩ := openCore_ok_iff.2 ⟨_, _, _, _, ho2⟩
  obtain ⟨_, _, _, _, _, p, pfile, _⟩ := openHandle_loaded (reachable_inv hintact).closed hok'
  obtain ⟨_, _, _, _, _, q, qfile, _⟩ := openHandle_loaded (reachable_inv hst).closed hok
  obtain ⟨p1, p2⟩ := openCore_ok_iff.2 ⟨_, _, _, _, p⟩
  obtain ⟨q1, q2⟩ := openCore_ok_iff.2 ⟨_, _, _, _, q⟩
  rw [hwhole, hsame] at p1 p2
  rw [k1] at p1
  cases p1
  rw [j1] at q1
  cases q1
  rw [k2] at p2
  rw [j2] at q2
  have hio := q2.symm.trans p2
  refine ⟨hok, hok', hio, t1, ?_, ?_, fun u c fuel => by rw [hio]⟩
  · rw [qfile]
    exact ho2.hltree
  · rw [pfile]
    exact ho1.hltree

/-- C121 for files that were written whole and then cut: as long as the part of the sector table is there that describes
  the directory, a new object opens the rest, and olecfinfo prints the list of the document (C77). -/
theorem C121_cut_listed {u : Libuna} (hu : IsLibuna u) (signedChar : Bool) (w : Writer)
    (kids : List (Bytes × Doc)) (hst : Storable w kids) (hn : TextNames w.order (.storage kids))
    (hms : msatCount w kids = 0) (k : Nat) (hdir : dirCount w kids ≤ k * w.perSector)
    (st : FileState) (hi : Initial st) (h : HandleId) (n : Nat) (hlen : (runCount w kids + k + 1) * w.ss ≤ n)
    (hdev : st.world.dev h = Dev.ofBytes ((encodeFile w kids).take n)) (flags : Nat) (hfl : flags % 4 = 1) :
    (openHandle (u.cmp8 w.order) h flags {} st).1 = .ok () ∧
    ∃ t os m, (openHandle (u.cmp8 w.order) h flags {} st).2.file.tree = some t ∧
      Depicts w.order (.storage kids) (.node (ascii "Root Entry") 0 os) ∧
      ∀ fuel, m ≤ fuel →
        infoItems ⟨u, (openHandle (u.cmp8 w.order) h flags {} st).2.file.io, t, signedChar⟩ fuel
          (rootItem (some t)) =
        (itemsText signedChar (.node (ascii "Root Entry") (containerOf w kids).length os), .ok ()) := by
  let intact : FileState := ⟨st.file, { st.world with dev := fun _ => Dev.ofBytes (encodeFile w kids) }⟩
  have hi' : Initial intact := hi
  have hr : Reachable (u.cmp8 w.order) st := ⟨st, [], hi, rfl⟩
  have hr' : Reachable (u.cmp8 w.order) intact := ⟨intact, [], hi', rfl⟩
  have hclosed : st.file.handle = none := by rw [hi.1]; rfl
  have hcmp : ∀ n ∈ (entriesOfSlots (slotsOfFile w kids)).map (·.name), Comparable (u.cmp8 w.order) n := by
    rw [slotsOfFile_names hst]
    intro n hm
    rcases List.mem_cons.1 hm with rfl | hm
    · exact rootName_comparable _ _
    · obtain ⟨path, d, hd⟩ := namesOfKids_docAt kids n hm
      obtain ⟨cs, h1, rfl⟩ := hn.text path n d hd
      exact text_comparable hu h1
  obtain ⟨h1, _, h2, t, h3, h4, h5⟩ := C121_same_list (encodeFile_held hst) (u.cmp8 w.order) hcmp st intact hr hr'
    hclosed rfl h rfl (by rw [hdev]; exact damaged_take _ _) (encodeFile_layout hst)
    (partRead_cut hst hms hdir hlen hdev) flags hfl
  obtain ⟨_, t', os, m, g1, g2, g3⟩ := C77_written_document_listed hu signedChar w kids hst hn intact hr' hclosed h rfl
    flags hfl
  rw [h4] at g1
  cases g1
  exact ⟨h1, t, os, m, h3, g2, fun fuel hf => (h5 u signedChar fuel).trans (g3 fuel hf)⟩

theorem tableKids_texts : TextNames tableWriter.order (.storage tableKids) := by
  refine ⟨?_, ?_⟩
  · intro path n x h
    rcases tableKids_last h with rfl | rfl
    · exact ⟨[65], by decide +kernel, by decide +kernel⟩
    · exact ⟨[66], by decide +kernel, by decide +kernel⟩
  · intro path kids h
    rcases tableKids_docAt h with ⟨_, h⟩ | ⟨_, _, _, h, _⟩
    · cases h
      unfold tableKids
      simp only [List.map_cons, List.map_nil]
      decide
    · cases h

/-- The file without the second sector of its sector table is listed like the whole file. -/
example {u : Libuna} (hu : IsLibuna u) : ∃ t os m,
    (openHandle (u.cmp8 tableWriter.order) (.user 1) 1 {} tableState).2.file.tree = some t ∧
    Depicts tableWriter.order (.storage tableKids) (.node (ascii "Root Entry") 0 os) ∧
    ∀ fuel, m ≤ fuel →
      infoItems ⟨u, (openHandle (u.cmp8 tableWriter.order) (.user 1) 1 {} tableState).2.file.io, t, true⟩ fuel
        (rootItem (some t)) =
      (itemsText true (.node (ascii "Root Entry") (containerOf tableWriter tableKids).length os), .ok ()) :=
  (C121_cut_listed hu true tableWriter tableKids tableKids_storable tableKids_texts tableKids_counts.2.2 1
    (by rw [tableKids_counts.1]; decide) tableState ⟨rfl, rfl⟩ (.user 1) 68096 (by rw [tableKids_runs]; decide) rfl 1
    rfl).2

end Olecf.Props
