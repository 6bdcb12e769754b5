import Verif.Props.DamageTable
import Verif.Props.ExportDamaged

/-
  C112: exports of files of which a part of the sector table is lost.
-/

namespace Olecf.Props
open Olecf.Spec

theorem readAll_eq {f f' : FileCtx} {d : DirEntry} (h : ∀ cur size, streamRead f' d cur size = streamRead f d cur size) :
    ∀ (sizes : List Nat) (cur : Int), readAll f' d cur sizes = readAll f d cur sizes := by
  intro sizes
  induction sizes with
  | nil => intro cur; rfl
  | cons n sizes ih =>
    intro cur
    rw [readAll, readAll, h]
    simp only [ih]

/-- C112: what is saved from a file of which a part of the sector table is lost.  For every file that holds a document
  and every damaged copy of it of which the header, the master table and the first `k` sectors of the sector table can
  be read, and the directory, which these describe: the file opens; and if no operation on the target fails, every
  part of the document gets its directory, and every stream of which all sectors are described by these `k` sectors of
  the table (for a short stream: the short sector table and the container are) and all reads succeed is there with all
  its data, whatever happened to the others.  Missing: the other streams may get other data
  (`C112_export_damaged_violated`), and what C61 assumes. -/
theorem C112_export_table_partial {content : Bytes} {hd : HeaderFields} {slots : List SlotFields} {doc : Doc}
    (hf : HeldBy content hd slots doc) (cmp : Bytes → Bytes → Option Bool)
    (hcmp : ∀ n ∈ (entriesOfSlots slots).map (·.name), Comparable cmp n)
    (hshort : 2 ≤ hd.shortExp)
    (hsize : ∀ d ∈ entriesOfSlots slots, d.id ≠ 0 → d.type ≠ 2 → d.size = 0)
    (st : FileState) (hst : Reachable cmp st) (hclosed : st.file.handle = none) (h : HandleId)
    (hdev : Damaged (st.world.dev h) (Dev.ofBytes content))
    {e : Endian} {sat ssat : List Nat} (hlay : Layout content e hd sat ssat slots) {k : Nat}
    (hread : PartRead (st.world.dev h) e hd sat k)
    (flags : Nat) (hfl : flags % 4 = 1) :
    (openHandle cmp h flags {} st).1 = .ok () ∧
    ∃ t f, (openHandle cmp h flags {} st).2.file.tree = some t ∧
      (openHandle cmp h flags {} st).2.file.ctx
        ((openHandle cmp h flags {} st).2.world.dev h) = some f ∧
      ∀ (env : ExportEnv) (g : Bytes → Bytes) (fuel : Nat) (dir : Path) (w : Disk),
        env.tree = t → env.ctx = f → NoSeparator env.sanitize → GoodNames g doc →
        (∀ (d : DirEntry) path x, DocAt doc (path ++ [d.name]) x →
          (env.utf8Name d).bind env.sanitize = some (g d.name)) →
        (entriesOfSlots slots).length ≤ fuel → Tidy w.fs → w.fs.has dir = false →
        w.fs.dir dir.dropLast = true → (∀ n, env.fault n = false) →
        ∀ path d, DocAt doc path d → (exportFile env fuel dir w).1.fs.dir (dir ++ path.map g) = true ∧
          (path ≠ [] → ∃ it, NamedFrom t (fun d => d.name) ⟨none, t.root⟩ path it ∧
            ((hd.minStreamSize ≤ it.entry.size ∧ Within sat (described hd k) it.entry.start ∨
              it.entry.size < hd.minStreamSize ∧
                ShortPart (st.world.dev h) hd sat (entriesOfSlots slots) k) →
              (it.entry.size = 0 ∨ ∀ cur size : Nat, size ≤ 2 ^ 63 - 1 →
                ∃ data, (streamRead f it.entry cur size).1.res = .ok data) →
              (exportFile env fuel dir w).1.fs.file (dir ++ path.map g ++ [dataName]) = some d.data)) := by
  obtain ⟨hok, _⟩ := C111_table_partial hf cmp hcmp st hst hclosed h hdev hlay hread flags hfl
  refine ⟨hok, ?_⟩
  have hcmp' : ∀ d ∈ entriesOfSlots slots, NameComparable cmp d :=
    fun d hd => hcmp d.name (List.mem_map_of_mem hd)
  obtain ⟨l, t, m, h1, h2, htree, hfits, hwf, hsec, hse, hroot, hs⟩ := heldBy_loaded hf cmp hcmp st.file.io
  obtain ⟨_, _, _, root, _, _, _, _, hg, _, _, _, _⟩ := hf
  obtain ⟨l1, t1, m1, ho1, hs1, hss1, _⟩ := layout_opens hlay hg cmp hcmp' st.file.io
  obtain ⟨l2, t2, m2, sat', ho2, hs2, hag, hss2, _⟩ := part_opens hlay hg cmp hcmp' st.file.io hdev hread
  obtain ⟨k1, k2⟩ := openCore_ok_iff.2 ⟨_, _, _, _, ho1⟩
  obtain ⟨j1, j2⟩ := openCore_ok_iff.2 ⟨_, _, _, _, ho2⟩
  rw [k1] at h1
  cases h1
  have e1 := ho1.htree.symm.trans ho2.htree
  cases e1
  have e2 := ho1.htree.symm.trans htree
  cases e2
  obtain ⟨l', hdr, t0, list, tree, ho, hfile, hworld⟩ := openHandle_loaded (reachable_inv hst).closed hok
  obtain ⟨q1, q2⟩ := openCore_ok_iff.2 ⟨_, _, _, _, ho⟩
  rw [j1] at q1
  cases q1
  have hwd : (openHandle cmp h flags {} st).2.world.dev h = st.world.dev h := by
    rw [hworld, (ensureOpen_isOpen _ _).2.2.1]
  have hopen : (openHandle cmp h flags {} st).2.file.tree = some t := by
    rw [hfile]
    exact ho2.hltree
  obtain ⟨f, _, _, hctx, hfd, hwf', _⟩ := C52_opened_well_formed cmp h flags {} st (reachable_inv hst).closed hok t
    hopen
  refine ⟨t, f, hopen, hctx, ?_⟩
  rw [hwd, hfile] at hctx
  rw [k2] at hs hwf hsec hse
  rw [j2] at q2
  rw [← q2] at hctx
  have hfe : f = ⟨_, st.world.dev h, l2.sat, l2.ssat⟩ := (Option.some.inj hctx).symm
  rw [hs2] at hfe
  rw [hs1] at hs hwf
  have hmin : ((st.file.io.withHeader (parsedFields e hd)).withShortStart (some root.start)).minStreamSize =
    hd.minStreamSize := rfl
  have hstart : ((st.file.io.withHeader (parsedFields e hd)).withShortStart (some root.start)).shortStreamStart =
    root.start := rfl
  generalize (st.file.io.withHeader (parsedFields e hd)).withShortStart (some root.start) = io at *
  have hnd := entriesOfSlots_nodup slots
  have huniq := (C16_no_item_twice _ cmp hnd _ m htree).2
  have hmem := (C16_no_item_twice _ cmp hnd _ m htree).1
  intro env g fuel dir w e1 e2 hsep hgood hname hfuel htidy hno hparent hfault
  subst e1
  have hready : ExportReady { env with ctx := ⟨io, Dev.ofBytes content, ⟨sat⟩, l.ssat⟩ } g doc fuel := by
    refine ⟨⟨_, cmp, m, hnd, htree, hfits, hfuel⟩, hwf, Nat.le_trans (by decide) hsec,
      Nat.le_trans (Nat.pow_le_pow_right (n := 2) (by decide) hshort) (Nat.le_of_eq hse.symm),
      ⟨content, rfl⟩, hs, ?_, hsep, hgood, hname⟩
    intro p it hp hne hty
    refine hsize _ (hmem p it hp) ?_ hty
    intro h0
    exact hne (huniq p [] it ⟨none, env.tree.root⟩ hp rfl (by rw [h0]; exact hroot.symm))
  have := export_rescue hready hfault (by rw [e2]; exact hwf') (by
      intro d hd
      rw [e2, hfe]
      exact hd)
    (fun d => hd.minStreamSize ≤ d.size ∧ Within sat (described hd k) d.start ∨
      d.size < hd.minStreamSize ∧ ShortPart (st.world.dev h) hd sat (entriesOfSlots slots) k) (by
      intro d sizes pieces hP hr
      rw [e2, hfe, readAll_eq (f := ⟨io, st.world.dev h, ⟨sat⟩, l.ssat⟩)] at hr
      · exact readAll_damaged hdev (c := ⟨io, Dev.ofBytes content, ⟨sat⟩, l.ssat⟩) rfl d sizes 0 pieces hr
      · intro cur size
        exact streamRead_part (f := ⟨io, Dev.ofBytes content, ⟨sat⟩, l.ssat⟩) rfl hag
          (ShortPart (st.world.dev h) hd sat (entriesOfSlots slots) k)
          (fun hp => ⟨(hss2 hp.1).trans hss1.symm, by
            show Within sat _ io.shortStreamStart
            rw [hstart]
            exact hp.2 root hg.hroot⟩)
          (by
            show io.minStreamSize ≤ _ ∧ _ ∨ _ < io.minStreamSize ∧ _
            rw [hmin]
            exact hP) cur size) htidy hno hparent
  unfold ReadsAll at this
  rw [← e2]
  exact this

/-! ### An example -/

theorem tableKids_docAt {path : List Bytes} {x : Doc} (h : DocAt (.storage tableKids) path x) :
    (path = [] ∧ x = .storage tableKids) ∨ (∃ n d, path = [n] ∧ x = .stream d ∧ (n = [65, 0, 0, 0] ∨ n = [66, 0, 0, 0])) := by
  induction h with
  | here => exact .inl ⟨rfl, rfl⟩
  | sub _ hm ih =>
    rcases ih with ⟨rfl, h⟩ | ⟨_, _, _, h, _⟩
    · cases h
      unfold tableKids at hm
      simp only [List.mem_cons, List.not_mem_nil, or_false] at hm
      rcases hm with hm | hm
      · cases hm
        exact .inr ⟨_, _, rfl, rfl, .inl rfl⟩
      · cases hm
        exact .inr ⟨_, _, rfl, rfl, .inr rfl⟩
    · cases h

theorem tableKids_last {path : List Bytes} {n : Bytes} {x : Doc} (h : DocAt (.storage tableKids) (path ++ [n]) x) :
    n = [65, 0, 0, 0] ∨ n = [66, 0, 0, 0] := by
  rcases tableKids_docAt h with ⟨h, _⟩ | ⟨m, _, h, _, hm⟩
  · simp at h
  · have h' : path ++ [n] = [] ++ [m] := h
    obtain ⟨-, h2⟩ := List.append_inj' h' rfl
    cases h2
    exact hm

theorem tableKids_names : GoodNames fileNameOf (.storage tableKids) := by
  refine ⟨?_, ?_⟩
  · intro path n x h
    rcases tableKids_last h with rfl | rfl <;> decide
  · intro path kids h
    rcases tableKids_docAt h with ⟨_, h⟩ | ⟨_, _, _, h, _⟩
    · cases h
      unfold tableKids
      simp only [List.map_cons, List.map_nil]
      decide
    · cases h

/-- The export of the file without the second sector of its sector table: both streams get their directory, and each
  that is described by the first sector of the table and can be read, as the first of which the sectors are 1 and 2, its
  data (C112_export_table_partial). -/
example : ∃ t f,
    (openHandle cmpNone (.user 1) 1 {} tableState).2.file.tree = some t ∧
    (exportFile (smallEnv t f) 6 exportPath emptyDisk).1.fs.dir (exportPath ++ [[65]]) = true ∧
    (exportFile (smallEnv t f) 6 exportPath emptyDisk).1.fs.dir (exportPath ++ [[66]]) = true ∧
    ∃ it, NamedFrom t (fun d => d.name) ⟨none, t.root⟩ [[65, 0, 0, 0]] it ∧
      (Within (satOf tableWriter tableKids) (1 * 128) it.entry.start →
        (it.entry.size = 0 ∨ ∀ cur size : Nat, size ≤ 2 ^ 63 - 1 →
          ∃ data, (streamRead f it.entry cur size).1.res = .ok data) →
        (exportFile (smallEnv t f) 6 exportPath emptyDisk).1.fs.file (exportPath ++ [[65]] ++ [dataName]) =
          some (List.replicate 600 7)) := by
  have hst := tableKids_storable
  obtain ⟨_, t, f, h1, h2, h3⟩ := C112_export_table_partial (encodeFile_held hst) cmpNone
    (fun n _ => ⟨fun _ => by simp [cmpNone], fun _ => by simp [cmpNone]⟩) (by decide) (by
      have : ∀ d ∈ entriesOfSlots (slotsOfFile tableWriter tableKids), d.id = 0 ∨ d.type = 2 := by decide +kernel
      intro d hd h0 h2
      exact absurd (this d hd) (by simp [h0, h2])) tableState
    ⟨tableState, [], ⟨rfl, rfl⟩, rfl⟩ rfl (.user 1) (damaged_take _ _) (encodeFile_layout hst)
    (k := 1) (partRead_cut hst tableKids_counts.2.2 (by rw [tableKids_counts.1]; decide)
      (n := 68096) (by rw [tableKids_runs]; decide) rfl) 1 rfl
  have h4 := h3 (smallEnv t f) fileNameOf 6 exportPath emptyDisk rfl rfl (smallEnv_noSep t f)
    tableKids_names (by
      intro d path x hx
      show (some (fileNameOf d.name)).bind _ = _
      rcases tableKids_last hx with h | h <;> rw [h] <;> rfl) (by decide +kernel) emptyDisk_tidy (by decide) (by decide)
    (fun _ => rfl)
  obtain ⟨h5, h6⟩ := h4 [[65, 0, 0, 0]] (.stream (List.replicate 600 7)) (.sub .here (List.mem_cons_self ..))
  obtain ⟨h7, _⟩ := h4 [[66, 0, 0, 0]] (.stream (List.replicate 65536 8))
    (.sub .here (List.mem_cons_of_mem _ (List.mem_singleton.2 rfl)))
  obtain ⟨it, hit, h8⟩ := h6 (List.cons_ne_nil _ _)
  exact ⟨t, f, h1, h5, h7, it, hit, fun hw hr =>
    h8 (.inl ⟨Nat.zero_le _, by rw [described_file hst]; exact hw⟩) hr⟩

end Olecf.Props
