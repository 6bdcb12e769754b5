import Verif.Spec.Blocks
import Verif.Props.FileExamples
import Verif.Props.InfoSet

/-
  C79: unallocated blocks.  C80: data behind the sectors.  C81: abort.
-/

namespace Olecf.Props
open Spec

/-! ### Data behind the sectors -/

theorem get_append {content : Bytes} (tail : Bytes) {o n : Nat} {b : Bytes}
    (h : (Dev.ofBytes content).get o n = some b) : (Dev.ofBytes (content ++ tail)).get o n = some b := by
  unfold Dev.get Dev.ofBytes at h ⊢
  dsimp only at h ⊢
  split at h
  · rename_i hl
    cases h
    rw [List.length_take, List.length_drop] at hl
    by_cases hn : n = 0
    · subst hn
      simp
    · rw [List.drop_append_of_le_length (by omega), List.take_append_of_le_length (by
        rw [List.length_drop]; omega), if_pos (by rw [List.length_take, List.length_drop]; omega)]
  · cases h

theorem sector_append {content : Bytes} (tail : Bytes) {ss id : Nat} {b : Bytes}
    (h : sector (Dev.ofBytes content) ss id = some b) :
    sector (Dev.ofBytes (content ++ tail)) ss id = some b := get_append tail h

theorem sectorsAre_append {content : Bytes} (tail : Bytes) {ss : Nat} : ∀ {ids : List Nat} {secs : List Bytes},
    SectorsAre content ss ids secs → SectorsAre (content ++ tail) ss ids secs
  | [], [], _ => rfl
  | [], _ :: _, h => by cases h
  | _ :: _, [], h => by cases h
  | id :: ids, s :: secs, h => by
    unfold SectorsAre at h ⊢
    rw [List.map_cons, List.map_cons] at h ⊢
    obtain ⟨h1, h2⟩ := List.cons.inj h
    rw [sector_append tail h1, sectorsAre_append tail h2]

theorem msatSectors_append {content : Bytes} (tail : Bytes) {e : Endian} {ss a : Nat} {secs : List Bytes}
    (h : MsatSectors (Dev.ofBytes content) e ss a secs) :
    MsatSectors (Dev.ofBytes (content ++ tail)) e ss a secs := by
  induction h with
  | done => exact .done
  | step ha hs _ ih => exact .step ha (sector_append tail hs) ih

theorem layout_append {content : Bytes} (tail : Bytes) {e : Endian} {h : HeaderFields} {sat ssat : List Nat}
    {slots : List SlotFields} (hl : Layout content e h sat ssat slots) :
    Layout (content ++ tail) e h sat ssat slots where
  fits := hl.fits
  sectorSize := hl.sectorSize
  header := hl.header.trans (List.prefix_append _ _)
  msatLimit := hl.msatLimit
  satLimit := hl.satLimit
  ssatLimit := hl.ssatLimit
  hsat := by
    obtain ⟨msat, secs, ⟨ms, h1, h2, h3⟩, h4, h5, h6⟩ := hl.hsat
    exact ⟨msat, secs, ⟨ms, msatSectors_append tail h1, h2, h3⟩, sectorsAre_append tail h4, h5, h6⟩
  hssat := by
    obtain ⟨ids, secs, h1, h2, h3, h4⟩ := hl.hssat
    exact ⟨ids, secs, h1, sectorsAre_append tail h2, h3, h4⟩
  directory := by
    obtain ⟨ids, secs, h1, h2, h3, h4, h5⟩ := hl.directory
    exact ⟨ids, secs, h1, h2, h3, sectorsAre_append tail h4, h5⟩
  hslots := hl.hslots

theorem holds_append {content : Bytes} (tail : Bytes) {h : HeaderFields} {sat ssat : List Nat}
    {container : Bytes} {list : List DirEntry} {d : DirEntry} {doc : Doc}
    (hh : Holds content h sat ssat container list d doc) :
    Holds (content ++ tail) h sat ssat container list d doc := by
  induction hh with
  | stream h1 h2 h3 h4 h5 =>
    refine .stream h1 h2 h3 h4 fun hs => ?_
    obtain ⟨ids, last, secs, g1, g2, g3, g4⟩ := h5 hs
    exact ⟨ids, last, secs, g1, g2, sectorsAre_append tail g3, g4⟩
  | storage h1 h2 h3 h4 _ ih => exact .storage h1 h2 h3 h4 ih

theorem heldBy_append {content : Bytes} (tail : Bytes) {h : HeaderFields} {slots : List SlotFields} {doc : Doc}
    (hf : HeldBy content h slots doc) : HeldBy (content ++ tail) h slots doc := by
  obtain ⟨e, sat, ssat, root, cids, clast, csecs, h1, h2, h3, h4, h5, h6⟩ := hf
  exact ⟨e, sat, ssat, root, cids, clast, csecs, layout_append tail h1, h2, h3, h4,
    sectorsAre_append tail h5, holds_append tail h6⟩

theorem fileHolds_append {content : Bytes} (tail : Bytes) {names : List Bytes} {doc : Doc}
    (hf : FileHolds content names doc) : FileHolds (content ++ tail) names doc := by
  obtain ⟨h, slots, h6, h7⟩ := hf
  exact ⟨h, slots, heldBy_append tail h6, h7⟩

/-- C80: data that was appended to a file does not matter: the file opens to the same document. -/
theorem C80_appended_data {content : Bytes} {names : List Bytes} {doc : Doc}
    (hf : FileHolds content names doc) (tail : Bytes)
    (cmp : Bytes → Bytes → Option Bool) (hcmp : ∀ n ∈ names, Comparable cmp n)
    (st : FileState) (hst : Reachable cmp st) (hclosed : st.file.handle = none)
    (h : HandleId) (hdev : st.world.dev h = Dev.ofBytes (content ++ tail))
    (flags : Nat) (hfl : flags % 4 = 1) :
    (openHandle cmp h flags {} st).1 = .ok () ∧
    ∃ t f it, (openHandle cmp h flags {} st).2.file.tree = some t ∧
      (openHandle cmp h flags {} st).2.file.ctx
        ((openHandle cmp h flags {} st).2.world.dev h) = some f ∧
      rootItem (some t) = some it ∧ Shows t f it doc :=
  C47_document_shown (fileHolds_append tail hf) cmp hcmp st hst hclosed h hdev flags hfl

/-- C80 for written documents. -/
theorem C80_written_appended (w : Writer) (kids : List (Bytes × Doc)) (hst : Storable w kids)
    (tail : Bytes) (cmp : Bytes → Bytes → Option Bool) (hcmp : ∀ n ∈ namesOfKids kids, Comparable cmp n)
    (st : FileState) (hr : Reachable cmp st) (hclosed : st.file.handle = none)
    (h : HandleId) (hdev : st.world.dev h = Dev.ofBytes (encodeFile w kids ++ tail))
    (flags : Nat) (hfl : flags % 4 = 1) :
    (openHandle cmp h flags {} st).1 = .ok () ∧
    ∃ t f it, (openHandle cmp h flags {} st).2.file.tree = some t ∧
      (openHandle cmp h flags {} st).2.file.ctx
        ((openHandle cmp h flags {} st).2.world.dev h) = some f ∧
      rootItem (some t) = some it ∧ Shows t f it (.storage kids) :=
  C80_appended_data (encodeFile_holds hst) tail cmp (by
    intro n hn
    rcases List.mem_cons.1 hn with rfl | hn
    · exact rootName_comparable _ _
    · exact hcmp n hn) st hr hclosed h hdev flags hfl

/-- The sample file with anything behind it. -/
example (tail : Bytes) : ∃ st t f it, (openHandle cmpNone (.user 1) 1 {} st).1 = .ok () ∧
    (openHandle cmpNone (.user 1) 1 {} st).2.file.tree = some t ∧
    rootItem (some t) = some it ∧ Shows t f it sampleDoc := by
  obtain ⟨h1, t, f, it, h2, _, h3, h4⟩ := C80_appended_data (sample_holds .little) tail cmpNone
    (sample_comparable _) ⟨OleFile.new, { sampleWorld with
      dev := fun _ => Dev.ofBytes (sampleFile .little ++ tail) }⟩ ⟨_, [], ⟨rfl, rfl⟩, rfl⟩ rfl (.user 1) rfl
    1 rfl
  exact ⟨_, t, f, it, h1, h2, h3, h4⟩

/-! ### Unallocated blocks -/

/-- The blocks that the library reports of a file: as many as it says there are, and each can be asked for. -/
def Reports (file : OleFile) (blocks : List (Nat × Nat)) : Prop :=
  numberOfUnallocatedBlocks file = .ok blocks.length ∧
  ∀ (i : Nat) b, blocks[i]? = some b → unallocatedBlock file i = .ok b

/-- C79 as far as it holds: the blocks that are reported of a file are the unallocated ones exactly if
  there is no free sector; none is ever reported.  Missing: files with free sectors, see
  C79_free_sector_violated. -/
theorem C79_blocks_partial (file : OleFile) (content : Bytes) {ss : Nat} (hss : 0 < ss) (sat : List Nat) :
    Reports file [] ∧
    ((∃ blocks, Reports file blocks ∧ AreUnallocated content ss sat blocks) ↔
      ∀ i, ¬ FreeSector content ss sat i) := by
  have hr : Reports file [] := ⟨rfl, fun i b h => by simp at h⟩
  refine ⟨hr, ?_, fun h => ⟨[], hr, fun p => ?_⟩⟩
  · rintro ⟨blocks, ⟨hb, -⟩, h⟩ i hi
    have hn : blocks = [] := List.length_eq_zero_iff.1 (Res.ok.inj hb).symm
    subst hn
    obtain ⟨b, hb, _⟩ := (h ((i + 1) * ss)).1 ⟨i, hi, Nat.le_refl _,
      Nat.mul_lt_mul_of_pos_right (by omega) hss⟩
    cases hb
  · constructor
    · rintro ⟨i, hi, _⟩
      exact absurd hi (h i)
    · rintro ⟨b, hb, _⟩
      cases hb

/-- C79 does not hold: the sample file with a further sector, which the sector table marks as free, opens,
  shows its document, and has no unallocated blocks. -/
theorem C79_free_sector_violated : ∃ (content : Bytes) (st : FileState) (sat ssat : List Nat)
    (slots : List SlotFields) (h : HeaderFields),
    st.world.dev (.user 1) = Dev.ofBytes content ∧ Layout content .little h sat ssat slots ∧
    (openHandle cmpNone (.user 1) 1 {} st).1 = .ok () ∧
    FreeSector content (2 ^ h.sectorExp) sat 7 ∧
    ¬ ∃ blocks, Reports (openHandle cmpNone (.user 1) 1 {} st).2.file blocks ∧
      AreUnallocated content (2 ^ h.sectorExp) sat blocks := by
  have hlen : (sampleFile .little).length = 4096 := by
    unfold sampleFile
    rw [List.length_append, encodeHeader_length _ _ sampleFileHeader_fits,
      flatten_length (u := 512) (sampleSectors_length .little)]
    rfl
  have hfree : FreeSector (sampleFile .little ++ List.replicate 512 0) (2 ^ sampleFileHeader.sectorExp)
      sampleSat 7 := by
    refine ⟨rfl, ?_⟩
    rw [List.length_append, hlen, List.length_replicate]
    decide
  obtain ⟨h1, -⟩ := C80_appended_data (sample_holds .little) (List.replicate 512 0) cmpNone
    (sample_comparable _) ⟨OleFile.new, { sampleWorld with
      dev := fun _ => Dev.ofBytes (sampleFile .little ++ List.replicate 512 0) }⟩
      ⟨_, [], ⟨rfl, rfl⟩, rfl⟩ rfl (.user 1) rfl 1 rfl
  exact ⟨_, _, sampleSat, sampleSsat, sampleSlots, sampleFileHeader, rfl,
    layout_append _ (sample_layout .little), h1, hfree, fun h =>
    (C79_blocks_partial _ _ (by decide) _).2.1 h 7 hfree⟩

/-- In the sample file itself all the sectors are in use (C79_blocks_partial). -/
example (file : OleFile) : ∃ blocks, Reports file blocks ∧
    AreUnallocated (sampleFile .little) 512 sampleSat blocks := by
  refine (C79_blocks_partial file _ (by decide) _).2.2 fun i hi => ?_
  have hlen : (sampleFile .little).length = 4096 := by
    unfold sampleFile
    rw [List.length_append, encodeHeader_length _ _ sampleFileHeader_fits,
      flatten_length (u := 512) (sampleSectors_length .little)]
    rfl
  have h7 := hi.2
  rw [hlen] at h7
  have h1 := hi.1
  have : ∀ j < 7, sampleSat[j]? ≠ some 0xffffffff := by decide +kernel
  exact this i (by omega) h1

/-! ### Abort -/

/-- The history without the calls that signal an abort. -/
def withoutAborts (ops : List FileOp) : List FileOp := ops.filter fun
  | .signalAbort => false
  | _ => true

/-- The outcomes of the other calls. -/
def otherOutcomes (cmp : Bytes → Bytes → Option Bool) : FileState → List FileOp → List (Res Unit)
  | _, [] => []
  | st, .signalAbort :: ops => otherOutcomes cmp (FileOp.signalAbort.run cmp st).2 ops
  | st, op :: ops => (op.run cmp st).1 :: otherOutcomes cmp (op.run cmp st).2 ops

/-- States that differ in the abort flag at most. -/
def SameButAbort (a b : FileState) : Prop :=
  { a.file with abort := b.file.abort } = b.file ∧ a.world = b.world

theorem sameButAbort_cases {a b : FileState} (h : SameButAbort a b) :
    ∃ x, a = ⟨{ b.file with abort := x }, b.world⟩ := by
  obtain ⟨⟨io, ab, h0, h1, h2, h3, h4, h5, h6⟩, w⟩ := a
  obtain ⟨⟨io', ab', h0', h1', h2', h3', h4', h5', h6'⟩, w'⟩ := b
  obtain ⟨h1, h2⟩ := h
  cases h1
  cases h2
  exact ⟨ab, rfl⟩

theorem openRead_abort (cmp : Bytes → Bytes → Option Bool) (dev : Dev) (file : OleFile) (x : Bool) :
    openRead cmp dev { file with abort := x } =
      ((openRead cmp dev file).1, { (openRead cmp dev file).2 with abort := x }) := by
  unfold openRead
  dsimp only
  split
  · rfl
  · split <;> rfl

theorem sameButAbort_mk (f : OleFile) (x : Bool) (w : World) :
    SameButAbort ⟨{ f with abort := x }, w⟩ ⟨f, w⟩ := ⟨rfl, rfl⟩

theorem openHandle_abort (cmp : Bytes → Bytes → Option Bool) (h : HandleId) (flags : Nat) (flt : Faults)
    (file : OleFile) (w : World) (x : Bool) :
    (openHandle cmp h flags flt ⟨{ file with abort := x }, w⟩).1 =
      (openHandle cmp h flags flt ⟨file, w⟩).1 ∧
    SameButAbort (openHandle cmp h flags flt ⟨{ file with abort := x }, w⟩).2
      (openHandle cmp h flags flt ⟨file, w⟩).2 := by
  unfold openHandle
  dsimp only
  split
  · exact ⟨rfl, rfl, rfl⟩
  split
  · exact ⟨rfl, rfl, rfl⟩
  split
  · exact ⟨rfl, rfl, rfl⟩
  split
  · exact ⟨rfl, rfl, rfl⟩
  generalize hw : (if w.isOpen h = true then (true, w) else w.openH flt h) = ow
  obtain ⟨o, w2⟩ := ow
  dsimp only
  split
  · exact ⟨rfl, rfl, rfl⟩
  have hf : (if w.isOpen h = true then { file with abort := x }
      else { { file with abort := x } with openedInLibrary := true }) =
      { (if w.isOpen h = true then file else { file with openedInLibrary := true }) with abort := x } := by
    split <;> rfl
  rw [hf, openRead_abort]
  generalize openRead cmp (w2.dev h)
    (if w.isOpen h = true then file else { file with openedInLibrary := true }) = r
  obtain ⟨⟨rd, rr⟩, f2⟩ := r
  dsimp only
  cases rr with
  | ok a => exact ⟨rfl, rfl, rfl⟩
  | err => dsimp only; split <;> exact ⟨rfl, rfl, rfl⟩
  | ub => dsimp only; split <;> exact ⟨rfl, rfl, rfl⟩
  | hang => dsimp only; split <;> exact ⟨rfl, rfl, rfl⟩

theorem run_abort (cmp : Bytes → Bytes → Option Bool) (op : FileOp) {a b : FileState}
    (h : SameButAbort a b) :
    (op.run cmp a).1 = (op.run cmp b).1 ∧ SameButAbort (op.run cmp a).2 (op.run cmp b).2 := by
  obtain ⟨x, rfl⟩ := sameButAbort_cases h
  obtain ⟨file, w⟩ := b
  cases op with
  | openHandle n flags flt => exact openHandle_abort cmp _ flags flt file w x
  | openName dev flags flt =>
    show (openName cmp dev flags flt ⟨{ file with abort := x }, w⟩).1 =
        (openName cmp dev flags flt ⟨file, w⟩).1 ∧
      SameButAbort (openName cmp dev flags flt ⟨{ file with abort := x }, w⟩).2
        (openName cmp dev flags flt ⟨file, w⟩).2
    unfold openName
    split
    · exact ⟨rfl, rfl, rfl⟩
    generalize w.createH dev = hw
    obtain ⟨hd, w2⟩ := hw
    dsimp only
    split
    · exact ⟨rfl, rfl, rfl⟩
    obtain ⟨h1, h2⟩ := openHandle_abort cmp hd flags flt file w2 x
    generalize openHandle cmp hd flags flt ⟨{ file with abort := x }, w2⟩ = ra at h1 h2
    generalize openHandle cmp hd flags flt ⟨file, w2⟩ = rb at h1 h2
    obtain ⟨ra, sa⟩ := ra
    obtain ⟨rb, sb⟩ := rb
    dsimp only at h1 h2 ⊢
    subst h1
    obtain ⟨y, rfl⟩ := sameButAbort_cases h2
    cases ra <;> exact ⟨rfl, rfl, rfl⟩
  | close flt =>
    show (closeFile flt ⟨{ file with abort := x }, w⟩).1 = (closeFile flt ⟨file, w⟩).1 ∧
      SameButAbort (closeFile flt ⟨{ file with abort := x }, w⟩).2 (closeFile flt ⟨file, w⟩).2
    unfold closeFile
    dsimp only
    split <;> exact ⟨rfl, rfl, rfl⟩
  | setCodepage cp =>
    dsimp only [FileOp.run, setCodepage]
    split <;> exact ⟨rfl, rfl, rfl⟩
  | signalAbort => exact ⟨rfl, rfl, rfl⟩
  | caller n io dev =>
    dsimp only [FileOp.run]
    split <;> exact ⟨rfl, rfl, rfl⟩

theorem signal_same (cmp : Bytes → Bytes → Option Bool) {a b : FileState} (h : SameButAbort a b) :
    SameButAbort (FileOp.signalAbort.run cmp a).2 b := by
  obtain ⟨x, rfl⟩ := sameButAbort_cases h
  exact ⟨rfl, rfl⟩

theorem sameButAbort_refl (a : FileState) : SameButAbort a a := ⟨rfl, rfl⟩

theorem without_aborts (cmp : Bytes → Bytes → Option Bool) : ∀ (ops : List FileOp) {a b : FileState},
    SameButAbort a b →
    otherOutcomes cmp a ops = outcomes cmp b (withoutAborts ops) ∧
    SameButAbort (runOps cmp a ops) (runOps cmp b (withoutAborts ops))
  | [], _, _, h => ⟨rfl, h⟩
  | op :: ops, a, b, h => by
    by_cases hop : op = .signalAbort
    · subst hop
      exact without_aborts cmp ops (signal_same cmp h)
    · have hw : withoutAborts (op :: ops) = op :: withoutAborts ops := by
        cases op <;> first | rfl | exact absurd rfl hop
      have ho : otherOutcomes cmp a (op :: ops) =
          (op.run cmp a).1 :: otherOutcomes cmp (op.run cmp a).2 ops := by
        cases op <;> first | rfl | exact absurd rfl hop
      obtain ⟨h1, h2⟩ := run_abort cmp op h
      obtain ⟨h3, h4⟩ := without_aborts cmp ops h2
      rw [hw, ho, h1, h3]
      exact ⟨rfl, h4⟩

/-- C81, the part that holds: signalling an abort does no harm.  In any history of calls the signals can be
  left out: the other calls have the same outcomes, and the file object and the handles are the same in
  the end, up to the flag itself.  Missing: the signal should end the current activity, see
  C81_no_effect_violated. -/
theorem C81_harmless_partial (cmp : Bytes → Bytes → Option Bool) (st : FileState) (ops : List FileOp) :
    otherOutcomes cmp st ops = outcomes cmp st (withoutAborts ops) ∧
    (∃ x, runOps cmp st ops = ⟨{ (runOps cmp st (withoutAborts ops)).file with abort := x },
      (runOps cmp st (withoutAborts ops)).world⟩) ∧
    ∀ h, (runOps cmp st ops).file.ctx ((runOps cmp st ops).world.dev h) =
      (runOps cmp st (withoutAborts ops)).file.ctx ((runOps cmp st (withoutAborts ops)).world.dev h) := by
  obtain ⟨h1, h2⟩ := without_aborts cmp ops (sameButAbort_refl st)
  obtain ⟨x, hx⟩ := sameButAbort_cases h2
  refine ⟨h1, ⟨x, hx⟩, fun h => ?_⟩
  rw [hx]
  rfl

/-- C81 does not hold in full: there is no file object, no history and no file for which a signal has an
  effect on an open; an open of a file that is signalled to abort and that can be opened succeeds. -/
theorem C81_no_effect_violated :
    (∀ (cmp : Bytes → Bytes → Option Bool) (h : HandleId) (flags : Nat) (flt : Faults) (st : FileState),
      (openHandle cmp h flags flt ⟨signalAbort st.file, st.world⟩).1 = (openHandle cmp h flags flt st).1) ∧
    ∃ st : FileState, st.file.abort = true ∧ (openHandle cmpNone (.user 1) 1 {} st).1 = .ok () := by
  refine ⟨fun cmp h flags flt st => (openHandle_abort cmp h flags flt st.file st.world true).1, ?_⟩
  obtain ⟨h1, -⟩ := C80_appended_data (sample_holds .little) [] cmpNone
    (sample_comparable _) ⟨OleFile.new, { sampleWorld with
      dev := fun _ => Dev.ofBytes (sampleFile .little ++ []) }⟩
      ⟨_, [], ⟨rfl, rfl⟩, rfl⟩ rfl (.user 1) rfl 1 rfl
  refine ⟨⟨signalAbort OleFile.new, { sampleWorld with
      dev := fun _ => Dev.ofBytes (sampleFile .little ++ []) }⟩, rfl, ?_⟩
  exact (openHandle_abort cmpNone (.user 1) 1 {} OleFile.new _ true).1.trans h1

/-- A history with signals before an open, between two calls and behind a close. -/
example (cmp : Bytes → Bytes → Option Bool) (st : FileState) :
    otherOutcomes cmp st [.signalAbort, .openHandle 1 1 {}, .signalAbort, .close {}, .signalAbort] =
      outcomes cmp st [.openHandle 1 1 {}, .close {}] :=
  (C81_harmless_partial cmp st _).1

/-- The line of a block: its offset, its end and its size. -/
def blockLine (b : Nat × Nat) : Bytes :=
  ascii "\t" ++ decimal8 b.1 ++ ascii " (0x" ++ hex8 b.1 ++ ascii ") - " ++ decimal8 (b.1 + b.2) ++ ascii " (0x" ++
    hex8 (b.1 + b.2) ++ ascii ") size: " ++ decimal b.2 ++ ascii "\n"

/-- C79, the list of olecfinfo: whatever blocks are given by their index, each gets its line, once and in this order. -/
theorem C79_listed (get : Int → Res (Nat × Nat)) (blocks : List (Nat × Nat))
    (h : ∀ (i : Nat) b, blocks[i]? = some b → get (i : Int) = .ok b) :
    infoBlocksLoop get blocks.length 0 = (blocks.flatMap blockLine, .ok ()) := by
  have key : ∀ (rest : List (Nat × Nat)) (k : Nat), (∀ i b, rest[i]? = some b → get ((k + i : Nat) : Int) = .ok b) →
      infoBlocksLoop get rest.length k = (rest.flatMap blockLine, .ok ()) := by
    intro rest
    induction rest with
    | nil => intro k _; rfl
    | cons b rest ih =>
      intro k hk
      have h0 := hk 0 b rfl
      have hr := ih (k + 1) (fun i c hc => by
        have := hk (i + 1) c hc
        rwa [show k + (i + 1) = k + 1 + i by omega] at this)
      rw [List.length_cons, infoBlocksLoop]
      have h0' : get (k : Int) = .ok b := h0
      rw [h0', List.flatMap_cons]
      unfold quiet printThen
      dsimp only [printed]
      rw [hr]
      rfl
  exact key blocks 0 (fun i b hb => by rw [Nat.zero_add]; exact h i b hb)

/-- Two blocks. -/
example : infoBlocksLoop (fun i => if i = 0 then .ok (512, 1024) else if i = 1 then .ok (4096, 512) else .err) 2 0 =
    (ascii "\t00000512 (0x00000200) - 00001536 (0x00000600) size: 1024\n\t00004096 (0x00001000) - 00004608 (0x00001200) size: 512\n",
      .ok ()) := by decide +kernel

end Olecf.Props
