import Verif.Lemmas.File
import Verif.Props.Stream

/-
  C04, C34 - C37, C51, C52: the life of a file object.
-/

namespace Olecf.Props
open Olecf Olecf.Spec

/-! ### C52: opening is safe -/

theorem openCore_defined (cmp : Bytes → Bytes → Option Bool) (dev : Dev) (io : IoHandle) :
    (openCore cmp dev io).1.res.Defined := by
  rw [openCore_eq]
  refine andThen_defined ?_ fun x hx => ?_
  · rcases Classical.em (∃ d, dev.read 0 512 = some d ∧ d.length = 512 ∧ AcceptableHeader d) with h | h
    · obtain ⟨a, b, h'⟩ := (C01_header_acceptance dev ⟨List.replicate 109 0⟩).1.2 h
      rw [h']; trivial
    · rw [(C01_header_acceptance dev _).2.1 h]; trivial
  obtain ⟨hdr, t0⟩ := x
  obtain ⟨hl, hv, h1, h2, h3, h4, h5, h6, h7⟩ := headerRead_fits hx
  obtain ⟨⟨k, hk, hks⟩, _⟩ := headerRead_sizes hx
  have hp : 0 < 2 ^ k := Nat.pow_pos (by omega)
  have hle : 2 ^ k ≤ 2 ^ 15 := Nat.pow_le_pow_right (by omega) hk
  have hmsat := (readMsat_safe (io.withHeader hdr) dev t0 hdr.msatSector hdr.msatSectors h3
      ⟨by show t0.ids.length ≤ _; omega, hv⟩).1
  refine andThen_defined ?_ fun msat hm => ?_
  · rcases hmsat with h | ⟨t, h, _⟩ <;> rw [h] <;> trivial
  have hmw : msat.WF := by
    rcases hmsat with h | ⟨t, h, hw, _⟩
    · rw [hm] at h; cases h
    · rw [hm] at h; cases h; exact hw
  obtain ⟨sat', hs', hsw', _⟩ :=
    readSat_safe (io.withHeader hdr) dev msat hdr.satSectors k hk hks hmw.lt
  refine andThen_defined (by rw [hs']; trivial) fun sat hsat => ?_
  have hsw : sat.WF := by rw [hs'] at hsat; cases hsat; exact hsw'
  obtain ⟨⟨ssat', hss', _⟩, _⟩ := readSsat_safe (io.withHeader hdr) dev sat hdr.ssatSector hdr.ssatSectors
    (by rw [withHeader_sectorSize, hks]; exact hp)
    (by rw [withHeader_sectorSize, hks, MAX_ALLOC]; omega) hsw h2
  refine andThen_defined (by rw [hss']; trivial) fun ssat _ => ?_
  refine andThen_defined ?_ fun _ _ => ?_
  · rcases (C14_directory_safe (io.withHeader hdr) dev sat.ids [] hdr.rootDirSector hsw.size hsw.lt h1).1 with
      h | ⟨h, _⟩ <;> rw [h] <;> trivial
  · refine andThen_defined (C17_terminates _ _) fun _ _ => ?_
    trivial

theorem failed_defined {α β : Type} {r : Res α} (h : r.Defined) : (r.failed : Res β).Defined := by
  cases r <;> first | trivial | exact h

/-- Opening a file, whatever the file contains and whatever the device does, returns: no
  undefined behaviour, no endless loop. -/
theorem C52_open_safe (cmp : Bytes → Bytes → Option Bool) (h : HandleId) (dev : Dev) (flags : Nat)
    (flt : Faults) (st : FileState) :
    (openHandle cmp h flags flt st).1.Defined ∧ (openName cmp dev flags flt st).1.Defined := by
  have hread : ∀ dev f, (openRead cmp dev f).1.res.Defined := by
    intro dev f
    unfold openRead
    split
    · trivial
    · have hd := openCore_defined cmp dev f.io
      simp only
      split
      · trivial
      · exact failed_defined hd
  have hoh : ∀ h st, (openHandle cmp h flags flt st).1.Defined := by
    intro h st
    unfold openHandle
    split; · trivial
    split; · trivial
    split; · trivial
    split; · trivial
    simp only
    generalize (if st.world.isOpen h = true then (true, st.world) else st.world.openH flt h) = p
    generalize (if st.world.isOpen h = true then st.file
      else { st.file with openedInLibrary := true }) = f
    split; · trivial
    split
    · trivial
    · split
      · exact failed_defined (hread _ _)
      · exact failed_defined (hread _ _)
  refine ⟨hoh h st, ?_⟩
  unfold openName
  split; · trivial
  simp only
  split; · trivial
  have := hoh (st.world.createH dev).1 ⟨st.file, (st.world.createH dev).2⟩
  split
  · trivial
  · exact failed_defined this

theorem andThen_reads {io : IoHandle} {α β : Type} {o : Out α} {f : α → Out β × IoHandle} {n m : Nat}
    (h1 : o.reads.length ≤ n) (h2 : ∀ a, o.res = .ok a → (f a).1.reads.length ≤ m) :
    (o.andThen io f).1.reads.length ≤ n + m := by
  unfold Out.andThen
  cases h : o.res with
  | ok a =>
    have := h2 a h
    simp only [List.length_append]; omega
  | _ => simp only; omega

/-- The number of reads of the device while opening is bounded, whatever the file contains: the
  header, at most 257 sectors of the master table, at most one read per entry of the master table
  (at most 2^25), 257 sectors of the short sector table, 1025 directory sectors. -/
theorem C52_open_reads_bounded (cmp : Bytes → Bytes → Option Bool) (dev : Dev) (f : OleFile) :
    (openRead cmp dev f).1.reads.length ≤ 1 + (257 + (2 ^ 25 + (257 + (1025 + 0)))) := by
  have hcore : ∀ io, (openCore cmp dev io).1.reads.length ≤
      1 + (257 + (2 ^ 25 + (257 + (1025 + 0)))) := by
    intro io
    rw [openCore_eq]
    refine andThen_reads (by rw [(C01_header_acceptance dev _).2.2]; simp) fun x hx => ?_
    obtain ⟨hdr, t0⟩ := x
    obtain ⟨hl, hv, h1, h2, h3, h4, h5, h6, h7⟩ := headerRead_fits hx
    obtain ⟨⟨k, hk, hks⟩, _⟩ := headerRead_sizes hx
    have hp : 0 < 2 ^ k := Nat.pow_pos (by omega)
    have hle : 2 ^ k ≤ 2 ^ 15 := Nat.pow_le_pow_right (by omega) hk
    have hmsat := readMsat_safe (io.withHeader hdr) dev t0 hdr.msatSector hdr.msatSectors h3
        ⟨by show t0.ids.length ≤ _; omega, hv⟩
    refine andThen_reads hmsat.2 fun msat hm => ?_
    have hmw : msat.WF := by
      rcases hmsat.1 with h | ⟨t, h, hw, _⟩
      · rw [hm] at h; cases h
      · rw [hm] at h; cases h; exact hw
    obtain ⟨sat', hs', hsw', _⟩ :=
      readSat_safe (io.withHeader hdr) dev msat hdr.satSectors k hk hks hmw.lt
    have hused : (used msat.ids).length ≤ 2 ^ 25 :=
      Nat.le_trans (List.length_filter_le _ _) hmw.size
    refine andThen_reads (Nat.le_trans (readSat_eq (io.withHeader hdr) dev msat hdr.satSectors k hk hks
      hmw.lt).2 (Nat.le_trans (Nat.min_le_left _ _) hused)) fun sat hsat => ?_
    have hsw : sat.WF := by rw [hs'] at hsat; cases hsat; exact hsw'
    obtain ⟨_, hr⟩ := readSsat_safe (io.withHeader hdr) dev sat hdr.ssatSector hdr.ssatSectors
      (by rw [withHeader_sectorSize, hks]; exact hp)
      (by rw [withHeader_sectorSize, hks, MAX_ALLOC]; omega) hsw h2
    refine andThen_reads (Nat.le_trans hr (Nat.min_le_left _ _)) fun ssat _ => ?_
    refine andThen_reads (C14_directory_safe (io.withHeader hdr) dev sat.ids [] hdr.rootDirSector hsw.size
      hsw.lt h1).2.1 fun _ _ => ?_
    refine andThen_reads (n := 0) (m := 0) (by simp) fun _ _ => by simp
  unfold openRead
  split
  · simp
  · have := hcore f.io
    simp only
    split <;> exact this

/-- The IO handle after a successful open that found a hierarchy. -/
theorem openHandle_loaded {cmp : Bytes → Bytes → Option Bool} {h : HandleId} {flags : Nat}
    {flt : Faults} {st : FileState} (he : st.file.handle = none → st.file.Empty)
    (hok : (openHandle cmp h flags flt st).1 = .ok ()) :
    ∃ l hdr t0 list tree, Opened cmp (st.world.dev h) st.file.io l
        (openHandle cmp h flags flt st).2.file.io hdr t0 list tree ∧
      (openHandle cmp h flags flt st).2.file =
        st.file.loaded l (openHandle cmp h flags flt st).2.file.io h (!st.world.isOpen h) ∧
      (openHandle cmp h flags flt st).2.world = st.world.ensureOpen h := by
  rcases openHandle_spec (cmp := cmp) (h := h) (flags := flags) (flt := flt) he with
    ⟨_, h1⟩ | ⟨_, ⟨l, hl, h1⟩ | ⟨hno, h1⟩⟩
  · rw [h1] at hok; cases hok
  · rw [h1]
    obtain ⟨hdr, t0, list, tree, ho⟩ := (openCore_ok_iff
      (io' := (openCore cmp (st.world.dev h) st.file.io).2)).1 ⟨hl, rfl⟩
    exact ⟨l, hdr, t0, list, tree, ho, rfl, rfl⟩
  · rw [h1] at hok
    revert hno
    revert hok
    cases (openCore cmp (st.world.dev h) st.file.io).1.res with
    | ok l => intro _ hno; exact absurd rfl (hno l)
    | _ => intro hok; cases hok

/-- A file that was opened satisfies what the properties of the hierarchy (C16 - C22) and of the
  streams (C23 - C33, C50) assume: the directory entries have distinct identifiers and fields in
  range, the sector sizes are powers of two in range, the tables are in range, the short stream
  container starts where the root storage says. -/
theorem C52_opened_well_formed (cmp : Bytes → Bytes → Option Bool) (h : HandleId) (flags : Nat)
    (flt : Faults) (st : FileState) (he : st.file.handle = none → st.file.Empty)
    (hok : (openHandle cmp h flags flt st).1 = .ok ()) (t : Tree)
    (ht : (openHandle cmp h flags flt st).2.file.tree = some t) :
    ∃ f list m, (openHandle cmp h flags flt st).2.file.ctx
        ((openHandle cmp h flags flt st).2.world.dev h) = some f ∧
      f.dev = st.world.dev h ∧ WellFormedCtx f ∧
      (∃ a, a ≤ 15 ∧ f.io.sectorSize = 2 ^ a) ∧ (∃ a, a ≤ 15 ∧ f.io.shortSectorSize = 2 ^ a) ∧
      f.io.sectorSize % 128 = 0 ∧
      f.io.shortStreamStart = t.root.start ∧
      (createTree list cmp).res = .ok (some (t, m)) ∧ (list.map (·.id)).Nodup ∧
      (∀ d ∈ list, EntryFits d ∧ d.name.length ≤ 128 ∧ d.type ≠ 0) ∧
      ∀ p it, itemAt t p = some it → it.entry ∈ list := by
  obtain ⟨l, hdr, t0, list, tree, ho, hf, hw⟩ := openHandle_loaded he hok
  obtain ⟨hl, hv, h1, h2, h3, h4, h5, h6, h7⟩ := headerRead_fits ho.hheader
  obtain ⟨⟨k, hk, hks⟩, ⟨j, hj, hjs⟩⟩ := headerRead_sizes ho.hheader
  obtain ⟨hmw, hsw, hssw⟩ := ho.wf
  have hp : 0 < 2 ^ k ∧ 0 < 2 ^ j := ⟨Nat.pow_pos (by omega), Nat.pow_pos (by omega)⟩
  have hle : 2 ^ k ≤ 2 ^ 15 ∧ 2 ^ j ≤ 2 ^ 15 :=
    ⟨Nat.pow_le_pow_right (by omega) hk, Nat.pow_le_pow_right (by omega) hj⟩
  obtain ⟨hsorted, hent⟩ := readDirectory_entries hsw h1 ho.hdir
  rw [ho.hlist] at hsorted hent
  have hlt : l.tree = some t := by rw [hf] at ht; exact ht
  have htree := ho.hltree
  rw [hlt] at htree
  cases tree with
  | none => cases htree
  | some x =>
    obtain ⟨t', m⟩ := x
    simp only [Option.map_some, Option.some.injEq] at htree
    subst htree
    have hio := ho.hio
    rw [createTree_start ho.htree] at hio
    have hnd : (list.map (·.id)).Nodup := hsorted.imp Nat.ne_of_lt
    have hsub := (C16_no_item_twice list cmp hnd t m ho.htree).1
    have hroot := hsub [] _ rfl
    have hio' : (openHandle cmp h flags flt st).2.file.io =
        { st.file.io.withHeader hdr with shortStreamStart := t.root.start } := hio
    refine ⟨⟨(openHandle cmp h flags flt st).2.file.io,
      (openHandle cmp h flags flt st).2.world.dev h, l.sat, l.ssat⟩, list, m, ?_, ?_, ?_⟩
    · rw [hf]; rfl
    · rw [hw, (ensureOpen_isOpen _ _).2.2.1]
    refine ⟨?_, ⟨k, hk, by rw [hio']; exact hks⟩, ⟨j, hj, by rw [hio']; exact hjs⟩, ?_, ?_, ho.htree, hnd,
      fun d hd => ?_, hsub⟩
    · refine ⟨?_, ?_, ?_, ⟨hsw.size, hsw.lt⟩, ⟨hssw.size, hssw.lt⟩⟩
      · rw [hio']; show 0 < hdr.sectorSize ∧ hdr.sectorSize ≤ 32768; omega
      · rw [hio']; show 0 < hdr.shortSectorSize ∧ hdr.shortSectorSize ≤ 32768; omega
      · rw [hio']; exact (hent _ hroot).2.2.2.2.2.1
    · rw [hio']
      show hdr.sectorSize % 128 = 0
      have hdir := ho.hdir
      unfold readDirectory at hdir
      split at hdir
      · cases hdir
      · rename_i hc
        simp only [not_or, Classical.not_not] at hc
        exact hc.2.2
    · rw [hio']
    · obtain ⟨a, b, c, d', e, f, g, i⟩ := hent d hd
      exact ⟨⟨f, g⟩, i, b⟩

/-! ### C51: ownership of the directory entries -/

/-- When the hierarchy was made, the entries with the mark `set_in_tree` are exactly the values of
  the nodes of the hierarchy, and no entry is the value of two nodes.  The entries without the mark
  are freed after the open (`libolecf_directory_entry_free_not_in_tree`), the values of the nodes
  when the file is closed: every entry once. -/
theorem C51_entries_owned_once (list : List DirEntry) (cmp : Bytes → Bytes → Option Bool)
    (hnd : (list.map (·.id)).Nodup) (t : Tree) (m : List Nat)
    (h : (createTree list cmp).res = .ok (some (t, m))) :
    ∀ d ∈ list, (d.id ∈ m ↔ ∃ p it, itemAt t p = some it ∧ it.entry = d) ∧
      ∀ p q a b, itemAt t p = some a → itemAt t q = some b → a.entry = d → b.entry = d → p = q := by
  obtain ⟨hsub, huniq⟩ := C16_no_item_twice list cmp hnd t m h
  intro d hd
  refine ⟨?_, fun p q a b ha hb hae hbe => huniq p q a b ha hb (by rw [hae, hbe])⟩
  obtain ⟨hroot, _, _, st, hp, hk, hm⟩ := createTree_some h
  have hreach := (C18_sub_items_exact list cmp hnd t m h).2
  obtain ⟨_, _, _, _, hrk⟩ := run_kids list cmp _ hroot hnd hp
  obtain ⟨es, _, _, _, _, _, hf, _, hst⟩ := (run_iff list cmp t.root.id).1 hp
  have hkids : ∀ k x, x ∈ t.kids k ↔ ∃ v ∈ es, v.key = k ∧ v.entry = x := by
    intro k x
    rw [hk, hst, addVisits_kids es _ ⟨by simp, by simp⟩ hf]
    simp
  have hmarks : ∀ i, i ∈ m ↔ i = t.root.id ∨ ∃ v ∈ es, v.entry.id = i := by
    intro i
    rw [hm, hst, List.mem_cons, addVisits_marks]
    simp
  rw [← hk] at hrk
  rw [hmarks]
  constructor
  · rintro (he | ⟨v, hv, he⟩)
    · exact ⟨[], ⟨none, t.root⟩, rfl, nodup_map_inj hnd hroot hd he.symm⟩
    · obtain ⟨ks, _, hr⟩ := hrk v.key v.entry ((hkids _ _).2 ⟨v, hv, rfl, rfl⟩)
      obtain ⟨p, it, hit, hie⟩ := hreach ks _ hr
      refine ⟨p, it, hit, ?_⟩
      exact nodup_map_inj hnd (hsub p it hit) hd (by rw [hie, he])
  · rintro ⟨p, it, hit, rfl⟩
    rcases itemAt_cases hit with ⟨_, rfl⟩ | ⟨q, i, mm, e, _, _, he, rfl⟩
    · exact Or.inl rfl
    · obtain ⟨v, hv, _, hve⟩ := (hkids _ _).1 (List.mem_of_getElem? he)
      exact Or.inr ⟨v, hv, by rw [hve]; rfl⟩

end Olecf.Props
