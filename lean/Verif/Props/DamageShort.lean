import Verif.Spec.DamageShort
import Verif.Props.DamageLost

/-
  C111 (continued): a file of which the short sector table cannot be read opens; what is lost is limited to the
  short streams.
-/

namespace Olecf.Props

open Olecf.Spec

theorem msatSectors_unique {dev : Dev} {e : Endian} {ss id : Nat} {a b : List Bytes}
    (h : MsatSectors dev e ss id a) (h' : MsatSectors dev e ss id b) : a = b := by
  induction h generalizing b with
  | done =>
    cases h' with
    | done => rfl
    | step h1 _ _ => exact absurd rfl h1
  | step h1 h2 _ ih =>
    cases h' with
    | done => exact absurd rfl h1
    | step _ k2 k3 =>
      rw [h2] at k2
      cases k2
      rw [ih k3]

/-- Sectors of the whole file that can be read. -/
theorem sectors_readable {content : Bytes} {dev' : Dev} (hd : Damaged dev' (Dev.ofBytes content)) {ss : Nat}
    {ids : List Nat} {secs : List Bytes} (h : SectorsAre content ss ids secs)
    (hr : ∀ id ∈ ids, sector dev' ss id ≠ none) : ids.map (sector dev' ss) = secs.map some := by
  unfold SectorsAre at h
  rw [← h]
  refine List.map_congr_left fun id hid => ?_
  cases hg : sector dev' ss id with
  | none => exact absurd hg (hr id hid)
  | some b => exact (hd _ _ _ hg).symm

/-- A file of which the header, the tables other than the short sector table, and the directory can be read opens. -/
theorem spared_opens {content : Bytes} {e : Endian} {h : HeaderFields} {sat ssat : List Nat}
    {slots : List SlotFields} {root : DirEntry} (hl : Layout content e h sat ssat slots)
    (hg : GoodLinks (entriesOfSlots slots) root) (cmp : Bytes → Bytes → Option Bool)
    (hcmp : ∀ d ∈ entriesOfSlots slots, NameComparable cmp d) (io : IoHandle)
    {dev' : Dev} (hd : Damaged dev' (Dev.ofBytes content)) (hr : TablesRead dev' e h sat) :
    ∃ l t m, Opened cmp dev' io l
      ((io.withHeader (parsedFields e h)).withShortStart (some root.start)) (parsedFields e h)
      ⟨h.msat⟩ (entriesOfSlots slots) (some (t, m)) ∧ l.sat = ⟨sat⟩ ∧
      l.ssat = ⟨padTo (h.ssatSectors * (2 ^ h.sectorExp / 4))
        ((readable dev' (2 ^ h.sectorExp) (follow sat (min 257 h.ssatSectors) h.ssatSector)).flatMap (words e))⟩ ∧
      t.root = root := by
  obtain ⟨msat, ssecs, ⟨msecs, hm1, hm2, hm3⟩, hs1, hs2, hs3⟩ := hl.hsat
  obtain ⟨dids, dsecs, hd1, hd2, hd3, hd4, hd5⟩ := hl.directory
  obtain ⟨msecs', hr1, hr2, hr3⟩ := hr.sats
  have := msatSectors_unique hm1 (msatSectors_damaged hd hr1)
  subst this
  rw [← hm3] at hr3
  have hs1' := sectors_readable hd hs1 hr3
  have hd4' := sectors_readable hd hd4 (hr.directory dids hd1)
  have hexp : 2 ^ h.sectorExp ≤ 32768 := by
    have : 2 ^ h.sectorExp ≤ 2 ^ 15 := Nat.pow_le_pow_right (by decide) hl.fits.sectorExp
    omega
  obtain ⟨k, hk⟩ : ∃ k, 2 ^ h.sectorExp = 128 * k :=
    ⟨2 ^ (h.sectorExp - 7), by
      rw [show (128 : Nat) = 2 ^ 7 from rfl, ← Nat.pow_add]; congr 1; have := hl.sectorSize; omega⟩
  have hpos : 0 < 2 ^ h.sectorExp := Nat.two_pow_pos _
  have hk0 : 0 < k := by omega
  have hmv : ∀ v ∈ msat, v < 2 ^ 32 := by
    rw [hm3]
    intro v hv
    rcases List.mem_append.1 hv with hv | hv
    · exact hl.fits.msat v hv
    · obtain ⟨s, _, hv⟩ := List.mem_flatMap.1 hv
      exact words_lt e s v ((List.dropLast_sublist _).mem hv)
  have hheader : (headerRead dev' ⟨List.replicate 109 0⟩).res = .ok (parsedFields e h, ⟨h.msat⟩) := by
    rw [← headerRead_damaged hd, headerRead_encoded hl.fits hl.header]
    intro r hr'
    have : (headerRead dev' ⟨List.replicate 109 0⟩).reads = [(0, 512)] := by
      unfold headerRead
      cases dev'.get 0 512 <;> rfl
    rw [this, List.mem_singleton] at hr'
    rw [hr']
    exact hr.header
  have hmsat : (readMsat (io.withHeader (parsedFields e h)) dev' ⟨h.msat⟩
      h.msatSector h.msatSectors).res = .ok ⟨msat⟩ := by
    rw [hm3]
    by_cases h0 : h.msatSectors = 0
    · rw [h0] at hm2
      have : msecs = [] := List.length_eq_zero_iff.1 hm2
      subst this
      have hq : h.msatSector = 0xfffffffe := by
        generalize h.msatSector = q at hm1
        cases hm1; rfl
      rw [hq, h0, (C08_msat_header_only _ _ _ 0 hl.fits.msatLength hpos
        (by show 2 ^ h.sectorExp ≤ _; omega)).1]
      simp
    · have hne : h.msatSector ≠ 0xfffffffe := by
        intro hq
        rw [hq] at hm1
        cases hm1 with
        | done => simp at hm2; omega
        | step hne _ _ => exact hne rfl
      refine C08_msat_exact _ _ _ _ _ msecs hl.fits.msatLength ?_ ?_ hl.fits.msatSector hne (by omega)
        ?_ hr1 (by rw [hm2]; exact hl.msatLimit) hm2
      · show 8 ≤ 2 ^ h.sectorExp; omega
      · show 2 ^ h.sectorExp ≤ _; omega
      · show 109 + h.msatSectors * (2 ^ h.sectorExp / 4 - 1) ≤ _
        have : h.msatSectors * (2 ^ h.sectorExp / 4 - 1) ≤ 257 * 8192 :=
          Nat.mul_le_mul hl.msatLimit (by omega)
        omega
  have hsz : h.satSectors * (2 ^ h.sectorExp / 4) ≤ 2 ^ 25 := by
    have h1 := hl.satLimit
    have h2 : h.satSectors * (2 ^ h.sectorExp / 4) * 4 ≤ h.satSectors * 2 ^ h.sectorExp := by
      rw [Nat.mul_assoc]
      exact Nat.mul_le_mul_left _ (Nat.div_mul_le_self _ _)
    omega
  have hsat : (readSat (io.withHeader (parsedFields e h)) dev' ⟨msat⟩ ⟨[]⟩
      h.satSectors).res = .ok ⟨sat⟩ := by
    rw [hs3]
    exact C09_sat_exact _ _ msat ssecs _ h.sectorExp (by have := hl.sectorSize; omega)
      hl.fits.sectorExp rfl hmv hsz hs1' hs2
  have hsn : sat.length ≤ 2 ^ 25 := by
    rw [hs3, flatMap_words_length (sectorsAre_length hs1).2, hs2]
    exact hsz
  have hsv : ∀ v ∈ sat, v < 2 ^ 32 := by rw [hs3]; exact flatMap_words_lt
  have hssz : h.ssatSectors * (2 ^ h.sectorExp / 4) ≤ 2 ^ 25 := by
    have : h.ssatSectors * (2 ^ h.sectorExp / 4) ≤ 257 * 8192 :=
      Nat.mul_le_mul hl.ssatLimit (by omega)
    omega
  have hssat := C10_ssat_outcome (io.withHeader (parsedFields e h)) dev'
    sat h.ssatSector h.ssatSectors h.sectorExp hl.fits.sectorExp rfl hsn hsv hl.fits.ssatSector hssz
  have hrne : h.rootDirSector ≠ 0xfffffffe := by
    intro hq
    rw [hq] at hd1
    cases hd1 with
    | nil => exact hd2 rfl
    | cons hx _ =>
      rw [List.getElem?_eq_none (by omega)] at hx
      cases hx
  have hdir := (C15_directory_exact (io.withHeader (parsedFields e h)) dev' sat
    h.rootDirSector k (entriesOfSlots slots) hk hk0 (by show 2 ^ h.sectorExp ≤ _; omega) hsn hsv
    hl.fits.rootDirSector hrne).2
    ⟨dids, false, dsecs, chain_dirWalk hsn hd1 [] (by simp), hd3, hd4',
      by rw [hd5]; exact (entriesOf_slots hl.hslots).2,
      by rw [hd5]; exact (entriesOf_slots hl.hslots).1.symm⟩
  have hnd := entriesOfSlots_nodup slots
  obtain ⟨⟨t, m⟩, htm⟩ := C20_well_formed_accepted (entriesOfSlots slots) cmp hnd root hg.hroot hg.sub
    hg.prev hg.next (goodLinks_unique hg hnd)
    (fun d hd hne => hg.leads d hd .next hne) hcmp
  have htr : t.root = root := by
    have := (createTree_some htm).2.1
    rw [hg.hroot] at this
    exact (Option.some.inj this).symm
  refine ⟨⟨⟨msat⟩, ⟨sat⟩, _, some t⟩, t, m, ⟨hheader, hmsat, hsat,
    hssat, hdir.1, hdir.2, htm, rfl, ?_⟩, rfl, rfl, htr⟩
  rw [createTree_start htm]
  simp [htr]

/-- The short sector table is not used for streams that are not short. -/
theorem streamRead_long {f : FileCtx} {d : DirEntry} (h : f.short d = false) (ssat : AllocTable) (cur : Int)
    (size : Nat) : streamRead { f with ssat := ssat } d cur size = streamRead f d cur size := by
  have hs : FileCtx.short { f with ssat := ssat } d = f.short d := rfl
  have ht : FileCtx.table { f with ssat := ssat } d = f.table d := by
    unfold FileCtx.table
    rw [hs, h]
    rfl
  have hu : FileCtx.unit { f with ssat := ssat } d = f.unit d := rfl
  unfold streamRead readStream
  rw [hs, ht, hu]

theorem next_same {t t' : AllocTable} (h : t'.n = t.n) (id : Nat) :
    (∃ a b, t.next id = .ok a ∧ t'.next id = .ok b) ∨ (t.next id = .err ∧ t'.next id = .err) := by
  have hn : t.n = t.ids.length := rfl
  have hn' : t'.n = t'.ids.length := rfl
  unfold AllocTable.next
  by_cases h1 : id > INT_MAX
  · rw [if_pos h1, if_pos h1]
    exact .inr ⟨rfl, rfl⟩
  rw [if_neg h1, if_neg h1]
  by_cases h2 : id < t.ids.length
  · exact .inl ⟨_, _, get_ok.2 (List.getElem?_eq_getElem h2), get_ok.2 (List.getElem?_eq_getElem (by omega))⟩
  · refine .inr ⟨?_, ?_⟩ <;> unfold AllocTable.get <;> rw [if_pos (Or.inr (by omega))]

/-- A read of one sector needs no entry of the table. -/
theorem streamLoop_one (io : IoHandle) (dev : Dev) (sat : AllocTable) {t t' : AllocTable} (h : t'.n = t.n)
    (short : Bool) (ss fuel id off size : Nat) (hss : ss < 2 ^ 64) (hsz : off + size ≤ ss) :
    streamLoop io dev sat t' short ss fuel 0 id off size = streamLoop io dev sat t short ss fuel 0 id off size := by
  unfold streamLoop
  by_cases h1 : size = 0
  · rw [if_pos h1, if_pos h1]
  rw [if_neg h1, if_neg h1]
  cases fuel with
  | zero => rfl
  | succ fuel =>
    dsimp only
    have hskip : (if off > 0 * ss then off - 0 * ss else 0) = off := by split <;> omega
    have hlen : (if (ss + 2 ^ 64 - off) % 2 ^ 64 > size then size else (ss + 2 ^ 64 - off) % 2 ^ 64) = size := by
      have : (ss + 2 ^ 64 - off) % 2 ^ 64 = ss - off := by
        rw [show ss + 2 ^ 64 - off = ss - off + 2 ^ 64 by omega, Nat.add_mod_right, Nat.mod_eq_of_lt (by omega)]
      rw [this]
      split <;> omega
    rw [hskip, hlen]
    have hz : ∀ (x : AllocTable) (i o : Nat), streamLoop io dev sat x short ss fuel (0 + 1) i o (size - size) =
        .of (.ok ([], o)) := by
      intro x i o
      unfold streamLoop
      rw [if_pos (Nat.sub_self size)]
    rcases next_same h id with ⟨a, b, ha, hb⟩ | ⟨ha, hb⟩
    · simp only [ha, hb, hz]
    · simp only [ha, hb]

/-- A short stream of at most one short sector is read without the entries of the short sector table. -/
theorem streamRead_one {f : FileCtx} {d : DirEntry} (h : d.size ≤ f.io.shortSectorSize)
    (hu : f.short d = true) (h64 : f.io.shortSectorSize < 2 ^ 64) {ssat : AllocTable} (hn : ssat.n = f.ssat.n) (cur : Int)
    (size : Nat) : streamRead { f with ssat := ssat } d cur size = streamRead f d cur size := by
  have hs : FileCtx.short { f with ssat := ssat } d = f.short d := rfl
  have ht : FileCtx.table { f with ssat := ssat } d = ssat := by
    unfold FileCtx.table
    rw [hs, hu]
    rfl
  have ht' : f.table d = f.ssat := by
    unfold FileCtx.table
    rw [hu]
    rfl
  have hut : FileCtx.unit { f with ssat := ssat } d = f.unit d := rfl
  have hun : f.unit d = f.io.shortSectorSize := by
    unfold FileCtx.unit
    rw [hu]
    rfl
  unfold streamRead
  by_cases h1 : d.type ≠ typeStream
  · rw [if_pos h1, if_pos h1]
  rw [if_neg h1, if_neg h1]
  by_cases h2 : cur < 0
  · rw [if_pos h2, if_pos h2]
  rw [if_neg h2, if_neg h2]
  by_cases h3 : size > SSIZE_MAX
  · rw [if_pos h3, if_pos h3]
  rw [if_neg h3, if_neg h3]
  by_cases h4 : cur ≥ d.size
  · rw [if_pos h4, if_pos h4]
  rw [if_neg h4, if_neg h4]
  have hr : ∀ n, cur.toNat + n ≤ d.size →
      readStream { f with ssat := ssat } d cur n = readStream f d cur n := by
    intro n hle
    unfold readStream
    rw [hs, ht, ht', hut, hun]
    have hz : toInt32 (cur.toNat / f.io.shortSectorSize) = 0 := by
      rw [Nat.div_eq_of_lt (by omega)]
      rfl
    rw [hz]
    dsimp only
    have hl : ∀ (t : AllocTable), chainPos t (0 : Int).toNat d.start = .ok d.start := fun _ => rfl
    rw [hl, hl]
    dsimp only
    rw [hn, show (0 : Int).toNat = 0 from rfl, streamLoop_one f.io f.dev f.sat hn _ _ _ _ _ _ h64 (by omega)]
  dsimp only
  rw [hr]
  split <;> omega

/-- What the whole file shows, the damaged one shows for the streams that are not short or take one short sector. -/
theorem shows_sizes {dev' dev : Dev} (hd : Damaged dev' dev) {t : Tree} {f : FileCtx} (hf : f.dev = dev) {it : Item}
    {doc : Doc} (h : Shows t f it doc) {ssat : AllocTable} (hn : ssat.n = f.ssat.n)
    (h64 : f.io.shortSectorSize < 2 ^ 64) :
    ShowsSizes (fun n => f.io.minStreamSize ≤ n ∨ n ≤ f.io.shortSectorSize) t { f with dev := dev', ssat := ssat } it
      doc := by
  induction h with
  | @stream it data h1 h2 h3 h4 =>
    refine .stream h1 h2 h3 fun hm cur size hs => ?_
    have he : streamRead { f with dev := dev', ssat := ssat } it.entry cur size =
        streamRead { f with dev := dev' } it.entry cur size := by
      have hsh : FileCtx.short { f with dev := dev' } it.entry = decide (it.entry.size < f.io.minStreamSize) := rfl
      by_cases hlt : it.entry.size < f.io.minStreamSize
      · exact streamRead_one (f := { f with dev := dev' })
          (show it.entry.size ≤ f.io.shortSectorSize by omega) (by rw [hsh]; exact decide_eq_true hlt) h64 hn _ _
      · exact streamRead_long (f := { f with dev := dev' }) (by rw [hsh]; exact decide_eq_false hlt) _ _ _
    rw [he]
    rcases streamRead_whole hd hf rfl _ cur size (h4 cur size hs) with ⟨_, k⟩ | ⟨_, k⟩
    · exact .inr k
    · exact .inl k
  | storage h1 h2 h3 h4 h5 h6 _ ih => exact .storage h1 h2 h3 h4 h5 h6 ih

theorem follow_length_le (table : List Nat) : ∀ n a, (follow table n a).length ≤ n := by
  intro n
  induction n with
  | zero => intro a; rw [follow]; exact Nat.le_refl _
  | succ n ih =>
    intro a
    rw [follow]
    split
    · exact Nat.zero_le _
    · rw [List.length_cons]
      split
      · have := ih ‹_›
        omega
      · simp

/-- C111: the damage of the short sector table is limited.  For every file that holds a document and every damaged
  copy of it of which the header, the master table, the sector table and the directory can be read: the open
  succeeds, the hierarchy is that of the document, with the names and the sizes of all streams, and every read of a
  stream that is not short, or takes at most one short sector, gives the stored bytes or fails, whatever happened to
  the short sector table and to the data.  Missing: longer short streams (`C111_short_violated`), and damage of the
  other tables (`C111_open_violated`). -/
theorem C111_short_table_partial {content : Bytes} {hd : HeaderFields} {slots : List SlotFields} {doc : Doc}
    (hf : HeldBy content hd slots doc)
    (cmp : Bytes → Bytes → Option Bool)
    (hcmp : ∀ n ∈ (entriesOfSlots slots).map (·.name), Comparable cmp n)
    (st : FileState) (hst : Reachable cmp st) (hclosed : st.file.handle = none) (h : HandleId)
    (hdev : Damaged (st.world.dev h) (Dev.ofBytes content))
    (hread : ∃ e sat ssat, Layout content e hd sat ssat slots ∧ TablesRead (st.world.dev h) e hd sat)
    (flags : Nat) (hfl : flags % 4 = 1) :
    (openHandle cmp h flags {} st).1 = .ok () ∧
    ∃ t f it, (openHandle cmp h flags {} st).2.file.tree = some t ∧
      (openHandle cmp h flags {} st).2.file.ctx
        ((openHandle cmp h flags {} st).2.world.dev h) = some f ∧
      rootItem (some t) = some it ∧
      ShowsSizes (fun n => hd.minStreamSize ≤ n ∨ n ≤ 2 ^ hd.shortExp) t f it doc := by
  have hcmp' : ∀ d ∈ entriesOfSlots slots, NameComparable cmp d :=
    fun d hd => hcmp d.name (List.mem_map_of_mem hd)
  obtain ⟨e, sat, ssat, hlay, htab⟩ := hread
  have hload : ∀ io, ∃ l t, (openCore cmp (st.world.dev h) io).1.res = .ok l ∧ l.tree = some t ∧
      ShowsSizes (fun n => hd.minStreamSize ≤ n ∨ n ≤ 2 ^ hd.shortExp)
        t ⟨(openCore cmp (st.world.dev h) io).2, st.world.dev h, l.sat, l.ssat⟩ ⟨none, t.root⟩ doc := by
    intro io
    obtain ⟨l, t, m, h1, h2, h3, _, _, _, _, _, hs⟩ := heldBy_loaded hf cmp hcmp io
    obtain ⟨_, _, _, root, _, _, _, _, hg, _, _, _, _⟩ := hf
    obtain ⟨l1, t1, m1, ho1, hs1, hss1, _⟩ := layout_opens hlay hg cmp hcmp' io
    obtain ⟨l2, t2, m2, ho2, hs2, hss2, _⟩ := spared_opens hlay hg cmp hcmp' io hdev htab
    obtain ⟨k1, k2⟩ := openCore_ok_iff.2 ⟨_, _, _, _, ho1⟩
    obtain ⟨j1, j2⟩ := openCore_ok_iff.2 ⟨_, _, _, _, ho2⟩
    rw [k1] at h1
    cases h1
    have e1 := ho1.htree.symm.trans ho2.htree
    cases e1
    have e2 := ho1.htree.symm.trans h3
    cases e2
    refine ⟨l2, t, j1, by rw [ho2.hltree]; rfl, ?_⟩
    rw [k2, hs1, hss1] at hs
    rw [j2, hs2]
    have hexp : 2 ^ hd.shortExp ≤ 2 ^ 15 := Nat.pow_le_pow_right (by decide) hlay.fits.shortExp
    refine shows_sizes hdev rfl hs ?_ (show 2 ^ hd.shortExp < 2 ^ 64 by omega)
    obtain ⟨ids, secs, _, c2, c3, c4⟩ := hlay.hssat
    show l2.ssat.ids.length = ssat.length
    rw [hss2, c4, flatMap_words_length (sectorsAre_length c2).2, c3]
    show (padTo _ _).length = _
    unfold padTo
    rw [List.length_append, List.length_replicate]
    have hle : ((readable (st.world.dev h) (2 ^ hd.sectorExp)
        (follow sat (min 257 hd.ssatSectors) hd.ssatSector)).flatMap (words e)).length ≤
        hd.ssatSectors * (2 ^ hd.sectorExp / 4) := by
      rw [flatMap_words_length readable_sector]
      refine Nat.mul_le_mul_right _ ?_
      have := readable_length_le (st.world.dev h) (2 ^ hd.sectorExp) (follow sat (min 257 hd.ssatSectors) hd.ssatSector)
      have := follow_length_le sat (min 257 hd.ssatSectors) hd.ssatSector
      omega
    omega
  have hok : (openHandle cmp h flags {} st).1 = .ok () := by
    obtain ⟨l, _, hl, _⟩ := hload .cleared
    exact (C34_open_iff cmp st hst h flags {}).1.2 ⟨hclosed, hfl, rfl, Or.inr rfl, l, hl⟩
  refine ⟨hok, ?_⟩
  obtain ⟨l, hdr, t0, list, tree, ho, hfile, hworld⟩ := openHandle_loaded (reachable_inv hst).closed hok
  obtain ⟨h1, h2⟩ := openCore_ok_iff.2 ⟨_, _, _, _, ho⟩
  obtain ⟨l', t, hl', ht, hs⟩ := hload st.file.io
  rw [h1] at hl'
  cases hl'
  rw [h2] at hs
  have hdv : (openHandle cmp h flags {} st).2.world.dev h = st.world.dev h := by
    rw [hworld, (ensureOpen_isOpen _ _).2.2.1]
  refine ⟨t, _, ⟨none, t.root⟩, by rw [hfile]; exact ht, ?_, rfl, hs⟩
  rw [hdv, hfile]
  rfl

/-! ### Short streams -/

/-- With a short sector table of zeros, the second short sector of a stream is the first one of the container. -/
theorem lost_short_read {f : FileCtx} {d : DirEntry} {N : Nat} (hs : f.ssat = ⟨List.replicate N 0⟩) (hN : 2 ≤ N)
    (hN' : N ≤ 2 ^ 25) (hss : 0 < f.io.shortSectorSize) (hss' : f.io.shortSectorSize ≤ 32768)
    (hb : 0 < f.io.sectorSize) (hb' : f.io.sectorSize ≤ 32768) (hd : d.start < N)
    (ht : d.type = 2) (hshort : d.size < f.io.minStreamSize) (hsize : 2 * f.io.shortSectorSize ≤ d.size) {s : Bytes}
    (hget : f.dev.get (sectorOffset f.io.shortStreamStart f.io.sectorSize) f.io.shortSectorSize = some s) :
    (streamRead f d (f.io.shortSectorSize : Nat) f.io.shortSectorSize).1.res = .ok s := by
  have hlen : s.length = f.io.shortSectorSize := Dev.get_length hget
  have hsh : f.short d = true := by unfold FileCtx.short; exact decide_eq_true hshort
  have htab : f.table d = ⟨List.replicate N 0⟩ := by unfold FileCtx.table; rw [hsh]; exact hs
  have hunit : f.unit d = f.io.shortSectorSize := by unfold FileCtx.unit; rw [hsh]; rfl
  have hn : (⟨List.replicate N 0⟩ : AllocTable).n = N := List.length_replicate
  have hnext : ∀ i, i < N → (⟨List.replicate N 0⟩ : AllocTable).next i = .ok 0 := by
    intro i hi
    unfold AllocTable.next
    rw [if_neg (by unfold INT_MAX; omega)]
    refine get_ok.2 ?_
    rw [List.getElem?_replicate, if_pos hi]
  have hpos : sectorOffset f.io.shortStreamStart f.io.sectorSize < 2 ^ 47 + 1 := by
    unfold sectorOffset
    have : (f.io.shortStreamStart + 1) % 2 ^ 32 * f.io.sectorSize ≤ 2 ^ 32 * 32768 :=
      Nat.mul_le_mul (Nat.le_of_lt (Nat.mod_lt _ (Nat.two_pow_pos 32))) hb'
    omega
  have hread : (readStream f d (f.io.shortSectorSize : Nat) f.io.shortSectorSize).res =
      .ok (s, f.io.shortSectorSize + f.io.shortSectorSize) := by
    unfold readStream
    rw [if_neg (by omega), if_neg (by unfold SSIZE_MAX; omega), hunit, if_neg (by omega), htab, hn]
    have hidx : toInt32 ((f.io.shortSectorSize : Int).toNat / f.io.shortSectorSize) = 1 := by
      rw [Int.toNat_natCast, Nat.div_self hss]
      rfl
    rw [hidx, hsh]
    dsimp only
    rw [if_neg (by omega)]
    have hc : chainPos ⟨List.replicate N 0⟩ (Int.toNat 1) d.start = .ok 0 := by
      show chainPos _ (0 + 1) d.start = _
      unfold chainPos
      rw [if_neg (by unfold EOC; omega), hnext _ hd]
      rfl
    rw [hc]
    dsimp only
    obtain ⟨k, hk⟩ : ∃ k, f.io.shortSectorSize = k + 1 := ⟨f.io.shortSectorSize - 1, by omega⟩
    conv => lhs; arg 1; arg 7; rw [hk]
    unfold streamLoop
    rw [if_neg (by omega)]
    dsimp only
    rw [if_neg (by decide)]
    have ho : streamSectorOffset f.io f.sat true 0 =
        .ok (sectorOffset f.io.shortStreamStart f.io.sectorSize) := by
      unfold streamSectorOffset
      rw [if_pos rfl, Nat.zero_mul]
      unfold containerLoop
      rw [if_neg (by omega)]
      show Res.ok (0 + _) = _
      rw [Nat.zero_add]
    rw [ho]
    dsimp only
    rw [Int.toNat_natCast, show Int.toNat 1 * f.io.shortSectorSize = f.io.shortSectorSize from Nat.one_mul _,
      if_neg (Nat.lt_irrefl _), show (f.io.shortSectorSize + 2 ^ 64 - 0) % 2 ^ 64 = f.io.shortSectorSize by omega,
      if_neg (Nat.lt_irrefl _), if_neg (by omega), Nat.add_zero, hget]
    dsimp only
    rw [hnext 0 (by omega)]
    dsimp only
    rw [if_neg (by decide), Nat.sub_self]
    unfold streamLoop
    rw [if_pos rfl]
    simp [Out.of]
  unfold streamRead
  rw [if_neg (fun h => h ht), if_neg (by omega), if_neg (by unfold SSIZE_MAX; omega), if_neg (by omega)]
  dsimp only
  rw [if_neg (by omega), hread]
  dsimp only
  rw [if_neg (fun h => h hlen)]

/-- A read of the second short sector of a stream needs the entry of its start in the table. -/
theorem second_short_needs {f : FileCtx} {d : DirEntry} {ssat : List Nat} (hs : f.ssat = ⟨ssat⟩)
    (hss : 0 < f.io.shortSectorSize) (hss' : f.io.shortSectorSize ≤ 32768) (hshort : d.size < f.io.minStreamSize)
    (hsize : 2 * f.io.shortSectorSize ≤ d.size) {b : Bytes}
    (h : (streamRead f d (f.io.shortSectorSize : Nat) f.io.shortSectorSize).1.res = .ok b) :
    2 ≤ ssat.length ∧ d.start < ssat.length := by
  have hsh : f.short d = true := by unfold FileCtx.short; exact decide_eq_true hshort
  have htab : f.table d = ⟨ssat⟩ := by unfold FileCtx.table; rw [hsh]; exact hs
  have hunit : f.unit d = f.io.shortSectorSize := by unfold FileCtx.unit; rw [hsh]; rfl
  have hidx : toInt32 ((f.io.shortSectorSize : Int).toNat / f.io.shortSectorSize) = 1 := by
    rw [Int.toNat_natCast, Nat.div_self hss]
    rfl
  unfold streamRead at h
  split at h
  · cases h
  rw [if_neg (by omega), if_neg (by unfold SSIZE_MAX; omega), if_neg (by omega)] at h
  dsimp only at h
  rw [if_neg (by omega)] at h
  have hr : ∃ x, (readStream f d (f.io.shortSectorSize : Nat) f.io.shortSectorSize).res = .ok x := by
    cases hx : (readStream f d (f.io.shortSectorSize : Nat) f.io.shortSectorSize).res with
    | ok x => exact ⟨x, rfl⟩
    | _ => rw [hx] at h; cases h
  obtain ⟨x, hx⟩ := hr
  unfold readStream at hx
  rw [if_neg (by omega), if_neg (by unfold SSIZE_MAX; omega), hunit, if_neg (by omega), htab, hidx] at hx
  dsimp only at hx
  have hn' : (⟨ssat⟩ : AllocTable).n = ssat.length := rfl
  rw [hn'] at hx
  by_cases hi : (1 : Int) < 0 ∨ (1 : Int) ≥ (ssat.length : Nat)
  · rw [if_pos hi] at hx
    cases hx
  rw [if_neg hi] at hx
  have hc : ∃ id, chainPos ⟨ssat⟩ (Int.toNat 1) d.start = .ok id := by
    cases hc : chainPos ⟨ssat⟩ (Int.toNat 1) d.start with
    | ok id => exact ⟨id, rfl⟩
    | _ => rw [hc] at hx; cases hx
  obtain ⟨id, hc⟩ := hc
  refine ⟨by omega, ?_⟩
  change chainPos _ (0 + 1) d.start = _ at hc
  unfold chainPos at hc
  split at hc
  · cases hc
  cases hnx : (⟨ssat⟩ : AllocTable).next d.start with
  | ok v =>
    unfold AllocTable.next at hnx
    split at hnx
    · cases hnx
    · exact (List.getElem?_eq_some_iff.1 (get_ok.1 hnx)).1
  | _ => rw [hnx] at hc; cases hc

/-- C111 is violated: a file of which the short sector table cannot be read opens, and its short streams silently
  show other data.  For every file that holds a document and every damaged copy of it of which everything but the
  short sector table can be read: the open succeeds, and of every short stream of at least two short sectors a read
  of the second one succeeds with the first short sector of the file, whatever the stream is. -/
theorem C111_short_violated {content : Bytes} {hd : HeaderFields} {slots : List SlotFields} {doc : Doc}
    (hf : HeldBy content hd slots doc)
    (cmp : Bytes → Bytes → Option Bool)
    (hcmp : ∀ n ∈ (entriesOfSlots slots).map (·.name), Comparable cmp n)
    (st : FileState) (hst : Reachable cmp st) (hclosed : st.file.handle = none) (h : HandleId)
    (hdev : Damaged (st.world.dev h) (Dev.ofBytes content))
    (hread : ∃ e sat ssat, Layout content e hd sat ssat slots ∧ TablesRead (st.world.dev h) e hd sat)
    (hlost : sector (st.world.dev h) (2 ^ hd.sectorExp) hd.ssatSector = none)
    {root : DirEntry} (hroot : (entriesOfSlots slots).find? (fun x => x.type = 5) = some root) {s : Bytes}
    (hsec : (st.world.dev h).get (sectorPos (2 ^ hd.sectorExp) root.start) (2 ^ hd.shortExp) = some s)
    (flags : Nat) (hfl : flags % 4 = 1) :
    (openHandle cmp h flags {} st).1 = .ok () ∧
    ∃ t f it, (openHandle cmp h flags {} st).2.file.tree = some t ∧
      (openHandle cmp h flags {} st).2.file.ctx
        ((openHandle cmp h flags {} st).2.world.dev h) = some f ∧
      rootItem (some t) = some it ∧
      ∀ path data, DocAt doc path (.stream data) → data.length < hd.minStreamSize →
        2 * 2 ^ hd.shortExp ≤ data.length →
        ∃ x, NamedFrom t (·.name) it path x ∧ x.entry.size = data.length ∧
          (streamRead f x.entry ((2 ^ hd.shortExp : Nat) : Int) (2 ^ hd.shortExp)).1.res = .ok s := by
  have hcmp' : ∀ d ∈ entriesOfSlots slots, NameComparable cmp d :=
    fun d hd => hcmp d.name (List.mem_map_of_mem hd)
  have hok := (C111_short_table_partial hf cmp hcmp st hst hclosed h hdev hread flags hfl).1
  obtain ⟨e, sat, ssat, hlay, htab⟩ := hread
  obtain ⟨l, t, m, h1, h2, h3, _, _, _, _, _, hs⟩ := heldBy_loaded hf cmp hcmp st.file.io
  obtain ⟨_, _, _, root', _, _, _, _, hg, _, _, _, _⟩ := hf
  have hre := hg.hroot.symm.trans hroot
  cases hre
  obtain ⟨l1, t1, m1, ho1, hs1, hss1, _⟩ := layout_opens hlay hg cmp hcmp' st.file.io
  obtain ⟨k1, k2⟩ := openCore_ok_iff.2 ⟨_, _, _, _, ho1⟩
  obtain ⟨l2, t2, m2, ho2, hs2, hss2, _⟩ := spared_opens hlay hg cmp hcmp' st.file.io hdev htab
  obtain ⟨j1, j2⟩ := openCore_ok_iff.2 ⟨_, _, _, _, ho2⟩
  rw [k1] at h1
  cases h1
  have e1 := ho1.htree.symm.trans ho2.htree
  cases e1
  have e2 := ho1.htree.symm.trans h3
  cases e2
  have hp : ∀ k, k ≤ 15 → 0 < 2 ^ k ∧ 2 ^ k ≤ 32768 := by
    intro k hk
    have h3 : 2 ^ k ≤ 2 ^ 15 := Nat.pow_le_pow_right (by decide) hk
    exact ⟨Nat.two_pow_pos _, by omega⟩
  have hsslen : ssat.length = hd.ssatSectors * (2 ^ hd.sectorExp / 4) ∧ ssat.length ≤ 2 ^ 25 := by
    obtain ⟨_, _, hssw⟩ := ho1.wf
    rw [hss1] at hssw
    obtain ⟨ids, secs, _, q1, q2, q3⟩ := hlay.hssat
    refine ⟨?_, hssw.1⟩
    rw [q3, flatMap_words_length (sectorsAre_length q1).2, q2]
  have hzero : l2.ssat = ⟨List.replicate (hd.ssatSectors * (2 ^ hd.sectorExp / 4)) 0⟩ := by
    rw [hss2]
    have : readable (st.world.dev h) (2 ^ hd.sectorExp) (follow sat (min 257 hd.ssatSectors) hd.ssatSector) = [] := by
      generalize min 257 hd.ssatSectors = n
      cases n with
      | zero => rfl
      | succ n =>
        rw [follow]
        split
        · rfl
        · rw [readable, hlost]
    rw [this]
    rfl
  refine ⟨hok, ?_⟩
  obtain ⟨l', hdr, t0, list, tree, ho, hfile, hworld⟩ := openHandle_loaded (reachable_inv hst).closed hok
  obtain ⟨p1, p2⟩ := openCore_ok_iff.2 ⟨_, _, _, _, ho⟩
  rw [j1] at p1
  cases p1
  have hdv : (openHandle cmp h flags {} st).2.world.dev h = st.world.dev h := by
    rw [hworld, (ensureOpen_isOpen _ _).2.2.1]
  refine ⟨t, _, ⟨none, t.root⟩, by rw [hfile]; exact ho2.hltree, by rw [hdv, hfile]; rfl, rfl, ?_⟩
  intro path data hpath hcut hsize
  obtain ⟨x, hx1, hx2⟩ := docAt_named (g := id) hs hpath
  rw [List.map_id] at hx1
  refine ⟨x, hx1, ?_⟩
  have hrl : root ∈ entriesOfSlots slots := List.mem_of_find?_eq_some hroot
  have hstart : root.start < 2 ^ 32 := by
    obtain ⟨i, s, hs, _, rfl⟩ := entriesOfSlots_mem.1 hrl
    exact (hlay.hslots s (List.mem_of_getElem? hs)).start
  cases hx2 with
  | stream ht hn hsz hrd =>
    refine ⟨hsz, ?_⟩
    have hwhole := hrd (2 ^ hd.shortExp) (2 ^ hd.shortExp) (by have := hp _ hlay.fits.shortExp; omega)
    rw [k2, hs1, hss1] at hwhole
    obtain ⟨n1, n2⟩ := second_short_needs (f := ⟨_, _, _, _⟩) rfl (hp _ hlay.fits.shortExp).1
      (hp _ hlay.fits.shortExp).2 (by show x.entry.size < hd.minStreamSize; omega)
      (by show 2 * 2 ^ hd.shortExp ≤ _; omega) hwhole
    rw [← p2, j2]
    refine lost_short_read (N := hd.ssatSectors * (2 ^ hd.sectorExp / 4)) hzero (by omega) (by omega)
      (hp _ hlay.fits.shortExp).1 (hp _ hlay.fits.shortExp).2 (hp _ hlay.fits.sectorExp).1
      (hp _ hlay.fits.sectorExp).2 (by omega) ht
      (by show x.entry.size < hd.minStreamSize; omega) (by show 2 * 2 ^ hd.shortExp ≤ _; omega) ?_
    show (st.world.dev h).get (sectorOffset root.start (2 ^ hd.sectorExp)) (2 ^ hd.shortExp) = some s
    rw [sectorOffset_eq _ hstart]
    exact hsec

/-! ### Cases that meet the hypotheses -/

/-- A document with one stream of two different short sectors. -/
def shortPair : List (Bytes × Doc) := [([65, 0], .stream (List.replicate 64 7 ++ List.replicate 64 8))]

abbrev shortWriter : Writer := ⟨.little, 9, 6, 4096, {}⟩

theorem shortPair_storable : Storable shortWriter shortPair := by
  refine (C60_storable .little {} noMarks_fits (List.cons_ne_nil _ _) ?_ ?_).2 ?_
  · decide +kernel
  · decide +kernel
  · decide +kernel

/-- The device of the file of which the short sector table, sector 1, cannot be read. -/
def badShort : Dev where
  read := fun o n =>
    if o < 1536 ∧ 1024 < o + n then none else (Dev.ofBytes (encodeFile shortWriter shortPair)).read o n
  bound := fun o n b h => by
    split at h
    · cases h
    · exact (Dev.ofBytes (encodeFile shortWriter shortPair)).bound o n b h

theorem badShort_damaged : Damaged badShort (Dev.ofBytes (encodeFile shortWriter shortPair)) := by
  intro o n b h
  unfold Dev.get badShort at h
  dsimp only at h
  split at h
  · rename_i h'
    split at h'
    · cases h'
    · unfold Dev.get
      rw [h']
      exact h
  · cases h

def shortState : FileState := ⟨OleFile.new, { sampleWorld with dev := fun _ => badShort }⟩

theorem isSome_ne {α : Type} {o : Option α} (h : o.isSome = true) : o ≠ none := by
  intro hn
  rw [hn] at h
  cases h

theorem badShort_tables :
    TablesRead badShort .little (headerOfFile shortWriter shortPair) (satOf shortWriter shortPair) where
  header := isSome_ne (by decide +kernel)
  sats := by
    refine ⟨[], ?_, ?_, ?_⟩
    · have : (headerOfFile shortWriter shortPair).msatSector = 0xfffffffe := by decide +kernel
      rw [this]
      exact .done
    · decide +kernel
    · have : ((headerOfFile shortWriter shortPair).msat ++
        ([] : List Bytes).flatMap (msatEntries .little)).filter (· ≠ 0xffffffff) = [3] := by decide +kernel
      rw [this]
      intro id hid
      rw [List.mem_singleton.1 hid]
      exact isSome_ne (by decide +kernel)
  directory := by
    intro ids hc id hid
    have h2 := follow_chain (by decide +kernel) hc (Or.inl rfl) 2
    rw [show follow (satOf shortWriter shortPair) 2 (headerOfFile shortWriter shortPair).rootDirSector = [0] by
      decide +kernel] at h2
    have hids : ids = [0] := by
      match ids, h2 with
      | [], h => cases h
      | [_], h => exact h.symm
      | _ :: _ :: _, h => simp at h
    rw [hids] at hid
    rw [List.mem_singleton.1 hid]
    exact isSome_ne (by decide +kernel)

theorem shortPair_named : ∀ n ∈ (entriesOfSlots (slotsOfFile shortWriter shortPair)).map (·.name),
    Comparable cmpNone n := by
  intro n _
  exact ⟨fun _ => by simp [cmpNone], fun _ => by simp [cmpNone]⟩

/-- The file opens and shows its document but for the data of longer short streams (C111_short_table_partial). -/
example : (openHandle cmpNone (.user 1) 1 {} shortState).1 = .ok () ∧
    ∃ t f it, (openHandle cmpNone (.user 1) 1 {} shortState).2.file.tree = some t ∧
      (openHandle cmpNone (.user 1) 1 {} shortState).2.file.ctx
        ((openHandle cmpNone (.user 1) 1 {} shortState).2.world.dev (.user 1)) = some f ∧
      rootItem (some t) = some it ∧
      ShowsSizes (fun n => 4096 ≤ n ∨ n ≤ 64) t f it (.storage shortPair) :=
  have hd : shortState.world.dev (.user 1) = badShort := rfl
  C111_short_table_partial (encodeFile_held shortPair_storable) cmpNone shortPair_named shortState
    ⟨shortState, [], ⟨rfl, rfl⟩, rfl⟩ rfl (.user 1) (by rw [hd]; exact badShort_damaged)
    (by rw [hd]; exact ⟨_, _, _, encodeFile_layout shortPair_storable, badShort_tables⟩) 1 rfl

/-- The second half of its stream is shown as the first one (C111_short_violated): 7 instead of 8. -/
example : (openHandle cmpNone (.user 1) 1 {} shortState).1 = .ok () ∧
    ∃ t f it, (openHandle cmpNone (.user 1) 1 {} shortState).2.file.tree = some t ∧
      (openHandle cmpNone (.user 1) 1 {} shortState).2.file.ctx
        ((openHandle cmpNone (.user 1) 1 {} shortState).2.world.dev (.user 1)) = some f ∧
      rootItem (some t) = some it ∧
      ∃ x, NamedFrom t (·.name) it [[65, 0]] x ∧
        (streamRead f x.entry (64 : Nat) 64).1.res = .ok (List.replicate 64 7) := by
  have hd : shortState.world.dev (.user 1) = badShort := rfl
  obtain ⟨root, hroot⟩ : ∃ root, (entriesOfSlots (slotsOfFile shortWriter shortPair)).find? (fun x => x.type = 5) =
      some root := Option.isSome_iff_exists.1 (by decide +kernel)
  have hstart : root.start = 2 := by
    have : ((entriesOfSlots (slotsOfFile shortWriter shortPair)).find? (fun x => x.type = 5)).map (·.start) =
        some 2 := by decide +kernel
    rw [hroot] at this
    exact Option.some.inj this
  obtain ⟨h1, t, f, it, h2, h3, h4, h5⟩ :=
    C111_short_violated (encodeFile_held shortPair_storable) cmpNone shortPair_named shortState
      ⟨shortState, [], ⟨rfl, rfl⟩, rfl⟩ rfl (.user 1) (by rw [hd]; exact badShort_damaged)
      (by rw [hd]; exact ⟨_, _, _, encodeFile_layout shortPair_storable, badShort_tables⟩)
      (by rw [hd]; decide +kernel) hroot (s := List.replicate 64 7) (by rw [hd, hstart]; decide +kernel) 1 rfl
  refine ⟨h1, t, f, it, h2, h3, h4, ?_⟩
  obtain ⟨x, hx, _, hr⟩ := h5 [[65, 0]] _
    (.sub (path := []) .here (by unfold shortPair; exact List.mem_singleton.2 rfl))
    (by rw [List.length_append, List.length_replicate, List.length_replicate]; show 64 + 64 < 4096; decide)
    (by rw [List.length_append, List.length_replicate, List.length_replicate]; show 2 * 2 ^ 6 ≤ 64 + 64; decide)
  exact ⟨x, hx, hr⟩

end Olecf.Props
