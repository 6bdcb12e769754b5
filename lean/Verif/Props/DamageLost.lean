import Verif.Props.Damage
import Verif.Props.ExportDoc

/-
  C111 (continued): a file of which the sector table is missing opens, and its streams show other data.
-/

namespace Olecf.Props

open Olecf.Spec

/-- A file of which the directory is the first sector and the sector table cannot be read opens, with a table of
  zeros. -/
theorem lost_opens {content : Bytes} {e : Endian} {h : HeaderFields} {sat ssat : List Nat}
    {slots : List SlotFields} {root : DirEntry} (hl : Layout content e h sat ssat slots)
    (hg : GoodLinks (entriesOfSlots slots) root) (cmp : Bytes → Bytes → Option Bool)
    (hcmp : ∀ d ∈ entriesOfSlots slots, NameComparable cmp d) (io : IoHandle)
    {dev' : Dev} (hd : Damaged dev' (Dev.ofBytes content)) (hh : dev'.get 0 512 ≠ none)
    (hm : h.msatSectors = 0) (hroot : h.rootDirSector = 0)
    (hfirst : readable dev' (2 ^ h.sectorExp) ((h.msat.filter (· ≠ 0xffffffff)).take h.satSectors) = [])
    (hone : slots.length * 128 = 2 ^ h.sectorExp) {s : Bytes}
    (hsec : sector dev' (2 ^ h.sectorExp) 0 = some s) :
    ∃ l t m, Opened cmp dev' io l
      ((io.withHeader (parsedFields e h)).withShortStart (some root.start)) (parsedFields e h)
      ⟨h.msat⟩ (entriesOfSlots slots) (some (t, m)) ∧
      l.sat = ⟨List.replicate (h.satSectors * (2 ^ h.sectorExp / 4)) 0⟩ ∧ t.root = root := by
  obtain ⟨msat, ssecs, ⟨msecs, hm1, hm2, hm3⟩, hs1, hs2, hs3⟩ := hl.hsat
  obtain ⟨dids, dsecs, hd1, hd2, hd3, hd4, hd5⟩ := hl.directory
  have hexp : 2 ^ h.sectorExp ≤ 32768 := by
    have : 2 ^ h.sectorExp ≤ 2 ^ 15 := Nat.pow_le_pow_right (by decide) hl.fits.sectorExp
    omega
  obtain ⟨k, hk⟩ : ∃ k, 2 ^ h.sectorExp = 128 * k :=
    ⟨2 ^ (h.sectorExp - 7), by
      rw [show (128 : Nat) = 2 ^ 7 from rfl, ← Nat.pow_add]; congr 1; have := hl.sectorSize; omega⟩
  have hpos : 0 < 2 ^ h.sectorExp := Nat.two_pow_pos _
  have hk0 : 0 < k := by omega
  have hq : h.msatSector = 0xfffffffe := by
    rw [hm] at hm2
    have : msecs = [] := List.length_eq_zero_iff.1 hm2
    subst this
    generalize h.msatSector = q at hm1
    cases hm1; rfl
  have hheader : (headerRead dev' ⟨List.replicate 109 0⟩).res = .ok (parsedFields e h, ⟨h.msat⟩) := by
    rw [← headerRead_damaged hd, headerRead_encoded hl.fits hl.header]
    intro r hr
    have : (headerRead dev' ⟨List.replicate 109 0⟩).reads = [(0, 512)] := by
      unfold headerRead
      cases dev'.get 0 512 <;> rfl
    rw [this, List.mem_singleton] at hr
    rw [hr]
    exact hh
  have hmsat : (readMsat (io.withHeader (parsedFields e h)) dev' ⟨h.msat⟩
      h.msatSector h.msatSectors).res = .ok ⟨h.msat⟩ := by
    rw [hq, hm, (C08_msat_header_only _ _ _ 0 hl.fits.msatLength hpos
      (by show 2 ^ h.sectorExp ≤ _; omega)).1]
  have hsz : h.satSectors * (2 ^ h.sectorExp / 4) ≤ 2 ^ 25 := by
    have h1 := hl.satLimit
    have h2 : h.satSectors * (2 ^ h.sectorExp / 4) * 4 ≤ h.satSectors * 2 ^ h.sectorExp := by
      rw [Nat.mul_assoc]
      exact Nat.mul_le_mul_left _ (Nat.div_mul_le_self _ _)
    omega
  have hsat : (readSat (io.withHeader (parsedFields e h)) dev' ⟨h.msat⟩ ⟨[]⟩
      h.satSectors).res = .ok ⟨List.replicate (h.satSectors * (2 ^ h.sectorExp / 4)) 0⟩ := by
    rw [C09_sat_outcome _ _ _ _ h.sectorExp (by have := hl.sectorSize; omega) hl.fits.sectorExp rfl
      hl.fits.msat hsz]
    show Res.ok (AllocTable.mk (padTo (h.satSectors * (2 ^ h.sectorExp / 4)) (List.flatMap _
      (readable dev' (2 ^ h.sectorExp) _)))) = _
    rw [hfirst]
    rfl
  have hsn : (List.replicate (h.satSectors * (2 ^ h.sectorExp / 4)) 0).length ≤ 2 ^ 25 := by
    rw [List.length_replicate]
    exact hsz
  have hsv : ∀ v ∈ List.replicate (h.satSectors * (2 ^ h.sectorExp / 4)) 0, v < 2 ^ 32 := by
    intro v hv
    rw [(List.mem_replicate.1 hv).2]
    exact Nat.two_pow_pos 32
  have hssz : h.ssatSectors * (2 ^ h.sectorExp / 4) ≤ 2 ^ 25 := by
    have : h.ssatSectors * (2 ^ h.sectorExp / 4) ≤ 257 * 8192 :=
      Nat.mul_le_mul hl.ssatLimit (by omega)
    omega
  have hssat := C10_ssat_outcome (io.withHeader (parsedFields e h)) dev'
    (List.replicate (h.satSectors * (2 ^ h.sectorExp / 4)) 0) h.ssatSector h.ssatSectors h.sectorExp
    hl.fits.sectorExp rfl hsn hsv hl.fits.ssatSector hssz
  have hslen : sat.length = h.satSectors * (2 ^ h.sectorExp / 4) := by
    rw [hs3, flatMap_words_length (sectorsAre_length hs1).2, hs2]
  -- the directory is one sector, the first
  have hflat : dsecs.flatten.length = 2 ^ h.sectorExp := by
    rw [hd5, ← hone, Olecf.flatten_length (u := 128), List.length_map]
    intro x hx
    obtain ⟨f, hf, rfl⟩ := List.mem_map.1 hx
    exact encodeSlot_length (hl.hslots f hf)
  have hdl : dsecs.length = 1 := by
    rw [Olecf.flatten_length (u := 2 ^ h.sectorExp) (sectorsAre_length hd4).2] at hflat
    have : dsecs.length * 2 ^ h.sectorExp = 1 * 2 ^ h.sectorExp := by omega
    exact Nat.eq_of_mul_eq_mul_right hpos this
  obtain ⟨d0, rfl⟩ := List.length_eq_one_iff.1 hdl
  have hdid : dids = [0] := by
    have := (congrArg List.length hd4)
    rw [List.length_map, List.length_map, hdl] at this
    obtain ⟨x, rfl⟩ := List.length_eq_one_iff.1 this
    rw [hroot] at hd1
    cases hd1
    rfl
  subst hdid
  have h0 : 0 < h.satSectors * (2 ^ h.sectorExp / 4) := by
    rw [hroot] at hd1
    cases hd1 with
    | cons hx _ =>
      rw [← hslen]
      exact (List.getElem?_eq_some_iff.1 hx).1
  have hds : d0 = s := by
    have h1 := hd _ _ _ hsec
    have h2 : sector (Dev.ofBytes content) (2 ^ h.sectorExp) 0 = some d0 := by
      unfold SectorsAre at hd4
      simpa using hd4
    exact Option.some.inj (h2.symm.trans h1)
  subst hds
  have hdir := (C15_directory_exact (io.withHeader (parsedFields e h)) dev'
    (List.replicate (h.satSectors * (2 ^ h.sectorExp / 4)) 0)
    h.rootDirSector k (entriesOfSlots slots) hk hk0 (by show 2 ^ h.sectorExp ≤ _; omega) hsn hsv
    hl.fits.rootDirSector (by rw [hroot]; decide)).2
    ⟨[0], true, [d0], by
      rw [hroot]
      refine .step (nxt := 0) (by decide) (by decide) (by simp) ?_ (.again (by decide) (by decide) (by simp))
      rw [List.getElem?_replicate, if_pos h0], by simp, by
      show [sector dev' (2 ^ h.sectorExp) 0] = _
      rw [hsec]; rfl,
      by rw [hd5]; exact (entriesOf_slots hl.hslots).2,
      by rw [hd5]; exact (entriesOf_slots hl.hslots).1.symm⟩
  have hnd := entriesOfSlots_nodup slots
  obtain ⟨⟨t, m⟩, htm⟩ := C20_well_formed_accepted (entriesOfSlots slots) cmp hnd root hg.hroot hg.sub
    hg.prev hg.next (goodLinks_unique hg hnd)
    (fun d hd hne => hg.leads d hd .next hne) hcmp
  have htr : t.root = root := by
    have := (createTree_some htm).2.1
    rw [hg.hroot] at this
    exact (Option.some.inj this).symm
  refine ⟨⟨⟨h.msat⟩, ⟨List.replicate (h.satSectors * (2 ^ h.sectorExp / 4)) 0⟩, ⟨_⟩, some t⟩, t, m,
    ⟨hheader, hmsat, hsat, hssat, hdir.1, hdir.2, htm, rfl, ?_⟩, rfl, htr⟩
  rw [createTree_start htm]
  simp [htr]

/-- The second sector of a stream, with a table of zeros, is the first sector of the file. -/
theorem lost_read {f : FileCtx} {d : DirEntry} {N : Nat} (hs : f.sat = ⟨List.replicate N 0⟩) (h2 : 2 ≤ N)
    (hN : N ≤ 2 ^ 25) (hss : 0 < f.io.sectorSize) (hss' : f.io.sectorSize ≤ 32768) (hd : d.start < N)
    (ht : d.type = 2) (hlong : ¬ d.size < f.io.minStreamSize) (hsize : 2 * f.io.sectorSize ≤ d.size) {s : Bytes}
    (hsec : sector f.dev f.io.sectorSize 0 = some s) (hlen : s.length = f.io.sectorSize) :
    (streamRead f d (f.io.sectorSize : Nat) f.io.sectorSize).1.res = .ok s := by
  have hshort : f.short d = false := by unfold FileCtx.short; exact decide_eq_false hlong
  have htab : f.table d = ⟨List.replicate N 0⟩ := by unfold FileCtx.table; rw [hshort]; exact hs
  have hunit : f.unit d = f.io.sectorSize := by unfold FileCtx.unit; rw [hshort]; rfl
  have hn : (⟨List.replicate N 0⟩ : AllocTable).n = N := List.length_replicate
  have hnext : ∀ i, i < N → (⟨List.replicate N 0⟩ : AllocTable).next i = .ok 0 := by
    intro i hi
    unfold AllocTable.next
    rw [if_neg (by unfold INT_MAX; omega)]
    refine get_ok.2 ?_
    rw [List.getElem?_replicate, if_pos hi]
  have hpos : sectorOffset 0 f.io.sectorSize = f.io.sectorSize := by
    unfold sectorOffset
    rw [show (0 + 1) % 2 ^ 32 = 1 from rfl, Nat.one_mul]
  have hget : f.dev.get f.io.sectorSize f.io.sectorSize = some s := by
    have : sectorPos f.io.sectorSize 0 = f.io.sectorSize := by
      rw [← sectorOffset_eq _ (Nat.two_pow_pos 32), hpos]
    unfold sector at hsec
    rw [this] at hsec
    exact hsec
  have hread : (readStream f d (f.io.sectorSize : Nat) f.io.sectorSize).res =
      .ok (s, f.io.sectorSize + f.io.sectorSize) := by
    unfold readStream
    rw [if_neg (by omega), if_neg (by unfold SSIZE_MAX; omega), hunit, if_neg (by omega), htab, hn]
    have hidx : toInt32 ((f.io.sectorSize : Int).toNat / f.io.sectorSize) = 1 := by
      rw [Int.toNat_natCast, Nat.div_self hss]
      rfl
    rw [hidx, hshort]
    dsimp only
    rw [if_neg (by omega)]
    have hc : chainPos ⟨List.replicate N 0⟩ (Int.toNat 1) d.start = .ok 0 := by
      show chainPos _ (0 + 1) d.start = _
      unfold chainPos
      rw [if_neg (by unfold EOC; omega), hnext _ hd]
      rfl
    rw [hc]
    dsimp only
    obtain ⟨k, hk⟩ : ∃ k, f.io.sectorSize = k + 1 := ⟨f.io.sectorSize - 1, by omega⟩
    conv => lhs; arg 1; arg 7; rw [hk]
    unfold streamLoop
    rw [if_neg (by omega)]
    dsimp only
    rw [if_neg (by decide)]
    have ho : streamSectorOffset f.io f.sat false 0 = .ok f.io.sectorSize := by
      unfold streamSectorOffset
      rw [hpos]
      rfl
    rw [ho]
    dsimp only
    rw [Int.toNat_natCast, show Int.toNat 1 * f.io.sectorSize = f.io.sectorSize from Nat.one_mul _,
      if_neg (Nat.lt_irrefl _), show (f.io.sectorSize + 2 ^ 64 - 0) % 2 ^ 64 = f.io.sectorSize by omega,
      if_neg (Nat.lt_irrefl _), if_neg (by omega), Nat.add_zero, hget]
    dsimp only
    rw [hnext 0 (by omega)]
    dsimp only
    rw [if_neg (by decide), Nat.sub_self]
    unfold streamLoop
    rw [if_pos rfl]
    simp [Out.of]
  unfold streamRead
  rw [if_neg (fun h => h ht), if_neg (by omega), if_neg (by unfold SSIZE_MAX; omega), if_neg (by omega)]
  dsimp only
  rw [if_neg (by omega), hread]
  dsimp only
  rw [if_neg (fun h => h hlen)]

/-- A read of the second sector of a stream needs the entry of its start in the table. -/
theorem second_needs {f : FileCtx} {d : DirEntry} {sat : List Nat} (hs : f.sat = ⟨sat⟩) (hn : sat.length ≤ 2 ^ 25)
    (hss : 0 < f.io.sectorSize) (hss' : f.io.sectorSize ≤ 32768) (hlong : ¬ d.size < f.io.minStreamSize)
    (hsize : 2 * f.io.sectorSize ≤ d.size) {b : Bytes}
    (h : (streamRead f d (f.io.sectorSize : Nat) f.io.sectorSize).1.res = .ok b) :
    2 ≤ sat.length ∧ d.start < sat.length := by
  have hshort : f.short d = false := by unfold FileCtx.short; exact decide_eq_false hlong
  have htab : f.table d = ⟨sat⟩ := by unfold FileCtx.table; rw [hshort]; exact hs
  have hunit : f.unit d = f.io.sectorSize := by unfold FileCtx.unit; rw [hshort]; rfl
  have hidx : toInt32 ((f.io.sectorSize : Int).toNat / f.io.sectorSize) = 1 := by
    rw [Int.toNat_natCast, Nat.div_self hss]
    rfl
  unfold streamRead at h
  split at h
  · cases h
  rw [if_neg (by omega), if_neg (by unfold SSIZE_MAX; omega), if_neg (by omega)] at h
  dsimp only at h
  rw [if_neg (by omega)] at h
  have hr : ∃ x, (readStream f d (f.io.sectorSize : Nat) f.io.sectorSize).res = .ok x := by
    cases hx : (readStream f d (f.io.sectorSize : Nat) f.io.sectorSize).res with
    | ok x => exact ⟨x, rfl⟩
    | _ => rw [hx] at h; cases h
  obtain ⟨x, hx⟩ := hr
  unfold readStream at hx
  rw [if_neg (by omega), if_neg (by unfold SSIZE_MAX; omega), hunit, if_neg (by omega), htab, hidx] at hx
  dsimp only at hx
  have hn' : (⟨sat⟩ : AllocTable).n = sat.length := rfl
  rw [hn'] at hx
  by_cases hi : (1 : Int) < 0 ∨ (1 : Int) ≥ (sat.length : Nat)
  · rw [if_pos hi] at hx
    cases hx
  rw [if_neg hi] at hx
  have hc : ∃ id, chainPos ⟨sat⟩ (Int.toNat 1) d.start = .ok id := by
    cases hc : chainPos ⟨sat⟩ (Int.toNat 1) d.start with
    | ok id => exact ⟨id, rfl⟩
    | _ => rw [hc] at hx; cases hx
  obtain ⟨id, hc⟩ := hc
  refine ⟨by omega, ?_⟩
  change chainPos _ (0 + 1) d.start = _ at hc
  unfold chainPos at hc
  split at hc
  · cases hc
  cases hnx : (⟨sat⟩ : AllocTable).next d.start with
  | ok v =>
    unfold AllocTable.next at hnx
    split at hnx
    · cases hnx
    · exact (List.getElem?_eq_some_iff.1 (get_ok.1 hnx)).1
  | _ => rw [hnx] at hc; cases hc

/-- C111 is violated: a file of which the sector table cannot be read opens, and its streams silently show other
  data.  For every file that holds a document, of which the directory takes the first sector and the header lists all
  sectors of the sector table, and every damaged copy of it of which the header and the first sector can be read but
  not the sector table: the open succeeds, the hierarchy is that of the document, streams have their sizes, and the
  second sector of every stream that is not short and has at least two is shown as the first sector of the file,
  that is, the directory. -/
theorem C111_open_violated {content : Bytes} {hd : HeaderFields} {slots : List SlotFields} {doc : Doc}
    (hf : HeldBy content hd slots doc) (hm : hd.msatSectors = 0) (hroot : hd.rootDirSector = 0)
    (hone : slots.length * 128 = 2 ^ hd.sectorExp)
    (cmp : Bytes → Bytes → Option Bool)
    (hcmp : ∀ n ∈ (entriesOfSlots slots).map (·.name), Comparable cmp n)
    (st : FileState) (hst : Reachable cmp st) (hclosed : st.file.handle = none) (h : HandleId)
    (hdev : Damaged (st.world.dev h) (Dev.ofBytes content)) (hhead : Readable (st.world.dev h) (0, 512))
    (hfirst : readable (st.world.dev h) (2 ^ hd.sectorExp)
      ((hd.msat.filter (· ≠ 0xffffffff)).take hd.satSectors) = [])
    {s : Bytes} (hsec : sector (st.world.dev h) (2 ^ hd.sectorExp) 0 = some s)
    (flags : Nat) (hfl : flags % 4 = 1) :
    (openHandle cmp h flags {} st).1 = .ok () ∧
    ∃ t f it, (openHandle cmp h flags {} st).2.file.tree = some t ∧
      (openHandle cmp h flags {} st).2.file.ctx
        ((openHandle cmp h flags {} st).2.world.dev h) = some f ∧
      rootItem (some t) = some it ∧
      ∀ path data, DocAt doc path (.stream data) → hd.minStreamSize ≤ data.length →
        2 * 2 ^ hd.sectorExp ≤ data.length →
        ∃ x, NamedFrom t (·.name) it path x ∧ x.entry.size = data.length ∧
          (streamRead f x.entry ((2 ^ hd.sectorExp : Nat) : Int) (2 ^ hd.sectorExp)).1.res = .ok s := by
  have hcmp' : ∀ d ∈ entriesOfSlots slots, NameComparable cmp d :=
    fun d hd => hcmp d.name (List.mem_map_of_mem hd)
  obtain ⟨l, t, m, h1, h2, h3, _, _, _, _, _, hs⟩ := heldBy_loaded hf cmp hcmp st.file.io
  obtain ⟨e, sat, ssat, root, _, _, _, hlay, hg, _, _, _, _⟩ := hf
  obtain ⟨l1, t1, m1, ho1, hs1, hss1, _⟩ := layout_opens hlay hg cmp hcmp' st.file.io
  obtain ⟨k1, k2⟩ := openCore_ok_iff.2 ⟨_, _, _, _, ho1⟩
  obtain ⟨l2, t2, m2, ho2, hs2, _⟩ := lost_opens hlay hg cmp hcmp' st.file.io hdev hhead hm hroot hfirst hone hsec
  obtain ⟨j1, j2⟩ := openCore_ok_iff.2 ⟨_, _, _, _, ho2⟩
  rw [k1] at h1
  cases h1
  have e1 := ho1.htree.symm.trans ho2.htree
  cases e1
  have e2 := ho1.htree.symm.trans h3
  cases e2
  have hexp : 2 ^ hd.sectorExp ≤ 32768 := by
    have : 2 ^ hd.sectorExp ≤ 2 ^ 15 := Nat.pow_le_pow_right (by decide) hlay.fits.sectorExp
    omega
  have hpos : 0 < 2 ^ hd.sectorExp := Nat.two_pow_pos _
  have hlen : s.length = 2 ^ hd.sectorExp := Dev.get_length hsec
  have hsatlen : sat.length = hd.satSectors * (2 ^ hd.sectorExp / 4) ∧ sat.length ≤ 2 ^ 25 := by
    obtain ⟨_, hsw, _⟩ := ho1.wf
    rw [hs1] at hsw
    obtain ⟨msat, ssecs, _, q1, q2, q3⟩ := hlay.hsat
    refine ⟨?_, hsw.1⟩
    rw [q3, flatMap_words_length (sectorsAre_length q1).2, q2]
  have hok : (openHandle cmp h flags {} st).1 = .ok () := by
    obtain ⟨l0, t0, m0, ho0, _⟩ := lost_opens hlay hg cmp hcmp' .cleared hdev hhead hm hroot hfirst hone hsec
    exact (C34_open_iff cmp st hst h flags {}).1.2
      ⟨hclosed, hfl, rfl, Or.inr rfl, l0, (openCore_ok_iff.2 ⟨_, _, _, _, ho0⟩).1⟩
  refine ⟨hok, ?_⟩
  obtain ⟨l', hdr, t0, list, tree, ho, hfile, hworld⟩ := openHandle_loaded (reachable_inv hst).closed hok
  obtain ⟨p1, p2⟩ := openCore_ok_iff.2 ⟨_, _, _, _, ho⟩
  rw [j1] at p1
  cases p1
  have hdv : (openHandle cmp h flags {} st).2.world.dev h = st.world.dev h := by
    rw [hworld, (ensureOpen_isOpen _ _).2.2.1]
  refine ⟨t, _, ⟨none, t.root⟩, by rw [hfile]; exact ho2.hltree, by rw [hdv, hfile]; rfl, rfl, ?_⟩
  intro path data hp hcut hsize
  obtain ⟨x, hx1, hx2⟩ := docAt_named (g := id) hs hp
  rw [List.map_id] at hx1
  refine ⟨x, hx1, ?_⟩
  cases hx2 with
  | stream ht hn hsz hrd =>
    refine ⟨hsz, ?_⟩
    have hwhole := hrd (2 ^ hd.sectorExp) (2 ^ hd.sectorExp) (by omega)
    rw [k2, hs1, hss1] at hwhole
    obtain ⟨n1, n2⟩ := second_needs (f := ⟨_, _, _, _⟩) rfl hsatlen.2 hpos hexp
      (by show ¬ x.entry.size < hd.minStreamSize; omega)
      (by show 2 * 2 ^ hd.sectorExp ≤ _; omega) hwhole
    rw [← p2, j2]
    refine lost_read (N := hd.satSectors * (2 ^ hd.sectorExp / 4)) hs2 (by omega) (by omega) hpos hexp (by omega) ht
      (by show ¬ x.entry.size < hd.minStreamSize; omega)
      (by show 2 * 2 ^ hd.sectorExp ≤ _; omega) hsec hlen

/-! ### Written files of which the end is missing -/

theorem get_ofBytes_eq {content : Bytes} {o n : Nat} (hn : 0 < n) :
    (Dev.ofBytes content).get o n =
      if o + n ≤ content.length then some ((content.drop o).take n) else none := by
  unfold Dev.get Dev.ofBytes
  dsimp only
  by_cases h : o + n ≤ content.length
  · rw [if_pos h, if_pos (by rw [List.length_take, List.length_drop]; omega)]
  · rw [if_neg h, if_neg (by rw [List.length_take, List.length_drop]; omega)]

/-- C111 is violated by files of which the end is missing: for every document within the limits, with a directory of
  one sector and a sector table that the header lists, written by the writer of C60: cut anywhere between the
  directory and the end of the first sector of the sector table, the file opens, with all names and sizes, and the
  second sector of every stream that is not short and has at least two is shown as the bytes of the directory. -/
theorem C111_written_violated (w : Writer) (kids : List (Bytes × Doc)) (hst : Storable w kids)
    (hdir : dirCount w kids = 1) (hms : msatCount w kids = 0)
    (cmp : Bytes → Bytes → Option Bool) (hcmp : ∀ n ∈ namesOfKids kids, Comparable cmp n)
    (st : FileState) (hr : Reachable cmp st) (hclosed : st.file.handle = none)
    (h : HandleId) (n : Nat) (hn : 2 * w.ss ≤ n) (hn' : n < (runCount w kids + 2) * w.ss)
    (hdev : st.world.dev h = Dev.ofBytes ((encodeFile w kids).take n)) (flags : Nat) (hfl : flags % 4 = 1) :
    (openHandle cmp h flags {} st).1 = .ok () ∧
    ∃ t f it, (openHandle cmp h flags {} st).2.file.tree = some t ∧
      (openHandle cmp h flags {} st).2.file.ctx
        ((openHandle cmp h flags {} st).2.world.dev h) = some f ∧
      rootItem (some t) = some it ∧
      ∀ path data, DocAt (.storage kids) path (.stream data) → w.cutoff ≤ data.length →
        2 * w.ss ≤ data.length →
        ∃ x, NamedFrom t (·.name) it path x ∧ x.entry.size = data.length ∧
          (streamRead f x.entry (w.ss : Nat) w.ss).1.res = .ok (((encodeFile w kids).drop w.ss).take w.ss) := by
  have hz := sizes hst.sectorExp
  have hss : 512 ≤ w.ss := by have := hz.ss4; have := hz.per; omega
  have hdl := dirSectorsOf_length hst
  have hrun : 1 ≤ runCount w kids := by
    unfold runCount runs
    rw [List.map_cons, List.sum_cons, hdl, hdir]
    omega
  have hlim := runCount_lt hst
  have hsat : 1 ≤ satCount w kids := by
    rcases Nat.eq_zero_or_pos (satCount w kids) with h0 | h0
    · have := (units_eq_zero (by have := hz.per; omega)).1 h0
      omega
    · exact h0
  -- the directory is the first sector
  have hdsec : ∃ x, sector (Dev.ofBytes (encodeFile w kids)) w.ss 0 = some x := by
    cases hd : dirSectorsOf w kids with
    | nil => rw [hd] at hdl; simp at hdl; omega
    | cons x xs =>
      refine ⟨x, encodeFile_sector hst 0 x ?_⟩
      unfold runs
      rw [hd]
      rfl
  have hp0 : sectorPos w.ss 0 = w.ss := by
    rw [← sectorOffset_eq _ (Nat.two_pow_pos 32)]
    unfold sectorOffset
    rw [show (0 + 1) % 2 ^ 32 = 1 from rfl, Nat.one_mul]
  have hlen : 2 * w.ss ≤ (encodeFile w kids).length := by
    obtain ⟨x, hx⟩ := hdsec
    unfold sector at hx
    rw [hp0, get_ofBytes_eq (by omega)] at hx
    split at hx
    · omega
    · cases hx
  have htake : ((encodeFile w kids).take n).length = min n (encodeFile w kids).length := List.length_take
  have hsec : sector (st.world.dev h) w.ss 0 = some (((encodeFile w kids).drop w.ss).take w.ss) := by
    unfold sector
    rw [hp0, hdev, get_ofBytes_eq (by omega), htake, if_pos (by omega), List.drop_take, List.take_take,
      Nat.min_eq_left (by omega)]
  refine C111_open_violated (encodeFile_held hst) hms rfl ?_ cmp ?_ st hr hclosed h
    (by rw [hdev]; exact damaged_take _ _) ?_ ?_ hsec flags hfl
  · rw [slotsOfFile_length hst, hdir, Nat.one_mul, Nat.mul_comm]
    exact hz.ss128.symm
  · rw [slotsOfFile_names hst]
    intro n hn
    rcases List.mem_cons.1 hn with rfl | hn
    · exact rootName_comparable _ _
    · exact hcmp n hn
  · unfold Readable
    rw [hdev, get_ofBytes_eq (by decide), htake, if_pos (by show 0 + 512 ≤ _; omega)]
    exact Option.some_ne_none _
  · show readable _ w.ss (((headerMsatOf w kids).filter _).take (satCount w kids)) = []
    obtain ⟨c, hc⟩ : ∃ c, satCount w kids = c + 1 := ⟨satCount w kids - 1, by omega⟩
    have hhead : ∃ rest, headerMsatOf w kids = runCount w kids :: rest := by
      unfold headerMsatOf satIds
      rw [hc, List.range'_succ]
      exact ⟨_, rfl⟩
    obtain ⟨rest, hrest⟩ := hhead
    rw [hrest, List.filter_cons_of_pos (by rw [decide_eq_true_eq]; omega), hc, List.take_succ_cons]
    unfold readable
    have hnone : sector (st.world.dev h) w.ss (runCount w kids) = none := by
      unfold sector
      rw [← sectorOffset_eq _ (by omega), hdev, get_ofBytes_eq (by omega), htake]
      unfold sectorOffset
      rw [Nat.mod_eq_of_lt (by omega), if_neg]
      rw [show (runCount w kids + 2) * w.ss = (runCount w kids + 1) * w.ss + w.ss by
        rw [← Nat.succ_mul]] at hn'
      omega
    rw [hnone]

/-- A document with one stream of two sectors. -/
def twoSectors : List (Bytes × Doc) := [([65, 0], .stream (List.replicate 1024 7))]

theorem twoSectors_storable (e : Endian) : Storable ⟨e, 9, 6, 0, {}⟩ twoSectors := by
  refine (C60_storable e {} noMarks_fits (List.cons_ne_nil _ _) ?_ ?_).1 ?_
  · decide +kernel
  · decide +kernel
  · decide +kernel

theorem twoSectors_counts (e : Endian) : dirCount ⟨e, 9, 6, 0, {}⟩ twoSectors = 1 ∧
    msatCount ⟨e, 9, 6, 0, {}⟩ twoSectors = 0 ∧ runCount ⟨e, 9, 6, 0, {}⟩ twoSectors = 3 := by
  cases e <;> decide +kernel

/-- The directory of the file is not the data of the stream. -/
theorem twoSectors_differ (e : Endian) :
    ((encodeFile ⟨e, 9, 6, 0, {}⟩ twoSectors).drop 512).take 512 ≠ ((List.replicate 1024 7).drop 512).take 512 := by
  cases e <;> decide +kernel

/-- A world in which the handles of the caller deliver the file without its sector table. -/
def cutState (e : Endian) (n : Nat) : FileState :=
  ⟨OleFile.new, { sampleWorld with
    dev := fun _ => Dev.ofBytes ((encodeFile ⟨e, 9, 6, 0, {}⟩ twoSectors).take n) }⟩

/-- The file cut after the last sector of its stream opens, and does not show the document, not even in part
  (C111_written_violated). -/
theorem C111_document_violated (e : Endian) :
    (openHandle cmpNone (.user 1) 1 {} (cutState e 2048)).1 = .ok () ∧
    ∃ t f it, (openHandle cmpNone (.user 1) 1 {} (cutState e 2048)).2.file.tree = some t ∧
      (openHandle cmpNone (.user 1) 1 {} (cutState e 2048)).2.file.ctx
        ((openHandle cmpNone (.user 1) 1 {} (cutState e 2048)).2.world.dev (.user 1)) = some f ∧
      rootItem (some t) = some it ∧ ¬ ShowsPart t f it (.storage twoSectors) := by
  obtain ⟨c1, c2, c3⟩ := twoSectors_counts e
  have hnc : ∀ n ∈ namesOfKids twoSectors, Comparable cmpNone n := by
    intro n _
    exact ⟨fun _ => by simp [cmpNone], fun _ => by simp [cmpNone]⟩
  obtain ⟨h1, t, f, it, h2, h3, h4, h5⟩ := C111_written_violated _ twoSectors (twoSectors_storable e) c1 c2
    cmpNone hnc (cutState e 2048) ⟨cutState e 2048, [], ⟨rfl, rfl⟩, rfl⟩ rfl (.user 1) 2048
    (show 2 * 512 ≤ 2048 by decide) (by rw [c3]; show 2048 < 5 * 512; decide) rfl 1 rfl
  refine ⟨h1, t, f, it, h2, h3, h4, fun hs => ?_⟩
  obtain ⟨x, hx, _, hread⟩ := h5 [[65, 0]] (List.replicate 1024 7)
    (.sub (path := []) .here (by unfold twoSectors; exact List.mem_singleton.2 rfl)) (Nat.zero_le _)
    (by rw [List.length_replicate]; show 2 * 512 ≤ 1024; decide)
  cases hs with
  | @storage _ _ kids' items ht hnum hget hperm hlen hname hsub =>
    have hk : kids' = twoSectors := by
      unfold twoSectors at hperm ⊢
      exact List.perm_singleton.1 hperm
    subst hk
    obtain ⟨i, j2⟩ : ∃ i : Nat, items[i]? = some x := by
      generalize hpth : ([[65, 0]] : List Bytes) = pth at hx
      cases hx with
      | here => cases hpth
      | @sub names y _ i hy hi =>
        have hnil : names = [] := by
          have := congrArg List.length hpth
          simp at this
          exact this
        subst hnil
        generalize hq : ([] : List Bytes) = q at hy
        cases hy with
        | here => exact ⟨i, (hget i x).1 hi⟩
        | sub _ _ => simp at hq
    have hi : i = 0 := by
      have := (List.getElem?_eq_some_iff.1 j2).1
      have hl : twoSectors.length = 1 := rfl
      omega
    subst hi
    cases hsub 0 x _ j2 rfl with
    | stream _ _ _ hr =>
      have hr := hr 512 512 (by decide)
      rcases hr with hr | hr
      · exact nomatch hr.symm.trans hread
      · exact twoSectors_differ e (Res.ok.inj (hread.symm.trans hr))

/-! ### Cases that meet the hypotheses -/

/-- The device of the file of the document with one stream of which the second half cannot be read. -/
def badHalf : Dev where
  read := fun o n =>
    if o < 2048 ∧ 1536 < o + n then none else (Dev.ofBytes (encodeFile ⟨.little, 9, 6, 0, {}⟩ twoSectors)).read o n
  bound := fun o n b h => by
    split at h
    · cases h
    · exact (Dev.ofBytes (encodeFile ⟨.little, 9, 6, 0, {}⟩ twoSectors)).bound o n b h

theorem badHalf_damaged :
    Damaged badHalf (Dev.ofBytes (encodeFile ⟨.little, 9, 6, 0, {}⟩ twoSectors)) := by
  intro o n b h
  unfold Dev.get badHalf at h
  dsimp only at h
  split at h
  · rename_i h'
    split at h'
    · cases h'
    · unfold Dev.get
      rw [h']
      exact h
  · cases h

/-- A world in which the handles of the caller are on the damaged device. -/
def badState : FileState := ⟨OleFile.new, { sampleWorld with dev := fun _ => badHalf }⟩

theorem badHalf_reads :
    ∀ r ∈ (openRead cmpNone badHalf OleFile.new).1.reads, Readable badHalf r := by
  have h : ((openRead cmpNone badHalf OleFile.new).1.reads.all
      fun r => (badHalf.get r.1 r.2).isSome) = true := by
    decide +kernel
  intro r hr hn
  have := List.all_eq_true.1 h r hr
  rw [hn] at this
  cases this

/-- The file opens and shows its document as far as it can be read (C111_document_partial). -/
example : (openHandle cmpNone (.user 1) 1 {} badState).1 = .ok () ∧
    ∃ t f it, (openHandle cmpNone (.user 1) 1 {} badState).2.file.tree = some t ∧
      (openHandle cmpNone (.user 1) 1 {} badState).2.file.ctx
        ((openHandle cmpNone (.user 1) 1 {} badState).2.world.dev (.user 1)) = some f ∧
      rootItem (some t) = some it ∧ ShowsPart t f it (.storage twoSectors) :=
  have hd : badState.world.dev (.user 1) = badHalf := rfl
  have hf : badState.file = OleFile.new := rfl
  C111_document_partial (encodeFile_holds (twoSectors_storable .little)) cmpNone (by
    intro n _
    exact ⟨fun _ => by simp [cmpNone], fun _ => by simp [cmpNone]⟩) badState
    ⟨badState, [], ⟨rfl, rfl⟩, rfl⟩ rfl (.user 1) (by rw [hd]; exact badHalf_damaged) 1 rfl
    (by rw [hd, hf]; exact badHalf_reads)

/-- The open is that of the whole file (C111_open_partial). -/
example : openRead cmpNone badHalf OleFile.new =
    openRead cmpNone (Dev.ofBytes (encodeFile ⟨.little, 9, 6, 0, {}⟩ twoSectors)) OleFile.new :=
  C111_open_partial badHalf_damaged cmpNone OleFile.new badHalf_reads

theorem sample_length (e : Endian) : (sampleFile e).length = 4096 := by
  unfold sampleFile
  rw [List.length_append, encodeHeader_length e _ sampleFileHeader_fits,
    Olecf.flatten_length (u := 512) (sampleSectors_length e), show (sampleSectors e).length = 7 from rfl]

/-- The sample file without its last sector. -/
theorem sample_cut_sector (e : Endian) {i : Nat} {s : Bytes} (hi : (sampleSectors e)[i]? = some s) (h6 : i < 6) :
    sector (Dev.ofBytes ((sampleFile e).take 3584)) 512 i = some s := by
  have h := sample_sector e hi
  unfold sector at h ⊢
  rw [← sectorOffset_eq _ (by omega)] at h ⊢
  have hp : sectorOffset i 512 = (i + 1) * 512 := by
    unfold sectorOffset
    rw [Nat.mod_eq_of_lt (by omega)]
  rw [hp, get_ofBytes_eq (by decide), sample_length, if_pos (by omega)] at h
  rw [hp, get_ofBytes_eq (by decide), List.length_take, sample_length, if_pos (by omega), List.drop_take,
    List.take_take, Nat.min_eq_left (by omega)]
  exact h

theorem sample_cut_layout (e : Endian) :
    Layout ((sampleFile e).take 3584) e sampleFileHeader sampleSat sampleSsat sampleSlots where
  fits := sampleFileHeader_fits
  sectorSize := by decide
  header := by
    refine List.prefix_of_prefix_length_le (List.prefix_append _ _) (List.take_prefix _ _) ?_
    rw [encodeHeader_length e _ sampleFileHeader_fits, List.length_take]
    rw [sample_length]
    decide
  msatLimit := by decide
  satLimit := by decide
  ssatLimit := by decide
  hsat := by
    refine ⟨sampleFileHeader.msat, [enc32s e sampleSat], ⟨[], .done, rfl, by simp⟩, ?_, rfl, ?_⟩
    · have : sampleFileHeader.msat.filter (· ≠ 0xffffffff) = [0] := by decide
      rw [this]
      simp only [SectorsAre, List.map_cons, List.map_nil]
      rw [show 2 ^ sampleFileHeader.sectorExp = 512 from rfl, sample_cut_sector e (i := 0) rfl (by decide)]
    · rw [List.flatMap_singleton, words_enc32s e sampleSat (by decide +kernel)]
  hssat := by
    refine ⟨[2], [enc32s e sampleSsat], .cons rfl (.nil _), ?_, rfl, ?_⟩
    · simp only [SectorsAre, List.map_cons, List.map_nil]
      rw [show 2 ^ sampleFileHeader.sectorExp = 512 from rfl, sample_cut_sector e (i := 2) rfl (by decide)]
    · rw [List.flatMap_singleton, words_enc32s e sampleSsat (by decide +kernel)]
  directory := by
    refine ⟨[1, 5], [((sampleSlots.take 4).map (encodeSlot e)).flatten,
      ((sampleSlots.drop 4).map (encodeSlot e)).flatten], .cons (nxt := 5) rfl (.cons rfl (.nil _)),
      by simp, by simp, ?_, ?_⟩
    · simp only [SectorsAre, List.map_cons, List.map_nil]
      rw [show 2 ^ sampleFileHeader.sectorExp = 512 from rfl, sample_cut_sector e (i := 1) rfl (by decide),
        sample_cut_sector e (i := 5) rfl (by decide)]
    · rw [List.flatten_cons, List.flatten_cons, List.flatten_nil, List.append_nil,
        ← List.flatten_append, ← List.map_append, List.take_append_drop]
  hslots := sampleSlots_fit

/-- A world in which the handles of the caller deliver the sample file without its last sector. -/
def sampleCutState (e : Endian) : FileState :=
  ⟨OleFile.new, { sampleWorld with dev := fun _ => Dev.ofBytes ((sampleFile e).take 3584) }⟩

/-- The sample file without its last sector shows its document as far as it can be read (C111_truncated). -/
example (e : Endian) : (openHandle cmpNone (.user 1) 1 {} (sampleCutState e)).1 = .ok () ∧
    ∃ t f it, (openHandle cmpNone (.user 1) 1 {} (sampleCutState e)).2.file.tree = some t ∧
      (openHandle cmpNone (.user 1) 1 {} (sampleCutState e)).2.file.ctx
        ((openHandle cmpNone (.user 1) 1 {} (sampleCutState e)).2.world.dev (.user 1)) = some f ∧
      rootItem (some t) = some it ∧ ShowsPart t f it sampleDoc :=
  C111_truncated (sampleFile_held e) ⟨e, _, _, sample_cut_layout e⟩ cmpNone (by
    intro n _
    exact ⟨fun _ => by simp [cmpNone], fun _ => by simp [cmpNone]⟩) (sampleCutState e)
    ⟨sampleCutState e, [], ⟨rfl, rfl⟩, rfl⟩ rfl (.user 1) rfl 1 rfl

end Olecf.Props
