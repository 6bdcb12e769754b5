import Verif.Spec.DamageTable
import Verif.Props.DamageShort
import Verif.Props.DamageLost

/-
  C111: files of which the end of the sector table cannot be read.
-/

namespace Olecf.Props

open Olecf Spec

/-- Two tables that agree on the first `n` sectors. -/
structure Agree (n : Nat) (sat sat' : List Nat) : Prop where
  length : sat'.length = sat.length
  same : ∀ id < n, sat'[id]? = sat[id]?

theorem chain_agree {n : Nat} {sat sat' : List Nat} (h : Agree n sat sat') {a b : Nat} {ids : List Nat}
    (hc : Chain sat a ids b) : (∀ id ∈ ids, id < n) → Chain sat' a ids b := by
  induction hc with
  | nil a => exact fun _ => .nil a
  | cons hx _ ih =>
    intro hi
    exact .cons ((h.same _ (hi _ List.mem_cons_self)).trans hx) (ih fun id hid => hi id (List.mem_cons_of_mem _ hid))

theorem next_agree {n : Nat} {sat sat' : List Nat} (h : Agree n sat sat') {id : Nat} (hw : Within sat n id) :
    (⟨sat'⟩ : AllocTable).next id = (⟨sat⟩ : AllocTable).next id := by
  unfold AllocTable.next
  by_cases h1 : id > INT_MAX
  · rw [if_pos h1, if_pos h1]
  rw [if_neg h1, if_neg h1]
  have hlt : id < n := by
    refine hw 1 id ?_
    have : INT_MAX = 2147483647 := rfl
    rw [follow, if_neg (by omega)]
    exact List.mem_cons_self
  have := h.same id hlt
  have hl := h.length
  unfold AllocTable.get AllocTable.n
  dsimp only
  rw [hl]
  rw [Int.toNat_natCast, this]

theorem next_within {n : Nat} {sat : List Nat} {id nxt : Nat} (hw : Within sat n id)
    (h : (⟨sat⟩ : AllocTable).next id = .ok nxt) : Within sat n nxt := by
  unfold AllocTable.next at h
  by_cases h1 : id > INT_MAX
  · rw [if_pos h1] at h; cases h
  rw [if_neg h1] at h
  have hx : sat[id]? = some nxt := get_ok.1 h
  intro m x hm
  refine hw (m + 1) x ?_
  have : INT_MAX = 2147483647 := rfl
  rw [follow, if_neg (by omega), hx]
  exact List.mem_cons_of_mem _ hm

/-- The tables give the same next sectors from the sectors of a set on. -/
def Same (W : Nat → Prop) (t t' : AllocTable) : Prop :=
  t'.n = t.n ∧ ∀ id, W id → t'.next id = t.next id ∧ ∀ nxt, t.next id = .ok nxt → W nxt

theorem same_agree {n : Nat} {sat sat' : List Nat} (h : Agree n sat sat') : Same (Within sat n) ⟨sat⟩ ⟨sat'⟩ :=
  ⟨h.length, fun _ hw => ⟨next_agree h hw, fun _ => next_within hw⟩⟩

theorem same_refl (t : AllocTable) : Same (fun _ => True) t t := ⟨rfl, fun _ _ => ⟨rfl, fun _ _ => trivial⟩⟩

theorem chainPos_same {W : Nat → Prop} {t t' : AllocTable} (h : Same W t t') : ∀ k id, W id →
    chainPos t' k id = chainPos t k id ∧ ∀ r, chainPos t k id = .ok r → W r := by
  intro k
  induction k with
  | zero =>
    intro id hw
    exact ⟨rfl, fun r hr => by rw [chainPos] at hr; cases hr; exact hw⟩
  | succ k ih =>
    intro id hw
    rw [chainPos, chainPos]
    by_cases h1 : id = EOC
    · rw [if_pos h1, if_pos h1]
      exact ⟨rfl, fun r hr => by cases hr⟩
    rw [if_neg h1, if_neg h1, (h.2 id hw).1]
    cases hn : t.next id with
    | ok nxt => exact ih nxt ((h.2 id hw).2 nxt hn)
    | err => exact ⟨rfl, fun r hr => by cases hr⟩
    | ub => exact ⟨rfl, fun r hr => by cases hr⟩
    | hang => exact ⟨rfl, fun r hr => by cases hr⟩

theorem containerLoop_same {W : Nat → Prop} {t t' : AllocTable} (h : Same W t t') (ss : Nat) : ∀ fuel off id, W id →
    containerLoop t' ss fuel off id = containerLoop t ss fuel off id := by
  intro fuel
  induction fuel with
  | zero => intro off id _; rw [containerLoop, containerLoop]
  | succ fuel ih =>
    intro off id hw
    rw [containerLoop, containerLoop]
    by_cases h1 : off ≥ ss
    · rw [if_pos h1, if_pos h1, (h.2 id hw).1]
      cases hn : t.next id with
      | ok nxt => exact ih _ nxt ((h.2 id hw).2 nxt hn)
      | err => rfl
      | ub => rfl
      | hang => rfl
    · rw [if_neg h1, if_neg h1]

theorem streamSectorOffset_same {W : Nat → Prop} {sat sat' : AllocTable} (io : IoHandle) (short : Bool)
    (h : short = true → Same W sat sat' ∧ W io.shortStreamStart) (id : Nat) :
    streamSectorOffset io sat' short id = streamSectorOffset io sat short id := by
  unfold streamSectorOffset
  cases short with
  | false => rfl
  | true =>
    obtain ⟨h1, h2⟩ := h rfl
    rw [if_pos rfl, if_pos rfl, containerLoop_same h1 _ _ _ _ h2]

theorem streamLoop_same {W V : Nat → Prop} {sat sat' t t' : AllocTable} (io : IoHandle) (dev : Dev) (short : Bool)
    (hc : short = true → Same V sat sat' ∧ V io.shortStreamStart) (h : Same W t t') (ss : Nat) :
    ∀ fuel index id off size, W id →
      streamLoop io dev sat' t' short ss fuel index id off size =
        streamLoop io dev sat t short ss fuel index id off size := by
  intro fuel
  induction fuel with
  | zero => intro index id off size _; rw [streamLoop, streamLoop]
  | succ fuel ih =>
    intro index id off size hw
    rw [streamLoop, streamLoop]
    by_cases h1 : size = 0
    · rw [if_pos h1, if_pos h1]
    rw [if_neg h1, if_neg h1]
    dsimp only
    rw [streamSectorOffset_same io short hc, (h.2 id hw).1]
    cases hn : t.next id with
    | ok nxt => simp only [ih _ nxt _ _ ((h.2 id hw).2 nxt hn)]
    | err => rfl
    | ub => rfl
    | hang => rfl

theorem readStream_same {W V : Nat → Prop} {f f' : FileCtx} {d : DirEntry} (hio : f'.io = f.io) (hdev : f'.dev = f.dev)
    (hc : f.short d = true → Same V f.sat f'.sat ∧ V f.io.shortStreamStart) (h : Same W (f.table d) (f'.table d))
    (hw : W d.start) (cur : Int) (size : Nat) : readStream f' d cur size = readStream f d cur size := by
  have hs : f'.short d = f.short d := by unfold FileCtx.short; rw [hio]
  have hu : f'.unit d = f.unit d := by unfold FileCtx.unit; rw [hs, hio]
  unfold readStream
  rw [hs, hu, hio, hdev, h.1]
  by_cases h1 : cur < 0
  · rw [if_pos h1, if_pos h1]
  rw [if_neg h1, if_neg h1]
  by_cases h2 : size > SSIZE_MAX
  · rw [if_pos h2, if_pos h2]
  rw [if_neg h2, if_neg h2]
  by_cases h3 : f.unit d = 0
  · rw [if_pos h3, if_pos h3]
  rw [if_neg h3, if_neg h3]
  dsimp only
  by_cases h4 : toInt32 (cur.toNat / f.unit d) < 0 ∨ toInt32 (cur.toNat / f.unit d) ≥ (f.table d).n
  · rw [if_pos h4, if_pos h4]
  rw [if_neg h4, if_neg h4]
  obtain ⟨k1, k2⟩ := chainPos_same h (toInt32 (cur.toNat / f.unit d)).toNat d.start hw
  rw [k1]
  cases hp : chainPos (f.table d) (toInt32 (cur.toNat / f.unit d)).toNat d.start with
  | ok id => exact streamLoop_same _ _ _ hc h _ _ _ _ _ _ (k2 id hp)
  | err => rfl
  | ub => rfl
  | hang => rfl

theorem streamRead_same {W V : Nat → Prop} {f f' : FileCtx} {d : DirEntry} (hio : f'.io = f.io) (hdev : f'.dev = f.dev)
    (hc : f.short d = true → Same V f.sat f'.sat ∧ V f.io.shortStreamStart) (h : Same W (f.table d) (f'.table d))
    (hw : W d.start) (cur : Int) (size : Nat) : streamRead f' d cur size = streamRead f d cur size := by
  unfold streamRead
  simp only [readStream_same hio hdev hc h hw]

theorem readable_append {dev : Dev} {ss : Nat} {a b : List Nat} {secs : List Bytes}
    (h : a.map (sector dev ss) = secs.map some) : readable dev ss (a ++ b) = secs ++ readable dev ss b := by
  induction a generalizing secs with
  | nil =>
    cases secs with
    | nil => rfl
    | cons s secs => cases h
  | cons x a ih =>
    cases secs with
    | nil => cases h
    | cons s secs =>
      simp only [List.map_cons, List.cons.injEq] at h
      rw [List.cons_append, readable, h.1]
      dsimp only
      rw [ih h.2, List.cons_append]

/-- The table that is loaded if the first `k` sectors of it can be read. -/
theorem table_agree {content : Bytes} {dev' : Dev} (hd : Damaged dev' (Dev.ofBytes content)) {e : Endian} {ss : Nat}
    {ids : List Nat} {secs : List Bytes} (h : SectorsAre content ss ids secs) {k : Nat}
    (hr : ∀ id ∈ ids.take k, sector dev' ss id ≠ none) :
    Agree (k * (ss / 4)) (secs.flatMap (words e))
      (padTo (secs.length * (ss / 4)) ((readable dev' ss ids).flatMap (words e))) := by
  obtain ⟨hl, hlen⟩ := Olecf.sectorsAre_length h
  have htake : SectorsAre content ss (ids.take k) (secs.take k) := by
    unfold SectorsAre at h ⊢
    rw [List.map_take, h, List.map_take]
  have hread := sectors_readable hd htake hr
  have heq : readable dev' ss ids = secs.take k ++ readable dev' ss (ids.drop k) := by
    rw [← readable_append hread, List.take_append_drop]
  have hfl := flatMap_words_length (e := e) hlen
  have hrl : ((readable dev' ss ids).flatMap (words e)).length ≤ secs.length * (ss / 4) := by
    rw [flatMap_words_length readable_sector]
    refine Nat.mul_le_mul_right _ ?_
    rw [← hl]
    exact readable_length_le _ _ _
  refine ⟨?_, fun id hid => ?_⟩
  · rw [hfl]
    unfold padTo
    rw [List.length_append, List.length_replicate]
    omega
  · by_cases hk : k ≤ secs.length
    · have hkl : ((secs.take k).flatMap (words e)).length = k * (ss / 4) := by
        rw [flatMap_words_length fun s hs => hlen s (List.mem_of_mem_take hs), List.length_take, Nat.min_eq_left hk]
      unfold padTo
      rw [heq, List.flatMap_append, List.append_assoc, List.getElem?_append_left (by omega)]
      conv_rhs => rw [← List.take_append_drop k secs, List.flatMap_append,
        List.getElem?_append_left (by omega)]
    · have hid' : ids.take k = ids := List.take_of_length_le (by omega)
      rw [hid', List.take_of_length_le (by omega)] at hread
      rw [readable_all hread]
      unfold padTo
      rw [hfl, Nat.sub_self, List.replicate_zero, List.append_nil]

/-- A file of which the header, the master table, the first sectors of the sector table and the directory can be read,
  opens. -/
theorem part_opens {content : Bytes} {e : Endian} {h : HeaderFields} {sat ssat : List Nat}
    {slots : List SlotFields} {root : DirEntry} (hl : Layout content e h sat ssat slots)
    (hg : GoodLinks (entriesOfSlots slots) root) (cmp : Bytes → Bytes → Option Bool)
    (hcmp : ∀ d ∈ entriesOfSlots slots, NameComparable cmp d) (io : IoHandle)
    {dev' : Dev} (hd : Damaged dev' (Dev.ofBytes content)) {n : Nat} (hr : PartRead dev' e h sat n) :
    ∃ l t m sat', Opened cmp dev' io l
      ((io.withHeader (parsedFields e h)).withShortStart (some root.start)) (parsedFields e h)
      ⟨h.msat⟩ (entriesOfSlots slots) (some (t, m)) ∧ l.sat = ⟨sat'⟩ ∧ Agree (described h n) sat sat' ∧
      ((∀ ids, Chain sat h.ssatSector ids 0xfffffffe →
          ∀ id ∈ ids, id < described h n ∧ sector dev' (2 ^ h.sectorExp) id ≠ none) → l.ssat = ⟨ssat⟩) ∧
      t.root = root := by
  obtain ⟨msat, ssecs, ⟨msecs, hm1, hm2, hm3⟩, hs1, hs2, hs3⟩ := hl.hsat
  obtain ⟨dids, dsecs, hd1, hd2, hd3, hd4, hd5⟩ := hl.directory
  obtain ⟨sids, shsecs, hsh1, hsh2, hsh3, hsh4⟩ := hl.hssat
  obtain ⟨msecs', hr1, hr2, hr3⟩ := hr.sats
  have := msatSectors_unique hm1 (msatSectors_damaged hd hr1)
  subst this
  rw [← hm3] at hr3
  have hd4' := sectors_readable hd hd4 fun id hid => (hr.directory dids hd1 id hid).2
  have hexp : 2 ^ h.sectorExp ≤ 32768 := by
    have : 2 ^ h.sectorExp ≤ 2 ^ 15 := Nat.pow_le_pow_right (by decide) hl.fits.sectorExp
    omega
  obtain ⟨k, hk⟩ : ∃ k, 2 ^ h.sectorExp = 128 * k :=
    ⟨2 ^ (h.sectorExp - 7), by
      rw [show (128 : Nat) = 2 ^ 7 from rfl, ← Nat.pow_add]; congr 1; have := hl.sectorSize; omega⟩
  have hpos : 0 < 2 ^ h.sectorExp := Nat.two_pow_pos _
  have hk0 : 0 < k := by omega
  have hmv : ∀ v ∈ msat, v < 2 ^ 32 := by
    rw [hm3]
    intro v hv
    rcases List.mem_append.1 hv with hv | hv
    · exact hl.fits.msat v hv
    · obtain ⟨s, _, hv⟩ := List.mem_flatMap.1 hv
      exact words_lt e s v ((List.dropLast_sublist _).mem hv)
  have hheader : (headerRead dev' ⟨List.replicate 109 0⟩).res = .ok (parsedFields e h, ⟨h.msat⟩) := by
    rw [← headerRead_damaged hd, headerRead_encoded hl.fits hl.header]
    intro r hr'
    have : (headerRead dev' ⟨List.replicate 109 0⟩).reads = [(0, 512)] := by
      unfold headerRead
      cases dev'.get 0 512 <;> rfl
    rw [this, List.mem_singleton] at hr'
    rw [hr']
    exact hr.header
  have hmsat : (readMsat (io.withHeader (parsedFields e h)) dev' ⟨h.msat⟩
      h.msatSector h.msatSectors).res = .ok ⟨msat⟩ := by
    rw [hm3]
    by_cases h0 : h.msatSectors = 0
    · rw [h0] at hm2
      have : msecs = [] := List.length_eq_zero_iff.1 hm2
      subst this
      have hq : h.msatSector = 0xfffffffe := by
        generalize h.msatSector = q at hm1
        cases hm1; rfl
      rw [hq, h0, (C08_msat_header_only _ _ _ 0 hl.fits.msatLength hpos
        (by show 2 ^ h.sectorExp ≤ _; omega)).1]
      simp
    · have hne : h.msatSector ≠ 0xfffffffe := by
        intro hq
        rw [hq] at hm1
        cases hm1 with
        | done => simp at hm2; omega
        | step hne _ _ => exact hne rfl
      refine C08_msat_exact _ _ _ _ _ msecs hl.fits.msatLength ?_ ?_ hl.fits.msatSector hne (by omega)
        ?_ hr1 (by rw [hm2]; exact hl.msatLimit) hm2
      · show 8 ≤ 2 ^ h.sectorExp; omega
      · show 2 ^ h.sectorExp ≤ _; omega
      · show 109 + h.msatSectors * (2 ^ h.sectorExp / 4 - 1) ≤ _
        have : h.msatSectors * (2 ^ h.sectorExp / 4 - 1) ≤ 257 * 8192 :=
          Nat.mul_le_mul hl.msatLimit (by omega)
        omega
  have hsz : h.satSectors * (2 ^ h.sectorExp / 4) ≤ 2 ^ 25 := by
    have h1 := hl.satLimit
    have h2 : h.satSectors * (2 ^ h.sectorExp / 4) * 4 ≤ h.satSectors * 2 ^ h.sectorExp := by
      rw [Nat.mul_assoc]
      exact Nat.mul_le_mul_left _ (Nat.div_mul_le_self _ _)
    omega
  have hsat := C09_sat_outcome (io.withHeader (parsedFields e h)) dev' msat h.satSectors h.sectorExp
    (by have := hl.sectorSize; omega) hl.fits.sectorExp rfl hmv hsz
  have hcount : (msat.filter (· ≠ 0xffffffff)).length = h.satSectors := (Olecf.sectorsAre_length hs1).1.trans hs2
  rw [List.take_of_length_le (Nat.le_of_eq hcount)] at hsat
  have hag := table_agree hd (e := e) hs1 hr3
  rw [hs2, ← hs3] at hag
  change (readSat (io.withHeader (parsedFields e h)) dev' ⟨msat⟩ ⟨[]⟩ h.satSectors).res =
    .ok ⟨padTo (h.satSectors * (2 ^ h.sectorExp / 4))
      ((readable dev' (2 ^ h.sectorExp) (msat.filter (· ≠ 0xffffffff))).flatMap (words e))⟩ at hsat
  have hsv : ∀ v ∈ padTo (h.satSectors * (2 ^ h.sectorExp / 4))
      ((readable dev' (2 ^ h.sectorExp) (msat.filter (· ≠ 0xffffffff))).flatMap (words e)), v < 2 ^ 32 := by
    intro v hv
    rcases List.mem_append.1 hv with hv | hv
    · exact flatMap_words_lt v hv
    · rw [List.eq_of_mem_replicate hv]; decide
  have hsn0 : sat.length ≤ 2 ^ 25 := by
    rw [hs3, flatMap_words_length (Olecf.sectorsAre_length hs1).2, hs2]
    exact hsz
  generalize padTo (h.satSectors * (2 ^ h.sectorExp / 4))
      ((readable dev' (2 ^ h.sectorExp) (msat.filter (· ≠ 0xffffffff))).flatMap (words e)) = sat' at hsat hag hsv
  have hsn : sat'.length ≤ 2 ^ 25 := by rw [hag.length]; exact hsn0
  have hssz : h.ssatSectors * (2 ^ h.sectorExp / 4) ≤ 2 ^ 25 := by
    have : h.ssatSectors * (2 ^ h.sectorExp / 4) ≤ 257 * 8192 :=
      Nat.mul_le_mul hl.ssatLimit (by omega)
    omega
  have hssat := C10_ssat_outcome (io.withHeader (parsedFields e h)) dev'
    sat' h.ssatSector h.ssatSectors h.sectorExp hl.fits.sectorExp rfl hsn hsv hl.fits.ssatSector hssz
  have hrne : h.rootDirSector ≠ 0xfffffffe := by
    intro hq
    rw [hq] at hd1
    cases hd1 with
    | nil => exact hd2 rfl
    | cons hx _ =>
      rw [List.getElem?_eq_none (by omega)] at hx
      cases hx
  have hd1' : Chain sat' h.rootDirSector dids 0xfffffffe :=
    chain_agree hag hd1 fun id hid => (hr.directory dids hd1 id hid).1
  have hdir := (C15_directory_exact (io.withHeader (parsedFields e h)) dev' sat'
    h.rootDirSector k (entriesOfSlots slots) hk hk0 (by show 2 ^ h.sectorExp ≤ _; omega) hsn hsv
    hl.fits.rootDirSector hrne).2
    ⟨dids, false, dsecs, chain_dirWalk hsn hd1' [] (by simp), hd3, hd4',
      by rw [hd5]; exact (entriesOf_slots hl.hslots).2,
      by rw [hd5]; exact (entriesOf_slots hl.hslots).1.symm⟩
  have hnd := entriesOfSlots_nodup slots
  obtain ⟨⟨t, m⟩, htm⟩ := C20_well_formed_accepted (entriesOfSlots slots) cmp hnd root hg.hroot hg.sub
    hg.prev hg.next (goodLinks_unique hg hnd)
    (fun d hd hne => hg.leads d hd .next hne) hcmp
  have htr : t.root = root := by
    have := (createTree_some htm).2.1
    rw [hg.hroot] at this
    exact (Option.some.inj this).symm
  refine ⟨⟨⟨msat⟩, ⟨sat'⟩, _, some t⟩, t, m, sat', ⟨hheader, hmsat, hsat,
    hssat, hdir.1, hdir.2, htm, rfl, ?_⟩, rfl, hag, fun hshort => ?_, htr⟩
  · rw [createTree_start htm]
    simp [htr]
  · have hch : Chain sat' h.ssatSector sids 0xfffffffe :=
      chain_agree hag hsh1 fun id hid => (hshort sids hsh1 id hid).1
    have hex := C10_ssat_exact (io.withHeader (parsedFields e h)) dev' sat' sids shsecs h.ssatSector h.ssatSectors
      h.sectorExp hl.fits.sectorExp rfl hsn hsv hl.fits.ssatSector hssz hch
      (sectors_readable hd hsh2 fun id hid => (hshort sids hsh1 id hid).2) hsh3 hl.ssatLimit
    rw [hsh4]
    have := hssat.symm.trans hex
    exact Res.ok.inj this

/-- A stream of which the sectors are described by the part of the tables that is known is read as with the whole
  tables. -/
theorem streamRead_part {dev' : Dev} {f : FileCtx} {d : DirEntry} {sat sat' : List Nat} (hs : f.sat = ⟨sat⟩) {n : Nat}
    (hag : Agree n sat sat') {ssat' : AllocTable} (S : Prop)
    (hS : S → ssat' = f.ssat ∧ Within sat n f.io.shortStreamStart)
    (hm : f.io.minStreamSize ≤ d.size ∧ Within sat n d.start ∨ d.size < f.io.minStreamSize ∧ S) (cur : Int)
    (size : Nat) :
    streamRead { f with dev := dev', sat := ⟨sat'⟩, ssat := ssat' } d cur size =
      streamRead { f with dev := dev' } d cur size := by
  have hsh : FileCtx.short { f with dev := dev' } d = decide (d.size < f.io.minStreamSize) := rfl
  have hsh' : FileCtx.short { f with dev := dev', sat := ⟨sat'⟩, ssat := ssat' } d =
    decide (d.size < f.io.minStreamSize) := rfl
  rcases hm with ⟨hge, hw⟩ | ⟨hlt, k⟩
  · have hdec : decide (d.size < f.io.minStreamSize) = false := decide_eq_false (by omega)
    refine streamRead_same (f := { f with dev := dev' }) (f' := { f with dev := dev', sat := ⟨sat'⟩, ssat := ssat' })
      (W := Within sat n) (V := fun _ => True) rfl rfl ?_ ?_ hw _ _
    · rw [hsh, hdec]; exact fun h => nomatch h
    · unfold FileCtx.table
      rw [hsh, hsh', hdec]
      simp only [Bool.false_eq_true, if_false, hs]
      exact same_agree hag
  · obtain ⟨k1, k2⟩ := hS k
    have hdec : decide (d.size < f.io.minStreamSize) = true := decide_eq_true hlt
    refine streamRead_same (f := { f with dev := dev' }) (f' := { f with dev := dev', sat := ⟨sat'⟩, ssat := ssat' })
      (W := fun _ => True) (V := Within sat n) rfl rfl ?_ ?_ trivial _ _
    · intro _
      refine ⟨?_, k2⟩
      simp only [hs]
      exact same_agree hag
    · unfold FileCtx.table
      rw [hsh, hsh', hdec]
      simp only [if_true, k1]
      exact same_refl _

/-- What the whole file shows, the damaged one shows for the streams of which it has the sectors. -/
theorem shows_where {dev' dev : Dev} (hd : Damaged dev' dev) {t : Tree} {f : FileCtx} (hf : f.dev = dev) {it : Item}
    {doc : Doc} (h : Shows t f it doc) {sat sat' : List Nat} (hs : f.sat = ⟨sat⟩) {n : Nat} (hag : Agree n sat sat')
    {ssat' : AllocTable} (S : Prop) (hS : S → ssat' = f.ssat ∧ Within sat n f.io.shortStreamStart) :
    ShowsWhere (fun d => f.io.minStreamSize ≤ d.size ∧ Within sat n d.start ∨ d.size < f.io.minStreamSize ∧ S) t
      { f with dev := dev', sat := ⟨sat'⟩, ssat := ssat' } it doc := by
  induction h with
  | @stream it data h1 h2 h3 h4 =>
    refine .stream h1 h2 h3 fun hm cur size hsize => ?_
    have he := streamRead_part (dev' := dev') hs hag S hS hm cur size
    rw [he]
    rcases streamRead_whole hd hf rfl _ cur size (h4 cur size hsize) with ⟨_, k⟩ | ⟨_, k⟩
    · exact .inr k
    · exact .inl k
  | storage h1 h2 h3 h4 h5 h6 _ ih => exact .storage h1 h2 h3 h4 h5 h6 ih

/-- C111: the damage of the sector table is limited to what its lost part describes.  For every file that holds a
  document and every damaged copy of it of which the header, the master table and the first `k` sectors of the sector
  table can be read, and the directory, which these describe: the open succeeds, the hierarchy is that of the
  document, with the names and the sizes of all streams; every read of a stream of which all sectors are described
  by these `k` sectors of the table gives the stored bytes or fails; and so does every read of a short stream if the
  short sector table and the container are described by them.  Missing: the other streams
  (`C111_open_violated`). -/
theorem C111_table_partial {content : Bytes} {hd : HeaderFields} {slots : List SlotFields} {doc : Doc}
    (hf : HeldBy content hd slots doc)
    (cmp : Bytes → Bytes → Option Bool)
    (hcmp : ∀ n ∈ (entriesOfSlots slots).map (·.name), Comparable cmp n)
    (st : FileState) (hst : Reachable cmp st) (hclosed : st.file.handle = none) (h : HandleId)
    (hdev : Damaged (st.world.dev h) (Dev.ofBytes content))
    {e : Endian} {sat ssat : List Nat} (hlay : Layout content e hd sat ssat slots) {k : Nat}
    (hread : PartRead (st.world.dev h) e hd sat k)
    (flags : Nat) (hfl : flags % 4 = 1) :
    (openHandle cmp h flags {} st).1 = .ok () ∧
    ∃ t f it, (openHandle cmp h flags {} st).2.file.tree = some t ∧
      (openHandle cmp h flags {} st).2.file.ctx
        ((openHandle cmp h flags {} st).2.world.dev h) = some f ∧
      rootItem (some t) = some it ∧
      ShowsWhere (fun d => hd.minStreamSize ≤ d.size ∧ Within sat (described hd k) d.start ∨
        d.size < hd.minStreamSize ∧ ShortPart (st.world.dev h) hd sat (entriesOfSlots slots) k) t f it doc := by
  have hcmp' : ∀ d ∈ entriesOfSlots slots, NameComparable cmp d :=
    fun d hd => hcmp d.name (List.mem_map_of_mem hd)
  have hload : ∀ io, ∃ l t, (openCore cmp (st.world.dev h) io).1.res = .ok l ∧ l.tree = some t ∧
      ShowsWhere (fun d => hd.minStreamSize ≤ d.size ∧ Within sat (described hd k) d.start ∨
        d.size < hd.minStreamSize ∧ ShortPart (st.world.dev h) hd sat (entriesOfSlots slots) k)
        t ⟨(openCore cmp (st.world.dev h) io).2, st.world.dev h, l.sat, l.ssat⟩ ⟨none, t.root⟩ doc := by
    intro io
    obtain ⟨l, t, m, h1, h2, h3, _, _, _, _, _, hs⟩ := heldBy_loaded hf cmp hcmp io
    obtain ⟨_, _, _, root, _, _, _, _, hg, _, _, _, _⟩ := hf
    obtain ⟨l1, t1, m1, ho1, hs1, hss1, _⟩ := layout_opens hlay hg cmp hcmp' io
    obtain ⟨l2, t2, m2, sat', ho2, hs2, hag, hss2, _⟩ := part_opens hlay hg cmp hcmp' io hdev hread
    obtain ⟨k1, k2⟩ := openCore_ok_iff.2 ⟨_, _, _, _, ho1⟩
    obtain ⟨j1, j2⟩ := openCore_ok_iff.2 ⟨_, _, _, _, ho2⟩
    rw [k1] at h1
    cases h1
    have e1 := ho1.htree.symm.trans ho2.htree
    cases e1
    have e2 := ho1.htree.symm.trans h3
    cases e2
    refine ⟨l2, t, j1, by rw [ho2.hltree]; rfl, ?_⟩
    rw [k2, hs1, hss1] at hs
    rw [j2, hs2]
    exact shows_where hdev rfl hs rfl hag (ShortPart (st.world.dev h) hd sat (entriesOfSlots slots) k)
      fun hp => ⟨hss2 hp.1, hp.2 root hg.hroot⟩
  have hok : (openHandle cmp h flags {} st).1 = .ok () := by
    obtain ⟨l, _, hl, _⟩ := hload .cleared
    exact (C34_open_iff cmp st hst h flags {}).1.2 ⟨hclosed, hfl, rfl, Or.inr rfl, l, hl⟩
  refine ⟨hok, ?_⟩
  obtain ⟨l, hdr, t0, list, tree, ho, hfile, hworld⟩ := openHandle_loaded (reachable_inv hst).closed hok
  obtain ⟨h1, h2⟩ := openCore_ok_iff.2 ⟨_, _, _, _, ho⟩
  obtain ⟨l', t, hl', ht, hs⟩ := hload st.file.io
  rw [h1] at hl'
  cases hl'
  rw [h2] at hs
  have hdv : (openHandle cmp h flags {} st).2.world.dev h = st.world.dev h := by
    rw [hworld, (ensureOpen_isOpen _ _).2.2.1]
  refine ⟨t, _, ⟨none, t.root⟩, by rw [hfile]; exact ht, ?_, rfl, hs⟩
  rw [hdv, hfile]
  rfl

theorem sector_cut {content : Bytes} {ss id n : Nat} {s : Bytes} (hpos : 0 < ss)
    (h : sector (Dev.ofBytes content) ss id = some s) (hid : id + 1 < 2 ^ 32) (hn : (id + 2) * ss ≤ n) :
    sector (Dev.ofBytes (content.take n)) ss id ≠ none := by
  unfold sector at h ⊢
  rw [← sectorOffset_eq _ (by omega)] at h ⊢
  unfold sectorOffset at h ⊢
  rw [Nat.mod_eq_of_lt hid] at h ⊢
  rw [get_ofBytes_eq hpos] at h ⊢
  have hm : (id + 2) * ss = (id + 1) * ss + ss := by rw [← Nat.succ_mul]
  rw [List.length_take]
  by_cases hl : (id + 1) * ss + ss ≤ content.length
  · rw [if_pos (by omega)]
    exact Option.some_ne_none _
  · rw [if_neg hl] at h
    cases h

/-- What is described by the first `k` sectors of the table of a file of the writer. -/
theorem described_file {w : Writer} {kids : List (Bytes × Doc)} (hst : Storable w kids) (k : Nat) :
    described (headerOfFile w kids) k = k * w.perSector := by
  have hz := sizes hst.sectorExp
  show k * (w.ss / 4) = _
  rw [show w.ss / 4 = w.perSector by have := hz.ss4; omega]

/-- A file of the writer that is cut behind the first `k` sectors of its table is read as in `C111_table_partial`. -/
theorem partRead_cut {w : Writer} {kids : List (Bytes × Doc)} (hst : Storable w kids)
    (hms : msatCount w kids = 0) {k : Nat} (hdir : dirCount w kids ≤ k * w.perSector) {dev : Dev}
    {n : Nat} (hn : (runCount w kids + k + 1) * w.ss ≤ n)
    (hdev : dev = Dev.ofBytes ((encodeFile w kids).take n)) :
    PartRead dev w.order (headerOfFile w kids) (satOf w kids) k := by
  have hz := sizes hst.sectorExp
  have hpos : 0 < w.ss := Nat.two_pow_pos _
  have hdesc := described_file hst k
  have hlay := encodeFile_layout hst
  have hlim := runCount_lt hst
  have hdl := dirSectorsOf_length hst
  have hrun : dirCount w kids ≤ runCount w kids := by
    unfold runCount runs
    rw [List.map_cons, List.sum_cons, hdl]
    omega
  obtain ⟨hd1, hd2⟩ := run_of_file hst (pre := []) (s := dirSectorsOf w kids) rfl
  obtain ⟨msat, secs, hmaster, hs1, hs2, hs3⟩ := hlay.hsat
  obtain ⟨ms, m1, m2, m3⟩ := hmaster
  have m2' : ms.length = 0 := m2.trans hms
  have : ms = [] := List.length_eq_zero_iff.1 m2'
  subst this
  have hsome : ∀ {ids : List Nat} {secs : List Bytes}, SectorsAre (encodeFile w kids) w.ss ids secs →
      ∀ id ∈ ids, ∃ s, sector (Dev.ofBytes (encodeFile w kids)) w.ss id = some s := by
    intro ids secs hs id hid
    have : sector (Dev.ofBytes (encodeFile w kids)) w.ss id ∈ secs.map some := by
      unfold SectorsAre at hs
      rw [← hs]
      exact List.mem_map_of_mem hid
    obtain ⟨s, _, k⟩ := List.mem_map.1 this
    exact ⟨s, k.symm⟩
  have hcut : ∀ id, (∃ s, sector (Dev.ofBytes (encodeFile w kids)) w.ss id = some s) → id < runCount w kids + k →
      id + 1 < 2 ^ 32 → sector (dev) w.ss id ≠ none := by
    intro id ⟨s, hs⟩ hlt hid
    rw [hdev]
    exact sector_cut hpos hs hid (Nat.le_trans (Nat.mul_le_mul_right _ (by omega)) hn)
  have hnone : (satOf w kids)[0xfffffffe]? = none := by
    refine List.getElem?_eq_none ?_
    rw [satOf_length hst]
    have : satCount w kids * w.perSector ≤ 2 ^ 25 := by
      have h1 := hst.sat
      rw [hz.ss4, Nat.mul_left_comm] at h1
      omega
    omega
  refine ⟨?_, ⟨[], ?_, m2, ?_⟩, ?_⟩
  · have hlen : w.ss ≤ n := Nat.le_trans (Nat.le_mul_of_pos_left _ (by omega)) hn
    have hss : 512 ≤ w.ss := by have := hz.ss4; have := hz.per; omega
    have hhl : 512 ≤ (encodeFile w kids).length := by
      have := hlay.header.length_le
      rw [encodeHeader_length _ _ hlay.fits] at this
      exact this
    unfold Readable
    rw [hdev, get_ofBytes_eq (by decide), List.length_take, if_pos (by show 0 + 512 ≤ _; omega)]
    exact Option.some_ne_none _
  · generalize (headerOfFile w kids).msatSector = q at m1
    cases m1
    exact .done
  · intro id hid
    have hmem := List.mem_of_mem_take hid
    rw [← m3] at hmem
    have hbound : id < runCount w kids + k ∧ id < runCount w kids + satCount w kids := by
      have hid' : id ∈ ((headerMsatOf w kids ++ []).filter (· ≠ 0xffffffff)).take k := hid
      rw [List.append_nil] at hid'
      unfold headerMsatOf satIds at hid'
      rw [List.filter_append, List.filter_eq_self.2, List.filter_eq_nil_iff.2, List.append_nil] at hid'
      · obtain ⟨i, hi, he⟩ := List.mem_take_iff_getElem.1 hid'
        rw [List.getElem_take, List.getElem_range'] at he
        rw [List.length_take, List.length_range'] at hi
        omega
      · intro a ha
        rw [(List.mem_replicate.1 ha).2]
        decide
      · intro a ha
        have := List.mem_range'_1.1 (List.mem_of_mem_take ha)
        exact decide_eq_true (by omega)
    exact hcut id (hsome hs1 id hmem) hbound.1 (by omega)
  · intro ids hc id hid
    have hne : (dirSectorsOf w kids).length ≠ 0 := by
      rw [hdl]
      intro h0
      have := (units_eq_zero hz.slots.1).1 h0
      omega
    rw [startOf, if_neg hne] at hd1
    have := chain_unique hnone hc hd1
    subst this
    have hlt := (List.mem_range'_1.1 hid).2
    rw [hdl] at hlt
    have hlt' : id < dirCount w kids := by simpa using hlt
    rw [hdesc]
    exact ⟨by omega, hcut id (hsome hd2 id hid) (by omega) (by omega)⟩

/-- C111: a file that was cut within its sector table.  For every document within the limits, with a sector table that
  the header lists, written by the writer of C60: if the first `k` sectors of the sector table are not cut off and
  describe the directory, the file opens, with all names and sizes, and every stream of which these describe all
  sectors is exact. -/
theorem C111_table_cut (w : Writer) (kids : List (Bytes × Doc)) (hst : Storable w kids)
    (hms : msatCount w kids = 0) (k : Nat) (hdir : dirCount w kids ≤ k * w.perSector)
    (cmp : Bytes → Bytes → Option Bool) (hcmp : ∀ n ∈ namesOfKids kids, Comparable cmp n)
    (st : FileState) (hr : Reachable cmp st) (hclosed : st.file.handle = none)
    (h : HandleId) (n : Nat) (hn : (runCount w kids + k + 1) * w.ss ≤ n)
    (hdev : st.world.dev h = Dev.ofBytes ((encodeFile w kids).take n)) (flags : Nat) (hfl : flags % 4 = 1) :
    (openHandle cmp h flags {} st).1 = .ok () ∧
    ∃ t f it, (openHandle cmp h flags {} st).2.file.tree = some t ∧
      (openHandle cmp h flags {} st).2.file.ctx
        ((openHandle cmp h flags {} st).2.world.dev h) = some f ∧
      rootItem (some t) = some it ∧
      ShowsWhere (fun d => w.cutoff ≤ d.size ∧ Within (satOf w kids) (k * w.perSector) d.start ∨
        d.size < w.cutoff ∧ ShortPart (st.world.dev h) (headerOfFile w kids) (satOf w kids)
          (entriesOfSlots (slotsOfFile w kids)) k) t f it (.storage kids) := by
  have hdesc := described_file hst k
  have hlay := encodeFile_layout hst
  have hread := partRead_cut hst hms hdir hn hdev
  have := C111_table_partial (encodeFile_held hst) cmp (by
    rw [slotsOfFile_names hst]
    intro n hn
    rcases List.mem_cons.1 hn with rfl | hn
    · exact rootName_comparable _ _
    · exact hcmp n hn) st hr hclosed h (by rw [hdev]; exact damaged_take _ _) hlay hread flags hfl
  rw [hdesc] at this
  exact this

/-- A document with a stream of two sectors and one of 128, so that the sector table has two sectors. -/
def tableKids : List (Bytes × Doc) :=
  [([65, 0, 0, 0], .stream (List.replicate 600 7)), ([66, 0, 0, 0], .stream (List.replicate 65536 8))]

abbrev tableWriter : Writer := ⟨.little, 9, 6, 0, {}⟩

theorem tableKids_streams : streamsOfKids tableKids = [List.replicate 600 7, List.replicate 65536 8] := rfl

theorem tableKids_storable : Storable tableWriter tableKids := by
  refine (C60_storable .little {} noMarks_fits (List.cons_ne_nil _ _) ?_ ?_).1 ?_
  · decide +kernel
  · decide +kernel
  · show (List.map List.length (streamsOfKids tableKids)).sum ≤ _
    rw [tableKids_streams]
    simp only [List.map_cons, List.map_nil, List.length_replicate]
    decide

theorem tableKids_lengths : (runs tableWriter tableKids).map List.length = [1, 0, 0, 2, 128] := by
  have hl : tableWriter.longs (streamsOfKids tableKids) = [List.replicate 600 7, List.replicate 65536 8] := by
    rw [tableKids_streams]
    unfold Writer.longs
    rw [List.filter_eq_self]
    intro a _
    exact decide_eq_true (Nat.zero_le _)
  have hs : ∀ l, tableWriter.shorts l = [] := by
    intro l
    unfold Writer.shorts
    rw [List.filter_eq_nil_iff]
    intro a _ h
    simp at h
  have h1 : ssatSectorsOf tableWriter tableKids = [] := by
    unfold ssatSectorsOf ssatOf
    rw [hs]
    decide +kernel
  have h2 : containerSectors tableWriter tableKids = [] := by
    unfold containerSectors containerOf shortSectors
    rw [hs]
    decide +kernel
  unfold runs
  rw [hl, h1, h2, List.map_cons, dirSectorsOf_length tableKids_storable]
  simp only [List.map_cons, List.map_nil, blocks_length (u := tableWriter.ss) (by decide +kernel),
    List.length_replicate, List.length_nil]
  decide +kernel

theorem tableKids_runs : runCount tableWriter tableKids = 131 := by
  unfold runCount
  rw [tableKids_lengths]
  rfl

theorem tableKids_counts : dirCount tableWriter tableKids = 1 ∧ satCount tableWriter tableKids = 2 ∧
    msatCount tableWriter tableKids = 0 := by
  have h : satCount tableWriter tableKids = 2 := by
    unfold satCount
    rw [tableKids_runs]
    decide
  refine ⟨by decide +kernel, h, ?_⟩
  unfold msatCount
  rw [h]
  decide

/-- The file without the second sector of its sector table, which has 512 * 133 bytes. -/
def tableState : FileState :=
  ⟨OleFile.new, { sampleWorld with dev := fun _ => Dev.ofBytes ((encodeFile tableWriter tableKids).take 68096) }⟩

/-- The hypotheses of `C111_table_cut` and with it those of `C111_table_partial` are met: the file opens, and shows the
  streams of which the first sector of the table describes the sectors. -/
example : (openHandle cmpNone (.user 1) 1 {} tableState).1 = .ok () ∧
    ∃ t f it, (openHandle cmpNone (.user 1) 1 {} tableState).2.file.tree = some t ∧
      (openHandle cmpNone (.user 1) 1 {} tableState).2.file.ctx
        ((openHandle cmpNone (.user 1) 1 {} tableState).2.world.dev (.user 1)) = some f ∧
      rootItem (some t) = some it ∧
      ShowsWhere (fun d => 0 ≤ d.size ∧ Within (satOf tableWriter tableKids) (1 * 128) d.start ∨
        d.size < 0 ∧ ShortPart (tableState.world.dev (.user 1)) (headerOfFile tableWriter tableKids)
          (satOf tableWriter tableKids) (entriesOfSlots (slotsOfFile tableWriter tableKids)) 1) t f it
        (.storage tableKids) :=
  C111_table_cut tableWriter tableKids tableKids_storable tableKids_counts.2.2 1
    (by rw [tableKids_counts.1]; decide) cmpNone (fun n _ => ⟨fun _ => by simp [cmpNone], fun _ => by simp [cmpNone]⟩)
    tableState ⟨tableState, [], ⟨rfl, rfl⟩, rfl⟩ rfl (.user 1) 68096 (by rw [tableKids_runs]; decide) rfl 1 rfl

/-- The first sector of the table describes all sectors of the stream that starts at sector 1. -/
example : Within (satOf tableWriter tableKids) (1 * 128) 1 := by
  have hs : (satOf tableWriter tableKids)[1]? = some 2 ∧ (satOf tableWriter tableKids)[2]? = some 0xfffffffe := by
    unfold satOf
    rw [tableKids_lengths, tableKids_counts.2.1, tableKids_counts.2.2]
    decide +kernel
  intro m id hid
  match m, hid with
  | 0, hid => cases hid
  | 1, hid => rw [follow, if_neg (by decide), hs.1] at hid; simp [follow] at hid; omega
  | m + 2, hid =>
    rw [follow, if_neg (by decide), hs.1] at hid
    dsimp only at hid
    rw [follow, if_neg (by decide), hs.2] at hid
    have h0 : follow (satOf tableWriter tableKids) m 0xfffffffe = [] := by
      cases m with
      | zero => rfl
      | succ m => rw [follow, if_pos (Or.inl rfl)]
    dsimp only at hid
    rw [h0] at hid
    simp at hid
    omega

end Olecf.Props
