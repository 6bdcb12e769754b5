import Verif.Spec.Layout
import Verif.Props.File
import Mathlib.Data.List.Induction

/-
  Lemmas for C47.
-/

namespace Olecf
open Olecf.Spec Olecf.Props

/-! ### Chains -/

theorem chain_unique {table : List Nat} {a b : Nat} {ids ids' : List Nat} (hb : table[b]? = none)
    (h : Chain table a ids b) (h' : Chain table a ids' b) : ids = ids' := by
  induction h generalizing ids' with
  | nil a =>
    cases h' with
    | nil => rfl
    | cons hx _ => rw [hb] at hx; cases hx
  | cons hx _ ih =>
    cases h' with
    | nil => rw [hb] at hx; cases hx
    | cons hx' h' =>
      rw [hx] at hx'
      cases hx'
      rw [ih hb h']

theorem chain_suffix {table : List Nat} {a b : Nat} {ids : List Nat} (h : Chain table a ids b) :
    ∀ x ∈ ids, ∃ rest, Chain table x (x :: rest) b ∧ rest.length < ids.length := by
  induction h with
  | nil a => intro x hx; cases hx
  | @cons a nxt b ids hx hc ih =>
    intro x hmem
    rcases List.mem_cons.1 hmem with rfl | hmem
    · exact ⟨ids, .cons hx hc, by simp⟩
    · obtain ⟨rest, h1, h2⟩ := ih x hmem
      exact ⟨rest, h1, by simp; omega⟩

theorem chain_nodup {table : List Nat} {a b : Nat} {ids : List Nat} (hb : table[b]? = none)
    (h : Chain table a ids b) : ids.Nodup := by
  induction h with
  | nil a => exact List.nodup_nil
  | @cons a nxt b ids hx hc ih =>
    refine List.nodup_cons.2 ⟨fun hmem => ?_, ih hb⟩
    obtain ⟨rest, h1, h2⟩ := chain_suffix hc a hmem
    have := chain_unique hb (.cons hx hc) h1
    rw [List.cons.injEq] at this
    rw [this.2] at h2
    omega

theorem chain_dirWalk {sat : List Nat} {a : Nat} {ids : List Nat} (hlen : sat.length ≤ 2 ^ 25)
    (h : Chain sat a ids 0xfffffffe) :
    ∀ seen : List Nat, (∀ x ∈ ids, x ∉ seen) → DirWalk sat seen a ids false := by
  generalize hb : 0xfffffffe = b at h
  have hnd : ids.Nodup := chain_nodup (by subst hb; exact List.getElem?_eq_none (by omega)) h
  induction h with
  | nil a => intro seen _; exact .marker (Or.inl hb.symm)
  | @cons a nxt b ids hx hc ih =>
    intro seen hs
    have hlt : a < sat.length := (List.getElem?_eq_some_iff.1 hx).1
    obtain ⟨hn1, hn2⟩ := List.nodup_cons.1 hnd
    refine .step (by omega) (by omega) (hs a (by simp)) hx (ih hb hn2 (a :: seen) ?_)
    intro x hx' hmem
    rcases List.mem_cons.1 hmem with rfl | hmem
    · exact hn1 hx'
    · exact hs x (by simp [hx']) hmem

/-! ### Blocks of equal size -/

theorem flatten_length {u : Nat} : ∀ {secs : List Bytes}, (∀ s ∈ secs, s.length = u) →
    secs.flatten.length = secs.length * u
  | [], _ => by simp
  | s :: secs, h => by
    rw [List.flatten_cons, List.length_append, flatten_length (fun x hx => h x (by simp [hx])),
      h s (by simp), List.length_cons, Nat.add_mul, Nat.one_mul, Nat.add_comm]

theorem flatten_drop_take {u : Nat} : ∀ {secs : List Bytes}, (∀ s ∈ secs, s.length = u) →
    ∀ (i : Nat) (s : Bytes), secs[i]? = some s → (secs.flatten.drop (u * i)).take u = s
  | [], _, i, s, hi => by simp at hi
  | x :: secs, h, 0, s, hi => by
    simp only [List.getElem?_cons_zero, Option.some.injEq] at hi
    subst hi
    simp [← h x (by simp)]
  | x :: secs, h, i + 1, s, hi => by
    rw [List.getElem?_cons_succ] at hi
    have := flatten_drop_take (fun y hy => h y (by simp [hy])) i s hi
    rw [List.flatten_cons, Nat.mul_add, Nat.mul_one, List.drop_append, h x (by simp)]
    rw [List.drop_eq_nil_of_le (by rw [h x (by simp)]; omega), List.nil_append]
    rw [show u * i + u - u = u * i by omega]
    exact this

theorem flatten_getElem {u : Nat} (hu : 0 < u) {secs : List Bytes} (h : ∀ s ∈ secs, s.length = u)
    (i : Nat) : secs.flatten[i]? = secs[i / u]?.bind (·[i % u]?) := by
  cases hs : secs[i / u]? with
  | none =>
    rw [List.getElem?_eq_none_iff] at hs
    rw [Option.bind_none, List.getElem?_eq_none_iff, flatten_length h]
    exact (Nat.le_div_iff_mul_le hu).1 hs
  | some s =>
    have h1 := flatten_drop_take h _ _ hs
    rw [Option.bind_some, ← h1]
    rw [List.getElem?_take, if_pos (Nat.mod_lt _ hu), List.getElem?_drop, Nat.div_add_mod]

/-! ### The directory -/

theorem encodeSlot_type {e : Endian} {f : SlotFields} (hf : f.Fits) :
    byteAt (encodeSlot e f) 66 = f.type := by
  obtain ⟨a, c, h1, h2⟩ := flatten_split (slotPieces e f) 2 _ rfl
  have h3 : a.length = 66 := by rw [h2]; simp [slotPieces, offsetOf, hf.name]
  rw [encodeSlot, h1, List.append_assoc, byteAt_append_right (by omega), h3]
  have := hf.type
  simp [byteAt, List.getD]
  omega

theorem entryOf_encode {e : Endian} {f : SlotFields} (hf : f.Fits) (ht : f.type ≠ 0) (i : Nat) :
    entryOf e i (encodeSlot e f) = f.entry i ∧ u16At e (encodeSlot e f) 64 ≤ 128 := by
  have h1 := C12_slot_roundtrip e i f hf ht
  have h2 := C12_slot_outcome e i (encodeSlot e f) (encodeSlot_length hf)
  rw [encodeSlot_type hf, if_neg ht] at h2
  rw [h2] at h1
  split at h1
  · rename_i hle
    simp only [Res.ok.injEq, Option.some.injEq] at h1
    exact ⟨h1, hle⟩
  · cases h1

theorem entriesOf_slots {e : Endian} {slots : List SlotFields} (hf : ∀ s ∈ slots, s.Fits) :
    entriesOf e (slots.map (encodeSlot e)).flatten = entriesOfSlots slots ∧
    SlotsOk e (slots.map (encodeSlot e)).flatten := by
  have hlen : ∀ s ∈ slots.map (encodeSlot e), s.length = 128 := by
    intro s hs
    obtain ⟨f, hf', rfl⟩ := List.mem_map.1 hs
    exact encodeSlot_length (hf f hf')
  have hcount : slotCount (slots.map (encodeSlot e)).flatten = slots.length := by
    unfold slotCount
    rw [flatten_length hlen, List.length_map, Nat.mul_div_cancel _ (by omega)]
  have hslot : ∀ i (hi : i < slots.length),
      slot (slots.map (encodeSlot e)).flatten i = encodeSlot e slots[i] := by
    intro i hi
    unfold slot
    exact flatten_drop_take hlen i _ (by simp [hi])
  constructor
  · unfold entriesOf entriesOfSlots
    rw [hcount]
    have : (slots.mapIdx fun i f => if f.type = 0 then none else some (f.entry i)) =
        (List.range slots.length).map (fun i =>
          if byteAt (slot (slots.map (encodeSlot e)).flatten i) 66 = 0 then none
          else some (entryOf e i (slot (slots.map (encodeSlot e)).flatten i))) := by
      apply List.ext_getElem
      · simp
      · intro i h1 h2
        have hi : i < slots.length := by simpa using h1
        have hfi := hf slots[i] (List.getElem_mem hi)
        simp only [List.getElem_mapIdx, List.getElem_map, List.getElem_range]
        rw [hslot i hi, encodeSlot_type hfi]
        split
        · rfl
        · rename_i ht
          rw [(entryOf_encode hfi ht i).1]
    rw [this, List.filterMap_map]
    rfl
  · intro i hi
    rw [hcount] at hi
    rw [hslot i hi]
    have hfi := hf slots[i] (List.getElem_mem hi)
    by_cases ht : slots[i].type = 0
    · exact Or.inl (by rw [encodeSlot_type hfi, ht])
    · exact Or.inr (entryOf_encode hfi ht i).2

theorem entriesOfSlots_mem {slots : List SlotFields} {d : DirEntry} :
    d ∈ entriesOfSlots slots ↔ ∃ (i : Nat) (f : SlotFields), slots[i]? = some f ∧ f.type ≠ 0 ∧ d = f.entry i := by
  unfold entriesOfSlots
  simp only [List.mem_filterMap, List.mem_mapIdx, id]
  constructor
  · rintro ⟨o, ⟨i, hi, rfl⟩, h⟩
    split at h
    · cases h
    · rename_i ht
      exact ⟨i, slots[i], List.getElem?_eq_getElem hi, ht, (Option.some.inj h).symm⟩
  · rintro ⟨i, f, hf, ht, rfl⟩
    obtain ⟨hi, rfl⟩ := List.getElem?_eq_some_iff.1 hf
    exact ⟨_, ⟨i, hi, rfl⟩, by rw [if_neg ht]⟩

theorem entriesOfSlots_nodup (slots : List SlotFields) :
    ((entriesOfSlots slots).map (·.id)).Nodup := by
  have key : ∀ (k : Nat) (slots : List SlotFields),
      (((slots.mapIdx fun i f => if f.type = 0 then none else some (f.entry (i + k))).filterMap id).map
        (·.id)).Pairwise (· < ·) ∧
      ∀ d ∈ ((slots.mapIdx fun i f => if f.type = 0 then none else some (f.entry (i + k))).filterMap id),
        k ≤ d.id := by
    intro k slots
    induction slots generalizing k with
    | nil => simp
    | cons s slots ih =>
      obtain ⟨h1, h2⟩ := ih (k + 1)
      have e : (slots.mapIdx fun i f => if f.type = 0 then none else some (f.entry (i + 1 + k))) =
          (slots.mapIdx fun i f => if f.type = 0 then none else some (f.entry (i + (k + 1)))) := by
        congr 1; funext i f; rw [show i + 1 + k = i + (k + 1) by omega]
      rw [List.mapIdx_cons]
      by_cases ht : s.type = 0
      · simp only [ht, if_true, List.filterMap_cons, id]
        rw [e]
        exact ⟨h1, fun d hd => by have := h2 d hd; omega⟩
      · simp only [ht, if_false, List.filterMap_cons, id]
        rw [e]
        refine ⟨?_, ?_⟩
        · rw [List.map_cons, List.pairwise_cons]
          refine ⟨?_, h1⟩
          intro x hx
          obtain ⟨d, hd, rfl⟩ := List.mem_map.1 hx
          have := h2 d hd
          show 0 + k < d.id
          omega
        · intro d hd
          rcases List.mem_cons.1 hd with rfl | hd
          · show k ≤ 0 + k; omega
          · have := h2 d hd; omega
  have := (key 0 slots).1
  simp only [Nat.add_zero] at this
  exact this.imp Nat.ne_of_lt

/-! ### The header -/

theorem headerRead_encoded {content : Bytes} {e : Endian} {h : HeaderFields} (hf : h.Fits)
    (hp : encodeHeader e h <+: content) :
    (headerRead (Dev.ofBytes content) ⟨List.replicate 109 0⟩).res =
      .ok (parsedFields e h, ⟨h.msat⟩) := by
  have hg : (Dev.ofBytes content).get 0 512 = some (encodeHeader e h) := by
    obtain ⟨r, rfl⟩ := hp
    have hl := encodeHeader_length e h hf
    unfold Dev.get Dev.ofBytes
    simp only [List.drop_zero]
    rw [List.take_append_of_le_length (by omega), List.take_of_length_le (by omega), if_pos hl]
  have := C02_header_roundtrip e h hf ⟨List.replicate 109 0⟩
  unfold headerRead
  rw [hg]
  simp only []
  rw [this]
  simp

/-! ### Opening -/

theorem sectorsAre_length {content : Bytes} {ss : Nat} {ids : List Nat} {secs : List Bytes}
    (h : SectorsAre content ss ids secs) : ids.length = secs.length ∧ ∀ s ∈ secs, s.length = ss := by
  constructor
  · have := congrArg List.length h
    simpa using this
  · intro s hs
    have h1 : some s ∈ secs.map some := List.mem_map_of_mem hs
    rw [← h] at h1
    obtain ⟨id, _, hid⟩ := List.mem_map.1 h1
    exact sector_length hid

theorem goodLinks_reach {list : List DirEntry} {root : DirEntry}
    {d c : DirEntry} {k : Link} (h : target list root.id d k = some c) :
    c ∈ list ∧ c.id = linkId d k ∧ linkId d k ≠ 0xffffffff := by
  unfold target at h
  split at h
  · rename_i hu
    refine ⟨List.mem_of_find?_eq_some h, ?_, ?_⟩
    · simpa using List.find?_some h
    · cases k with
      | sub => exact hu.1
      | prev => exact hu
      | next => exact hu
  · cases h

theorem goodLinks_unique {list : List DirEntry} {root : DirEntry} (hg : GoodLinks list root)
    (hnd : (list.map (·.id)).Nodup) : UniquePaths list root := by
  have hroot : root ∈ list := List.mem_of_find?_eq_some hg.hroot
  have hlast : ∀ (p : List Link) (k : Link) (a : DirEntry),
      reach list root.id root (p ++ [k]) = some a →
      ∃ a', reach list root.id root p = some a' ∧ a' ∈ list ∧ a.id = linkId a' k ∧
        linkId a' k ≠ 0xffffffff := by
    intro p k a h
    rw [reach_append] at h
    obtain ⟨a', h1, h2⟩ := Option.bind_eq_some_iff.1 h
    simp only [reach] at h2
    cases ht : target list root.id a' k with
    | none => rw [ht] at h2; cases h2
    | some c =>
      rw [ht] at h2
      cases h2
      obtain ⟨_, h3, h4⟩ := goodLinks_reach ht
      exact ⟨a', h1, reach_mem list root.id p _ _ h1 hroot, h3, h4⟩
  intro p
  induction p using List.reverseRecOn with
  | nil =>
    intro q a b ha hb hid
    cases ha
    cases q using List.reverseRecOn with
    | nil => rfl
    | append_singleton q l =>
      obtain ⟨b', _, h2, h3, h4⟩ := hlast q l b hb
      exact absurd (h3.symm.trans (hid.symm.trans hg.first)) (hg.noRoot b' h2 l)
  | append_singleton p k ih =>
    intro q a b ha hb hid
    obtain ⟨a', h1, h2, h3, h4⟩ := hlast p k a ha
    cases q using List.reverseRecOn with
    | nil =>
      cases hb
      exact absurd (h3.symm.trans (hid.trans hg.first)) (hg.noRoot a' h2 k)
    | append_singleton q l =>
      obtain ⟨b', h1', h2', h3', h4'⟩ := hlast q l b hb
      obtain ⟨rfl, rfl⟩ := hg.once a' h2 b' h2' k l (h3.symm.trans (hid.trans h3')) h4
      rw [ih q a' a' h1 h1' rfl]

theorem layout_opens {content : Bytes} {e : Endian} {h : HeaderFields} {sat ssat : List Nat}
    {slots : List SlotFields} {root : DirEntry} (hl : Layout content e h sat ssat slots)
    (hg : GoodLinks (entriesOfSlots slots) root) (cmp : Bytes → Bytes → Option Bool)
    (hcmp : ∀ d ∈ entriesOfSlots slots, NameComparable cmp d) (io : IoHandle) :
    ∃ l t m, Opened cmp (Dev.ofBytes content) io l
      ((io.withHeader (parsedFields e h)).withShortStart (some root.start)) (parsedFields e h)
      ⟨h.msat⟩ (entriesOfSlots slots) (some (t, m)) ∧ l.sat = ⟨sat⟩ ∧ l.ssat = ⟨ssat⟩ ∧
      t.root = root := by
  obtain ⟨msat, ssecs, ⟨msecs, hm1, hm2, hm3⟩, hs1, hs2, hs3⟩ := hl.hsat
  obtain ⟨sids, shsecs, hsh1, hsh2, hsh3, hsh4⟩ := hl.hssat
  obtain ⟨dids, dsecs, hd1, hd2, hd3, hd4, hd5⟩ := hl.directory
  have hexp : 2 ^ h.sectorExp ≤ 32768 := by
    have : 2 ^ h.sectorExp ≤ 2 ^ 15 := Nat.pow_le_pow_right (by decide) hl.fits.sectorExp
    omega
  obtain ⟨k, hk⟩ : ∃ k, 2 ^ h.sectorExp = 128 * k :=
    ⟨2 ^ (h.sectorExp - 7), by
      rw [show (128 : Nat) = 2 ^ 7 from rfl, ← Nat.pow_add]; congr 1; have := hl.sectorSize; omega⟩
  have hpos : 0 < 2 ^ h.sectorExp := Nat.two_pow_pos _
  have hk0 : 0 < k := by omega
  have hmv : ∀ v ∈ msat, v < 2 ^ 32 := by
    rw [hm3]
    intro v hv
    rcases List.mem_append.1 hv with hv | hv
    · exact hl.fits.msat v hv
    · obtain ⟨s, _, hv⟩ := List.mem_flatMap.1 hv
      exact words_lt e s v ((List.dropLast_sublist _).mem hv)
  have hmsat : (readMsat (io.withHeader (parsedFields e h)) (Dev.ofBytes content) ⟨h.msat⟩
      h.msatSector h.msatSectors).res = .ok ⟨msat⟩ := by
    rw [hm3]
    by_cases h0 : h.msatSectors = 0
    · rw [h0] at hm2
      have : msecs = [] := List.length_eq_zero_iff.1 hm2
      subst this
      have hq : h.msatSector = 0xfffffffe := by
        generalize h.msatSector = q at hm1
        cases hm1; rfl
      rw [hq, h0, (C08_msat_header_only _ _ _ 0 hl.fits.msatLength hpos
        (by show 2 ^ h.sectorExp ≤ _; omega)).1]
      simp
    · have hne : h.msatSector ≠ 0xfffffffe := by
        intro hq
        rw [hq] at hm1
        cases hm1 with
        | done => simp at hm2; omega
        | step hne _ _ => exact hne rfl
      refine C08_msat_exact _ _ _ _ _ msecs hl.fits.msatLength ?_ ?_ hl.fits.msatSector hne (by omega)
        ?_ hm1 (by rw [hm2]; exact hl.msatLimit) hm2
      · show 8 ≤ 2 ^ h.sectorExp; omega
      · show 2 ^ h.sectorExp ≤ _; omega
      · show 109 + h.msatSectors * (2 ^ h.sectorExp / 4 - 1) ≤ _
        have : h.msatSectors * (2 ^ h.sectorExp / 4 - 1) ≤ 257 * 8192 :=
          Nat.mul_le_mul hl.msatLimit (by omega)
        omega
  have hsz : h.satSectors * (2 ^ h.sectorExp / 4) ≤ 2 ^ 25 := by
    have h1 := hl.satLimit
    have h2 : h.satSectors * (2 ^ h.sectorExp / 4) * 4 ≤ h.satSectors * 2 ^ h.sectorExp := by
      rw [Nat.mul_assoc]
      exact Nat.mul_le_mul_left _ (Nat.div_mul_le_self _ _)
    omega
  have hsat : (readSat (io.withHeader (parsedFields e h)) (Dev.ofBytes content) ⟨msat⟩ ⟨[]⟩
      h.satSectors).res = .ok ⟨sat⟩ := by
    rw [hs3]
    exact C09_sat_exact _ _ msat ssecs _ h.sectorExp (by have := hl.sectorSize; omega)
      hl.fits.sectorExp rfl hmv hsz hs1 hs2
  have hsn : sat.length ≤ 2 ^ 25 := by
    rw [hs3, flatMap_words_length (sectorsAre_length hs1).2, hs2]
    exact hsz
  have hsv : ∀ v ∈ sat, v < 2 ^ 32 := by rw [hs3]; exact flatMap_words_lt
  have hssat : (readSsat (io.withHeader (parsedFields e h)) (Dev.ofBytes content) ⟨sat⟩ ⟨[]⟩
      h.ssatSector h.ssatSectors).res = .ok ⟨ssat⟩ := by
    rw [hsh4]
    refine C10_ssat_exact _ _ sat sids shsecs _ _ h.sectorExp hl.fits.sectorExp rfl hsn hsv
      hl.fits.ssatSector ?_ hsh1 hsh2 hsh3 hl.ssatLimit
    show h.ssatSectors * (2 ^ h.sectorExp / 4) ≤ _
    have : h.ssatSectors * (2 ^ h.sectorExp / 4) ≤ 257 * 8192 :=
      Nat.mul_le_mul hl.ssatLimit (by omega)
    omega
  have hrne : h.rootDirSector ≠ 0xfffffffe := by
    intro hq
    rw [hq] at hd1
    cases hd1 with
    | nil => exact hd2 rfl
    | cons hx _ =>
      rw [List.getElem?_eq_none (by omega)] at hx
      cases hx
  have hdir := (C15_directory_exact (io.withHeader (parsedFields e h)) (Dev.ofBytes content) sat
    h.rootDirSector k (entriesOfSlots slots) hk hk0 (by show 2 ^ h.sectorExp ≤ _; omega) hsn hsv
    hl.fits.rootDirSector hrne).2
    ⟨dids, false, dsecs, chain_dirWalk hsn hd1 [] (by simp), hd3, hd4,
      by rw [hd5]; exact (entriesOf_slots hl.hslots).2,
      by rw [hd5]; exact (entriesOf_slots hl.hslots).1.symm⟩
  have hnd := entriesOfSlots_nodup slots
  obtain ⟨⟨t, m⟩, htm⟩ := C20_well_formed_accepted (entriesOfSlots slots) cmp hnd root hg.hroot hg.sub
    hg.prev hg.next (goodLinks_unique hg hnd)
    (fun d hd hne => hg.leads d hd .next hne) hcmp
  have htr : t.root = root := by
    have := (createTree_some htm).2.1
    rw [hg.hroot] at this
    exact (Option.some.inj this).symm
  refine ⟨⟨⟨msat⟩, ⟨sat⟩, ⟨ssat⟩, some t⟩, t, m, ⟨headerRead_encoded hl.fits hl.header, hmsat, hsat,
    hssat, hdir.1, hdir.2, htm, rfl, ?_⟩, rfl, rfl, htr⟩
  rw [createTree_start htm]
  simp [htr]

/-! ### Siblings -/

theorem find_by_id {list : List DirEntry} (hnd : (list.map (·.id)).Nodup) {c : DirEntry}
    (hc : c ∈ list) : list.find? (fun x => x.id = c.id) = some c := by
  induction list with
  | nil => cases hc
  | cons d rest ih =>
    rw [List.map_cons, List.nodup_cons] at hnd
    rw [List.find?_cons]
    rcases List.mem_cons.1 hc with rfl | hc
    · simp
    · have : d.id ≠ c.id := fun he => hnd.1 (List.mem_map.2 ⟨c, hc, he.symm⟩)
      simp only [this, decide_false]
      exact ih hnd.2 hc

theorem target_some {list : List DirEntry} (hnd : (list.map (·.id)).Nodup) {rid : Nat}
    {d c : DirEntry} {k : Link} (hc : c ∈ list) (hu : linkUsed rid d k) (h : c.id = linkId d k) :
    target list rid d k = some c := by
  unfold target
  rw [if_pos hu, ← h]
  exact find_by_id hnd hc

theorem sibling_cases {list : List DirEntry} {rid : Nat} {d x : DirEntry} :
    Sibling list rid d x ↔ x = d ∨ (∃ c, target list rid d .prev = some c ∧ Sibling list rid c x) ∨
      (∃ c, target list rid d .next = some c ∧ Sibling list rid c x) := by
  constructor
  · rintro ⟨ks, hs, hr⟩
    cases ks with
    | nil => cases hr; exact Or.inl rfl
    | cons k ks =>
      simp only [reach] at hr
      cases ht : target list rid d k with
      | none => rw [ht] at hr; cases hr
      | some c =>
        rw [ht] at hr
        have hks : Link.sub ∉ ks := fun h => hs (by simp [h])
        cases k with
        | sub => exact absurd (by simp) hs
        | prev => exact Or.inr (Or.inl ⟨c, ht, ks, hks, hr⟩)
        | next => exact Or.inr (Or.inr ⟨c, ht, ks, hks, hr⟩)
  · rintro (rfl | ⟨c, ht, ks, hs, hr⟩ | ⟨c, ht, ks, hs, hr⟩)
    · exact ⟨[], by simp, rfl⟩
    · exact ⟨.prev :: ks, by simp [hs], by simp [reach, ht, hr]⟩
    · exact ⟨.next :: ks, by simp [hs], by simp [reach, ht, hr]⟩

/-- The entries of a tree of siblings are the ones reached along sibling links. -/
theorem siblings_mem {list : List DirEntry} (hnd : (list.map (·.id)).Nodup) {rid i : Nat}
    {es : List DirEntry} (h : Siblings list i es) :
    (i = 0xffffffff ∧ es = []) ∨ i ≠ 0xffffffff ∧ ∃ c ∈ list, c.id = i ∧
      ∀ x, x ∈ es ↔ Sibling list rid c x := by
  induction h with
  | none => exact Or.inl ⟨rfl, rfl⟩
  | @node d l r hd hid hl hr ihl ihr =>
    refine Or.inr ⟨hid, d, hd, rfl, fun x => ?_⟩
    rw [sibling_cases, List.mem_append, List.mem_cons]
    have key : ∀ (k : Link) (es : List DirEntry), k ≠ .sub →
        ((linkId d k = 0xffffffff ∧ es = []) ∨ linkId d k ≠ 0xffffffff ∧ ∃ c ∈ list, c.id = linkId d k ∧
          ∀ x, x ∈ es ↔ Sibling list rid c x) →
        (x ∈ es ↔ ∃ c, target list rid d k = some c ∧ Sibling list rid c x) := by
      intro k es hk h
      rcases h with ⟨h1, rfl⟩ | ⟨h1, c, hc, h2, h3⟩
      · have : target list rid d k = none := by
          unfold target
          cases k with
          | sub => exact absurd rfl hk
          | prev => rw [if_neg]; exact fun hh => hh h1
          | next => rw [if_neg]; exact fun hh => hh h1
        simp [this]
      · have : target list rid d k = some c := by
          refine target_some hnd hc ?_ h2
          cases k with
          | sub => exact absurd rfl hk
          | prev => exact h1
          | next => exact h1
        rw [h3 x]
        simp [this]
    rw [key .prev l (by decide) ihl, key .next r (by decide) ihr]
    constructor
    · rintro (h | h | h)
      · exact Or.inr (Or.inl h)
      · exact Or.inl h
      · exact Or.inr (Or.inr h)
    · rintro (h | h | h)
      · exact Or.inr (Or.inl h)
      · exact Or.inl h
      · exact Or.inr (Or.inr h)

/-- No entry occurs twice among the siblings. -/
theorem siblings_nodup {list : List DirEntry} (hnd : (list.map (·.id)).Nodup) {root : DirEntry}
    (hroot : root ∈ list) (hu : UniquePaths list root) {i : Nat} {es : List DirEntry} (h : Siblings list i es) :
    ∀ p c, reach list root.id root p = some c → c.id = i → es.Nodup := by
  induction h with
  | none => intro _ _ _ _; exact List.nodup_nil
  | @node d l r hd hid hl hr ihl ihr =>
    intro p c hp hc
    have hcd : c = d := by
      have h1 := find_by_id hnd (reach_mem list root.id p _ _ hp hroot)
      rw [hc, find_by_id hnd hd] at h1
      exact (Option.some.inj h1).symm
    subst hcd
    have side : ∀ (k : Link) (es : List DirEntry), k ≠ .sub → Siblings list (linkId c k) es →
        (∀ p c', reach list root.id root p = some c' → c'.id = linkId c k → es.Nodup) →
        es.Nodup ∧ ∀ x ∈ es, ∃ ks, reach list root.id root (p ++ k :: ks) = some x := by
      intro k es hk hs ih
      rcases siblings_mem (rid := root.id) hnd hs with ⟨_, rfl⟩ | ⟨h1, b, hb, h2, h3⟩
      · exact ⟨List.nodup_nil, by simp⟩
      · have ht : target list root.id c k = some b := by
          refine target_some hnd hb ?_ h2
          cases k with
          | sub => exact absurd rfl hk
          | prev => exact h1
          | next => exact h1
        refine ⟨ih (p ++ [k]) b ?_ h2, fun x hx => ?_⟩
        · rw [reach_append, hp]
          simp [reach, ht]
        · obtain ⟨ks, _, hks⟩ := (h3 x).1 hx
          refine ⟨ks, ?_⟩
          rw [reach_append, hp]
          simp [reach, ht, hks]
    obtain ⟨n1, m1⟩ := side .prev l (by decide) hl ihl
    obtain ⟨n2, m2⟩ := side .next r (by decide) hr ihr
    rw [List.nodup_append, List.nodup_cons]
    refine ⟨n1, ⟨fun hmem => ?_, n2⟩, ?_⟩
    · obtain ⟨ks, hks⟩ := m2 c hmem
      have := congrArg List.length (hu _ _ _ _ hks hp rfl)
      simp at this
    · intro a ha b hb hab
      subst hab
      obtain ⟨ks, hks⟩ := m1 a ha
      rcases List.mem_cons.1 hb with rfl | hb
      · have := congrArg List.length (hu _ _ _ _ hks hp rfl)
        simp at this
      · obtain ⟨ks', hks'⟩ := m2 a hb
        have := hu _ _ _ _ hks hks' rfl
        simp at this

theorem perm_map_lift {α β : Type} {f : α → β} {l K : List β} (h : l.Perm K) :
    ∀ z : List α, z.map f = l → ∃ z' : List α, z'.Perm z ∧ z'.map f = K := by
  induction h with
  | nil => intro z hz; exact ⟨z, .refl _, hz⟩
  | cons x _ ih =>
    intro z hz
    cases z with
    | nil => cases hz
    | cons a z =>
      rw [List.map_cons, List.cons.injEq] at hz
      obtain ⟨z', h1, h2⟩ := ih z hz.2
      exact ⟨a :: z', h1.cons a, by rw [List.map_cons, hz.1, h2]⟩
  | swap x y l =>
    intro z hz
    match z, hz with
    | a :: b :: z, hz =>
      simp only [List.map_cons, List.cons.injEq] at hz
      exact ⟨b :: a :: z, .swap _ _ _, by simp [hz.1, hz.2.1, hz.2.2]⟩
  | trans _ _ ih1 ih2 =>
    intro z hz
    obtain ⟨z', h1, h2⟩ := ih1 z hz
    obtain ⟨z'', h3, h4⟩ := ih2 z' h2
    exact ⟨z'', h3.trans h1, h4⟩

/-! ### The content of streams -/

theorem chain_nth_get {table : List Nat} {a b : Nat} {ids : List Nat} (h : Chain table a ids b) :
    ∀ k, k < ids.length → nth table a k = ids[k]? := by
  induction h with
  | nil a => intro k hk; simp at hk
  | cons hx _ ih =>
    intro k hk
    cases k with
    | zero => rfl
    | succ k =>
      rw [nth_succ' hx, List.getElem?_cons_succ]
      exact ih k (by simpa using hk)

theorem sector_byte {content : Bytes} {ss id : Nat} {s : Bytes}
    (h : sector (Dev.ofBytes content) ss id = some s) (j : Nat) (hj : j < ss) :
    content[sectorPos ss id + j]? = s[j]? := by
  unfold sector Dev.get Dev.ofBytes at h
  simp only [] at h
  split at h
  · cases h
    rw [List.getElem?_take, if_pos hj, List.getElem?_drop]
  · cases h

/-- The bytes of a chain of sectors. -/
theorem chain_bytes {content : Bytes} {ss : Nat} (hss : 0 < ss) {table : List Nat} {a b : Nat}
    {ids : List Nat} {secs : List Bytes} (hc : Chain table a ids b)
    (hs : SectorsAre content ss ids secs) (i : Nat) (hi : i < secs.flatten.length) :
    ∃ id, nth table a (i / ss) = some id ∧
      content[sectorPos ss id + i % ss]? = secs.flatten[i]? := by
  obtain ⟨hl, hlen⟩ := sectorsAre_length hs
  rw [flatten_length hlen] at hi
  have hk : i / ss < ids.length := by
    rw [hl]; exact (Nat.div_lt_iff_lt_mul hss).2 hi
  refine ⟨ids[i / ss], ?_, ?_⟩
  · rw [chain_nth_get hc _ hk, List.getElem?_eq_getElem hk]
  · have hk' : i / ss < secs.length := by omega
    have h1 : (ids.map (sector (Dev.ofBytes content) ss))[i / ss]? = (secs.map some)[i / ss]? := by
      rw [hs]
    simp only [List.getElem?_map, List.getElem?_eq_getElem hk, List.getElem?_eq_getElem hk',
      Option.map_some, Option.some.injEq] at h1
    rw [sector_byte h1 _ (Nat.mod_lt _ hss), flatten_getElem hss hlen,
      List.getElem?_eq_getElem hk', Option.bind_some]

/-- A stream whose bytes are known is shown. -/
theorem stream_reads {f : FileCtx} (h : WellFormedCtx f) {d : DirEntry} (hfit : EntryFits d)
    (ht : d.type = 2) (hn : Nested f d) {content data : Bytes} (hdev : f.dev = Dev.ofBytes content)
    (hsize : d.size = data.length) {ids : List Nat} {last : Nat}
    (hc : Chain (tableOf f d) d.start ids last) (hnd : ids.Nodup)
    (hlen : data.length ≤ ids.length * unitOf f d)
    (hbytes : ∀ i, i < data.length → streamByte content f d i = data[i]?)
    (cur size : Nat) (hsz : size ≤ 2 ^ 63 - 1) :
    (streamRead f d cur size).1.res = .ok ((data.drop cur).take size) := by
  have htab : (tableOf f d).length ≤ 2 ^ 25 := by
    unfold tableOf
    split
    · exact h.ssat.1
    · exact h.sat.1
  have hle : ids.length ≤ (tableOf f d).length := by
    have h1 : ids.length ≤ (List.range (tableOf f d).length).length :=
      List.Nodup.length_le_of_subset hnd (fun i hi => List.mem_range.2 (chain_mem_lt hc i hi))
    simpa using h1
  have hd : StreamOk f d := by
    refine ⟨hfit, ht, ?_⟩
    rw [hsize]
    refine Nat.le_trans hlen ?_
    rw [Nat.mul_comm]
    exact Nat.mul_le_mul_left _ (by omega)
  obtain ⟨out, hr⟩ := C24_covered_stream_readable h hd hn hdev hc hnd (by rw [hsize]; exact hlen)
    (fun i hi => by
      rw [hbytes i (by omega), List.getElem?_eq_getElem (by omega)]; rfl) cur size hsz
  obtain ⟨h1, h2⟩ := C23_read_returns_stream_bytes_partial h hd hn hdev hr
  rw [hr]
  congr 1
  apply List.ext_getElem?
  intro j
  by_cases hj : j < out.length
  · rw [h2 j hj, hbytes _ (by omega), List.getElem?_take, if_pos (by omega), List.getElem?_drop]
  · rw [List.getElem?_eq_none (by omega), List.getElem?_eq_none]
    simp only [List.length_take, List.length_drop]
    omega

end Olecf
