import Verif.Lemmas.Layout
import Verif.Props.FileLife

/-
  C47: a file that holds a document shows that document.
-/

namespace Olecf.Props
open Olecf.Spec

/-- The items below an item show what the entries hold. -/
theorem holds_shows {content : Bytes} {h : HeaderFields} {sat ssat : List Nat} {container : Bytes}
    {list : List DirEntry} {root : DirEntry} (hg : GoodLinks list root)
    (hnd : (list.map (·.id)).Nodup) {cmp : Bytes → Bytes → Option Bool} {t : Tree} {m : List Nat}
    (htree : (createTree list cmp).res = .ok (some (t, m))) (htr : t.root = root) {f : FileCtx}
    (hstream : ∀ d ∈ list, d.type = 2 → ∀ data : Bytes, d.size = data.length →
      (d.size < h.minStreamSize → ShortData container (2 ^ h.shortExp) ssat d.start data) →
      (h.minStreamSize ≤ d.size → LongData content (2 ^ h.sectorExp) sat d.start data) →
      ∀ cur size : Nat, size ≤ 2 ^ 63 - 1 →
        (streamRead f d cur size).1.res = .ok ((data.drop cur).take size))
    {d : DirEntry} {doc : Doc} (hh : Holds content h sat ssat container list d doc) :
    ∀ p ks it, itemAt t p = some it → it.entry = d → reach list root.id root ks = some d →
      Shows t f it doc := by
  have hroot : root ∈ list := List.mem_of_find?_eq_some hg.hroot
  have hu := goodLinks_unique hg hnd
  have hsorted := C19_sub_items_sorted list cmp hnd t m htree
  have hexact := (C18_sub_items_exact list cmp hnd t m htree).1
  subst htr
  induction hh with
  | @stream d data ht hno hs h1 h2 =>
    intro p ks it hit hent hks
    subst hent
    have hnone : numberOfSubItems t it = 0 := by
      by_contra hne
      have hlt : 0 < (t.kids it.node).length := Nat.pos_of_ne_zero hne
      obtain ⟨c, hc, _⟩ := (hexact p it hit (t.kids it.node)[0]).1
        ⟨0, getSubItem_ok.2 ⟨_, List.getElem?_eq_getElem hlt, rfl⟩⟩
      unfold target at hc
      rw [if_neg (fun hh => hh.1 hno)] at hc
      cases hc
    exact .stream ht hnone hs (hstream _ (reach_mem list _ ks _ _ hks hroot) ht data hs h1 h2)
  | @storage d kids es ht hsib hlen hname hsub ih =>
    intro p ks it hit hent hks
    subst hent
    have hdl : it.entry ∈ list := reach_mem list _ ks _ _ hks hroot
    -- the entries of the sub items
    have hkids : ∀ x, x ∈ t.kids it.node ↔ LinkedUnder list t.root.id it.entry x := by
      intro x
      rw [← hexact p it hit x]
      constructor
      · intro hx
        obtain ⟨i, hi, he⟩ := List.mem_iff_getElem.1 hx
        exact ⟨i, getSubItem_ok.2 ⟨x, List.getElem?_eq_some_iff.2 ⟨hi, he⟩, rfl⟩⟩
      · rintro ⟨i, hi⟩
        obtain ⟨e, he, hx⟩ := getSubItem_ok.1 hi
        have hxe : x = e := congrArg Item.entry hx
        exact hxe ▸ List.mem_of_getElem? he
    -- the siblings are linked under the entry
    have hes : (∀ x, x ∈ es ↔ LinkedUnder list t.root.id it.entry x) ∧ es.Nodup ∧
        ∀ x ∈ es, ∃ ks', reach list t.root.id t.root ks' = some x := by
      rcases siblings_mem (rid := t.root.id) hnd hsib with ⟨h1, rfl⟩ | ⟨h1, c, hc, h2, h3⟩
      · have htn : target list t.root.id it.entry .sub = none := by
          unfold target
          rw [if_neg (fun hh => hh.1 h1)]
        refine ⟨fun x => ⟨fun hx => (by cases hx), ?_⟩, List.nodup_nil, by simp⟩
        rintro ⟨c, hc, _⟩
        rw [htn] at hc
        cases hc
      · have htc : target list t.root.id it.entry .sub = some c :=
          target_some hnd hc ⟨h1, hg.noRoot _ hdl .sub, hg.first⟩ h2
        have hrc : reach list t.root.id t.root (ks ++ [.sub]) = some c := by
          rw [reach_append, hks]
          simp [reach, htc]
        refine ⟨fun x => ?_, siblings_nodup hnd hroot hu hsib _ c hrc h2, fun x hx => ?_⟩
        · rw [h3 x]
          constructor
          · intro hx; exact ⟨c, htc, hx⟩
          · rintro ⟨c', hc', hx⟩
            rw [htc] at hc'
            cases hc'
            exact hx
        · obtain ⟨ks', _, hks'⟩ := (h3 x).1 hx
          refine ⟨ks ++ [.sub] ++ ks', ?_⟩
          rw [reach_append, hrc]
          exact hks'
    obtain ⟨hes1, hes2, hes3⟩ := hes
    have hknd : (t.kids it.node).Nodup := by
      rw [List.nodup_iff_pairwise_ne, List.pairwise_iff_getElem]
      intro i j hi hj hij he
      have := (hsorted it).1 i j (.ofEntry (t.kids it.node)[i]) (.ofEntry (t.kids it.node)[j])
        (getSubItem_ok.2 ⟨_, List.getElem?_eq_getElem hi, rfl⟩)
        (getSubItem_ok.2 ⟨_, List.getElem?_eq_getElem hj, rfl⟩) (by omega)
      rw [he] at this
      exact absurd this (Nat.lt_irrefl _)
    have hperm : es.Perm (t.kids it.node) :=
      (List.perm_ext_iff_of_nodup hes2 hknd).2 fun x => (hes1 x).trans (hkids x).symm
    obtain ⟨z, hz1, hz2⟩ := perm_map_lift (f := Prod.fst) hperm (es.zip kids)
      (List.map_fst_zip (by omega))
    have hzl : z.length = (t.kids it.node).length := by rw [← hz2, List.length_map]
    have hpair : ∀ (i : Nat) (c : Item) (k : Bytes × Doc),
        ((t.kids it.node).map Item.ofEntry)[i]? = some c → (z.map Prod.snd)[i]? = some k →
        c = .ofEntry c.entry ∧ (t.kids it.node)[i]? = some c.entry ∧
        ∃ j : Nat, es[j]? = some c.entry ∧ kids[j]? = some k := by
      intro i c k hc hk
      rw [List.getElem?_map] at hc hk
      obtain ⟨e, he, rfl⟩ := Option.map_eq_some_iff.1 hc
      obtain ⟨x, hx, rfl⟩ := Option.map_eq_some_iff.1 hk
      have hxe : x.1 = e := by
        have : (z.map Prod.fst)[i]? = some e := by rw [hz2, he]
        rw [List.getElem?_map, hx] at this
        exact Option.some.inj this
      have hmem : x ∈ es.zip kids := hz1.mem_iff.1 (List.mem_of_getElem? hx)
      obtain ⟨j, hj, hje⟩ := List.mem_iff_getElem.1 hmem
      rw [List.length_zip] at hj
      rw [List.getElem_zip] at hje
      refine ⟨rfl, he, j, ?_, ?_⟩
      · rw [List.getElem?_eq_getElem (by omega)]
        exact congrArg some ((congrArg Prod.fst hje).trans hxe)
      · rw [List.getElem?_eq_getElem (by omega)]
        exact congrArg some (congrArg Prod.snd hje)
    refine .storage (items := (t.kids it.node).map .ofEntry) (kids' := z.map Prod.snd) ht
      (by simp [numberOfSubItems]) ?_ ?_ (by simp [hzl]) ?_ ?_
    · intro i c
      rw [getSubItem_ok, List.getElem?_map, Option.map_eq_some_iff]
      simp only [eq_comm]
    · have h1 := hz1.map Prod.snd
      rwa [List.map_snd_zip (by omega)] at h1
    · intro i c k hc hk
      obtain ⟨_, _, j, h1, h2⟩ := hpair i c k hc hk
      exact hname j _ _ h1 h2
    · intro i c k hc hk
      obtain ⟨h0, hi, j, h1, h2⟩ := hpair i c k hc hk
      obtain ⟨ks', hks'⟩ := hes3 _ (List.mem_of_getElem? h1)
      refine ih j _ _ h1 h2 (p ++ [i]) ks' c ?_ rfl hks'
      exact (itemFrom_snoc t p _ i c).2 ⟨it, hit, getSubItem_ok.2 ⟨_, hi, h0⟩⟩

/-- The reads of the streams of a file with the given layout. -/
theorem layout_streams {content : Bytes} {h : HeaderFields} {sat ssat : List Nat} {f : FileCtx}
    {root : DirEntry} (hw : WellFormedCtx f) (hdev : f.dev = Dev.ofBytes content)
    (hss : f.io.sectorSize = 2 ^ h.sectorExp) (hsh : f.io.shortSectorSize = 2 ^ h.shortExp)
    (hmin : f.io.minStreamSize = h.minStreamSize) (hstart : f.io.shortStreamStart = root.start)
    (hsat : f.sat.ids = sat) (hssat : f.ssat.ids = ssat) (hle : h.shortExp ≤ h.sectorExp)
    {cids : List Nat} {clast : Nat} {csecs : List Bytes} (hc : Chain sat root.start cids clast)
    (hcs : SectorsAre content (2 ^ h.sectorExp) cids csecs)
    {d : DirEntry} (hfit : EntryFits d) (ht : d.type = 2) {data : Bytes}
    (hsize : d.size = data.length)
    (h1 : d.size < h.minStreamSize → ShortData csecs.flatten (2 ^ h.shortExp) ssat d.start data)
    (h2 : h.minStreamSize ≤ d.size → LongData content (2 ^ h.sectorExp) sat d.start data)
    (cur size : Nat) (hsz : size ≤ 2 ^ 63 - 1) :
    (streamRead f d cur size).1.res = .ok ((data.drop cur).take size) := by
  have hn : Nested f d :=
    C23_nested_of_le hsh hss (by rw [hsh, hss]; exact Nat.pow_le_pow_right (by decide) hle) d
  have hssp : 0 < 2 ^ h.sectorExp := Nat.two_pow_pos _
  have hshp : 0 < 2 ^ h.shortExp := Nat.two_pow_pos _
  by_cases hsm : Small f d
  · have hsm' : d.size < h.minStreamSize := by rw [← hmin]; exact hsm
    obtain ⟨ids, last, hch, hnd, hin, r, hr⟩ := h1 hsm'
    have hchunk : ∀ s ∈ ids.map (fun n => (csecs.flatten.drop (n * 2 ^ h.shortExp)).take
        (2 ^ h.shortExp)), s.length = 2 ^ h.shortExp := by
      intro s hs
      obtain ⟨n, hn', rfl⟩ := List.mem_map.1 hs
      have := hin n hn'
      rw [Nat.add_mul, Nat.one_mul] at this
      rw [List.length_take, List.length_drop]
      omega
    rw [List.flatMap_def] at hr
    have hlen := congrArg List.length hr
    rw [flatten_length hchunk, List.length_append, List.length_map] at hlen
    refine stream_reads hw hfit ht hn hdev hsize (ids := ids) (last := last) ?_ hnd ?_ ?_ cur size hsz
    · unfold tableOf; rw [if_pos hsm, hssat]; exact hch
    · unfold unitOf; rw [if_pos hsm, hsh]; omega
    · intro i hi
      have hk : i / 2 ^ h.shortExp < ids.length := (Nat.div_lt_iff_lt_mul hshp).2 (by omega)
      have hb := flatten_getElem hshp hchunk i
      rw [← hr, List.getElem?_append_left hi, List.getElem?_map, List.getElem?_eq_getElem hk,
        Option.map_some, Option.bind_some, List.getElem?_take, if_pos (Nat.mod_lt _ hshp),
        List.getElem?_drop] at hb
      rw [hb]
      have hlt : ids[i / 2 ^ h.shortExp] * 2 ^ h.shortExp + i % 2 ^ h.shortExp <
          csecs.flatten.length := by
        have := hin _ (List.getElem_mem hk)
        rw [Nat.add_mul, Nat.one_mul] at this
        have := Nat.mod_lt i hshp
        omega
      obtain ⟨id, hid1, hid2⟩ := chain_bytes hssp hc hcs _ hlt
      unfold streamByte bytePos unitOf tableOf
      simp only [if_pos hsm, hssat, hsh]
      rw [chain_nth_get hch _ hk, List.getElem?_eq_getElem hk]
      simp only []
      unfold containerPos
      rw [hsat, hstart, hss, hid1]
      exact hid2
  · have hsm' : h.minStreamSize ≤ d.size := by rw [← hmin]; exact Nat.le_of_not_lt hsm
    obtain ⟨ids, last, secs, hch, hnd, hs, r, hr⟩ := h2 hsm'
    obtain ⟨hl1, hl2⟩ := sectorsAre_length hs
    have hlen := congrArg List.length hr
    rw [flatten_length hl2, List.length_append] at hlen
    refine stream_reads hw hfit ht hn hdev hsize (ids := ids) (last := last) ?_ hnd ?_ ?_ cur size hsz
    · unfold tableOf; rw [if_neg hsm, hsat]; exact hch
    · unfold unitOf; rw [if_neg hsm, hss, hl1]; omega
    · intro i hi
      obtain ⟨id, hid1, hid2⟩ := chain_bytes hssp hch hs i (by
        rw [flatten_length hl2]; omega)
      unfold streamByte bytePos unitOf tableOf
      simp only [if_neg hsm, hsat, hss]
      rw [hid1]
      simp only []
      rw [hid2, ← hr, List.getElem?_append_left hi]

/-- What is loaded from a file that holds a document: the directory, its tree, and the document. -/
theorem heldBy_loaded {content : Bytes} {h : HeaderFields} {slots : List SlotFields} {doc : Doc}
    (hf : HeldBy content h slots doc) (cmp : Bytes → Bytes → Option Bool)
    (hcmp : ∀ n ∈ (entriesOfSlots slots).map (·.name), Comparable cmp n) (io : IoHandle) :
    ∃ l t m, (openCore cmp (Dev.ofBytes content) io).1.res = .ok l ∧ l.tree = some t ∧
      (createTree (entriesOfSlots slots) cmp).res = .ok (some (t, m)) ∧
      (∀ d ∈ entriesOfSlots slots, EntryFits d) ∧
      WellFormedCtx ⟨(openCore cmp (Dev.ofBytes content) io).2, Dev.ofBytes content, l.sat, l.ssat⟩ ∧
      128 ≤ (openCore cmp (Dev.ofBytes content) io).2.sectorSize ∧
      (openCore cmp (Dev.ofBytes content) io).2.shortSectorSize = 2 ^ h.shortExp ∧ t.root.id = 0 ∧
      Shows t ⟨(openCore cmp (Dev.ofBytes content) io).2, Dev.ofBytes content, l.sat, l.ssat⟩
        ⟨none, t.root⟩ doc := by
  obtain ⟨e, sat, ssat, root, cids, clast, csecs, hl, hg, hle, hc, hcs, hh⟩ := hf
  have hcmp' : ∀ d ∈ entriesOfSlots slots, NameComparable cmp d :=
    fun d hd => hcmp d.name (List.mem_map_of_mem hd)
  obtain ⟨l, t, m, ho, hls, hlss, htr⟩ := layout_opens hl hg cmp hcmp' io
  obtain ⟨h1, h2⟩ := openCore_ok_iff.2 ⟨_, _, _, _, ho⟩
  obtain ⟨_, hsw, hssw⟩ := ho.wf
  have hnd := entriesOfSlots_nodup slots
  have hfit : ∀ d ∈ entriesOfSlots slots, EntryFits d := by
    intro d hd
    obtain ⟨i, s, hs, _, rfl⟩ := entriesOfSlots_mem.1 hd
    have := hl.hslots s (List.mem_of_getElem? hs)
    exact ⟨this.start, this.size⟩
  have hrl : root ∈ entriesOfSlots slots := List.mem_of_find?_eq_some hg.hroot
  have hp : ∀ k, k ≤ 15 → 0 < 2 ^ k ∧ 2 ^ k ≤ 32768 := by
    intro k hk
    have h3 : 2 ^ k ≤ 2 ^ 15 := Nat.pow_le_pow_right (by decide) hk
    exact ⟨Nat.two_pow_pos _, by omega⟩
  have hw : WellFormedCtx ⟨(openCore cmp (Dev.ofBytes content) io).2, Dev.ofBytes content, l.sat,
      l.ssat⟩ := by
    rw [h2]
    exact ⟨hp _ hl.fits.sectorExp, hp _ hl.fits.shortExp,
      (hfit _ hrl).start, ⟨hsw.size, hsw.lt⟩, ⟨hssw.size, hssw.lt⟩⟩
  refine ⟨l, t, m, h1, by rw [ho.hltree]; rfl, ho.htree, hfit, hw, ?_, by rw [h2]; rfl, by rw [htr]; exact hg.first, ?_⟩
  · rw [h2]
    exact Nat.pow_le_pow_right (by decide) hl.sectorSize (n := 2)
  · rw [h2] at hw ⊢
    refine holds_shows hg hnd ho.htree htr ?_ hh [] [] _ rfl htr rfl
    intro d hd ht data hsize hs1 hs2 cur size hsz
    exact layout_streams (root := root) hw rfl rfl rfl rfl rfl
      (by rw [hls]) (by rw [hlss]) hle hc hcs (hfit d hd) ht hsize hs1 hs2 cur size hsz

/-- C47, loading: a file that holds a document is accepted, and what was loaded shows the
  document. -/
theorem C47_load {content : Bytes} {names : List Bytes} {doc : Doc} (hf : FileHolds content names doc)
    (cmp : Bytes → Bytes → Option Bool) (hcmp : ∀ n ∈ names, Comparable cmp n) (io : IoHandle) :
    ∃ l t, (openCore cmp (Dev.ofBytes content) io).1.res = .ok l ∧ l.tree = some t ∧
      Shows t ⟨(openCore cmp (Dev.ofBytes content) io).2, Dev.ofBytes content, l.sat, l.ssat⟩
        ⟨none, t.root⟩ doc := by
  obtain ⟨h, slots, hh, rfl⟩ := hf
  obtain ⟨l, t, m, h1, h2, _, _, _, _, _, _, h3⟩ := heldBy_loaded hh cmp hcmp io
  exact ⟨l, t, h1, h2, h3⟩

/-- C47: a file object opens a file that holds a document, whatever was done with the file object
  before, and the hierarchy below its root item, with the content of all the streams, is the
  document. -/
theorem C47_document_shown {content : Bytes} {names : List Bytes} {doc : Doc}
    (hf : FileHolds content names doc)
    (cmp : Bytes → Bytes → Option Bool) (hcmp : ∀ n ∈ names, Comparable cmp n)
    (st : FileState) (hst : Reachable cmp st) (hclosed : st.file.handle = none)
    (h : HandleId) (hdev : st.world.dev h = Dev.ofBytes content)
    (flags : Nat) (hfl : flags % 4 = 1) :
    (openHandle cmp h flags {} st).1 = .ok () ∧
    ∃ t f it, (openHandle cmp h flags {} st).2.file.tree = some t ∧
      (openHandle cmp h flags {} st).2.file.ctx
        ((openHandle cmp h flags {} st).2.world.dev h) = some f ∧
      rootItem (some t) = some it ∧ Shows t f it doc := by
  have hok : (openHandle cmp h flags {} st).1 = .ok () := by
    obtain ⟨l, _, hl, _⟩ := C47_load hf cmp hcmp .cleared
    exact (C34_open_iff cmp st hst h flags {}).1.2 ⟨hclosed, hfl, rfl, Or.inr rfl, l, by rw [hdev]; exact hl⟩
  refine ⟨hok, ?_⟩
  obtain ⟨l, hdr, t0, list, tree, ho, hfile, hworld⟩ := openHandle_loaded (reachable_inv hst).closed hok
  obtain ⟨h1, h2⟩ := openCore_ok_iff.2 ⟨_, _, _, _, ho⟩
  obtain ⟨l', t, hl', ht, hs⟩ := C47_load hf cmp hcmp st.file.io
  rw [hdev] at h1 h2
  rw [h1] at hl'
  cases hl'
  rw [h2] at hs
  have hd : (openHandle cmp h flags {} st).2.world.dev h = Dev.ofBytes content := by
    rw [hworld, (ensureOpen_isOpen _ _).2.2.1, hdev]
  refine ⟨t, _, ⟨none, t.root⟩, by rw [hfile]; exact ht, ?_, rfl, hs⟩
  rw [hd]
  rw [hfile]
  rfl

end Olecf.Props
